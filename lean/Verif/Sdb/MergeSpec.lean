import Verif.Sdb.Merge
import Verif.Sdb.WriterSpec
import Verif.Sdb.IndexSpec
/- What a user expects of merging the blocks of a year, apart from the function that does it. -/
namespace Sis.Sdb
open Sis
open Sis.Dyn (Db)

/-- All blocks of a key, a table and a file as one, with the times of the last. -/
def asOne (l : List (Nat × Nat × Bytes)) : List (Nat × Nat × Bytes) :=
  match l.getLast? with
  | none => []
  | some z => [(z.1, z.2.1, allBytes l)]

/-- The content when the blocks of a year are merged. -/
def Abs.merge (a : Abs) (y : Nat) : Abs :=
  { a with rows := fun k s u => if u = .year y then (a.rows k s u).map asOne else a.rows k s u }

/-- The file of a year has at most one block of keys and at most one of tables. -/
def OneDict (lib : Lib) (d : Disk) (y : Nat) : Prop :=
  ∀ f c, d.unit (.year y) = some f → openUnit lib .year f = some c →
    (blocksOf c.idx "_keys_".toUTF8.toList).length ≤ 1 ∧ (blocksOf c.idx "_sdbs_".toUTF8.toList).length ≤ 1

/-- A database used in sessions from its beginning, with the blocks of years merged in between. -/
inductive MHist (lib : Lib) (v : Time.Env) (P : Db → Prop) : Disk → Abs → Prop
  | new : MHist lib v P {} {}
  | session {d : Disk} {a : Abs} (h : MHist lib v P d a) {as : List Act} {d' : Disk} (s : Session lib v P d a as d') : MHist lib v P d' (a.acts v as)
  | merge {d : Disk} {a : Abs} (h : MHist lib v P d a) {y : Nat} {d' : Disk} (one : OneDict lib d y) (run : mergeYear lib d y = some d')
    (size : Moderate d') : MHist lib v P d' (a.merge y)

end Sis.Sdb
