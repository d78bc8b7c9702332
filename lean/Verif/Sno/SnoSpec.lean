import Verif.Sno.Sno
import Verif.Sdb.WriterSpec
import Verif.Server.SubSpec
/- What a user expects of a file that keeps records in the order in which they came, apart from the functions that write and read it. -/
namespace Sis.Sno
open Sis
open Sis.Sdb (Lib Tab fold KeyName TabName records)
open Sis.Dyn (Db)

/-- What a user does with the file. -/
inductive Act
  | keys (ks : List Bytes)
  | tabs (ts : List Tab)
  | start
  | put (k s d : Bytes)
  | stop

/-- The call of the writer: keys are given in a text with commas. -/
def Act.cmd : Act → Cmd
  | .keys ks => .keys (List.intercalate [44] ks)
  | .tabs ts => .tabs ts
  | .start => .start
  | .put k s d => .put k s d
  | .stop => .stop

/-- The content of a file: the keys and the tables with the size of their records, as they were first named, the records in the
order in which they were written, and whether writing was started and not stopped. -/
structure Abs where
  keys : List Bytes := []
  tabs : List (Bytes × Nat) := []
  recs : List Rec := []
  busy : Bool := false

/-- A name as it was first given. -/
def spell (ks : List Bytes) (k : Bytes) : Bytes := (ks.find? fun n => fold n == fold k).getD k

/-- A name is added if it is not there, without regard to case. -/
def addName (ks : List Bytes) (k : Bytes) : List Bytes := if ks.any (fun n => fold n == fold k) then ks else ks ++ [k]

/-- A table is added if there is none of its name. -/
def addTable (ts : List (Bytes × Nat)) (t : Tab) : List (Bytes × Nat) :=
  if ts.any (fun n => fold n.1 == fold t.name) then ts else ts ++ [(t.name, t.db.size)]

/-- What an action makes of the content.  Bytes that are not whole records, or of a table that is not known, are not taken. -/
def Abs.act (a : Abs) : Act → Abs
  | .keys ks => { a with keys := ks.foldl addName a.keys }
  | .tabs ts => { a with tabs := ts.foldl addTable a.tabs }
  | .start => { a with busy := true }
  | .put k s d =>
    match a.tabs.find? (fun t => fold t.1 == fold s) with
    | none => a
    | some (s, n) =>
      { a with
        keys := addName a.keys k
        recs := a.recs ++ if d.length % n = 0 then (records n (d.length / n) d).map fun r => ⟨spell (addName a.keys k) k, s, r⟩ else [] }
  | .stop => { a with busy := false }

def Abs.acts (a : Abs) (as : List Act) : Abs := as.foldl Abs.act a

/-- What may be done: names are usual ones, tables keep the size of their records, records are written between start and stop,
and a page and a write together do not reach 2 GB. -/
def Allowed (P : Db → Prop) (limit : Nat) (a : Abs) : Act → Prop
  | .keys ks => ∀ k ∈ ks, KeyName k ∧ (0 : UInt8) ∉ k
  | .tabs ts => (∀ t ∈ ts, TabName t.name ∧ (44 : UInt8) ∉ t.name ∧ P t.db ∧ 0 < t.db.size ∧ ∀ o ∈ a.tabs, fold o.1 = fold t.name → o.2 = t.db.size) ∧
      ts.Pairwise fun x y => fold x.name ≠ fold y.name
  | .start => a.busy = false
  | .put k _ d => a.busy = true ∧ KeyName k ∧ (0 : UInt8) ∉ k ∧ d ≠ [] ∧ limit + d.length < 2 ^ 31
  | .stop => a.busy = true

/-- The file is not too large: 2 GB for the records, 2 GB for the index, no size field of which is read in two pieces
of 16 MB, and in which the blocks of records are listed in one block. -/
structure Moderate (f : Bytes × Bytes) : Prop where
  body : f.1.length + 64 < 2 ^ 31
  idx : Disk.Readable f.2
  one : ∀ bs, Disk.readFull (fun _ _ => .next) (Disk.chunksOf (Disk.readSize - 1) f.2) = some bs → (bs.filter fun b => Disk.hidOf b.1 == hidIdxSno).length ≤ 1

/-- A writer is opened on a file, used and closed after the last stop: every call is allowed, nothing undefined happens, and the file is not
too large. -/
structure Session (lib : Lib) (v : Time.Env) (P : Db → Prop) (limit : Nat) (old : Option (Bytes × Bytes)) (a : Abs) (as : List Act) (new : Bytes × Bytes) : Prop where
  ok : ∀ (pre : List Act) (x : Act) (post : List Act), as = pre ++ x :: post → Allowed P limit (a.acts pre) x
  run : session lib v limit old (as.map Act.cmd) = some new
  stopped : (a.acts as).busy = false
  size : Moderate new

/-- A file used in sessions from its beginning: the file and the content it should have. -/
inductive Hist (lib : Lib) (v : Time.Env) (P : Db → Prop) (limit : Nat) : Option (Bytes × Bytes) → Abs → Prop
  | new : Hist lib v P limit none {}
  | session {old : Option (Bytes × Bytes)} {a : Abs} (h : Hist lib v P limit old a) {as : List Act} {new : Bytes × Bytes}
      (s : Session lib v P limit old a as new) : Hist lib v P limit (some new) (a.acts as)

/-- What a subscriber hears of a sequence of records: the records in order, up to the first one with which it ends the subscription;
it is told that it broke off if it did, and if it did not it heard all of them. -/
structure Hears (quit : List Rec → Bool) (all got : List Rec) (broke : Bool) : Prop where
  pre : got <+: all
  on : ∀ p, p <+: got → p ≠ got → quit p = false
  told : broke = quit got
  all : broke = false → got = all

/-- Whether a record is one of those a list of keys and a list of tables ask for: keys by the first bytes of their name, tables by
their name. -/
def Wants (keys sdbs : Bytes) (r : Rec) : Prop :=
  Sub.Half true (Sub.low keys) (Sub.low r.key) ∧ Sub.Half false (Sub.low sdbs) (Sub.low r.tab)

end Sis.Sno
