import Verif.Zip.Incr
import Verif.Dyn.DynSpec
/-
What the theorems about the incremental compression say, apart from the model of the code.
-/
namespace Sis.Zip
open Sis

/-- A field of whole numbers, prices or times, of 1, 2, 4 or 8 bytes. -/
def Number (f : Dyn.Field) : Prop :=
  (f.style = .int ∨ f.style = .uint ∨ f.style = .price ∨ f.style = .msec ∨ f.style = .tsec ∨ f.style = .minu ∨ f.style = .date) ∧
  (f.len = 1 ∨ f.len = 2 ∨ f.len = 4 ∨ f.len = 8)

/-- A table of numbers and texts, of less than 65536 fields. -/
def Plain (db : Dyn.Db) : Prop :=
  Dyn.Made db ∧ db.fields.length < 65536 ∧ ∀ name f, Dyn.field db name = some f → Number f ∨ f.style = .char

/-- The text in a field of characters: what comes before the first zero. -/
def text (b : Bytes) : Bytes := b.takeWhile (· ≠ 0)

/-- Two elements of a field hold the same: the same text, or the same bytes. -/
def Alike (f : Dyn.Field) (a b : Bytes) : Prop := if f.style = .char then text a = text b else a = b

/-- Two records of a table hold the same in each element of each field. -/
def SameRec (db : Dyn.Db) (a b : Bytes) : Prop :=
  ∀ name f e, Dyn.field db name = some f → e < f.count → Alike f (Dyn.slot db.size a 0 f e) (Dyn.slot db.size b 0 f e)

/-- A record that can be the first one: no text is empty, and no number of 8 bytes is 2^63 (as an `int64`, the smallest). -/
def Opens (db : Dyn.Db) (r : Bytes) : Prop :=
  ∀ name f e, Dyn.field db name = some f → e < f.count →
    (f.style = .char → text (Dyn.slot db.size r 0 f e) ≠ []) ∧
    (f.style ≠ .char → f.len = 8 → leVal (Dyn.slot db.size r 0 f e) ≠ 2 ^ 63)

/-- A record that can follow another: no text becomes empty, and no number of 8 bytes changes by exactly 2^63. -/
def Follows (db : Dyn.Db) (a r : Bytes) : Prop :=
  ∀ name f e, Dyn.field db name = some f → e < f.count →
    (f.style = .char → text (Dyn.slot db.size r 0 f e) = [] → text (Dyn.slot db.size a 0 f e) = []) ∧
    (f.style ≠ .char → f.len = 8 → leVal (Dyn.slot db.size r 0 f e) ≠ (leVal (Dyn.slot db.size a 0 f e) + 2 ^ 63) % 2 ^ 64)

/-- Each record can follow the one before. -/
def Linked (db : Dyn.Db) : Bytes → List Bytes → Prop
  | _, [] => True
  | a, r :: rs => Follows db a r ∧ Linked db r rs

/-- Records that can be compressed one after the other: the first one can be the first, each other can follow the one before. -/
def Sound (db : Dyn.Db) : List Bytes → Prop
  | [] => True
  | r :: rs => Opens db r ∧ Linked db r rs

/-- A compressor or decompressor that was given tables and a number of keys by calls of the API. -/
inductive Ready : List Dyn.Db → Nat → Z → Prop
  | create : Ready [] 1 create
  | key {dbs : List Dyn.Db} {k : Nat} {z : Z} (n : Int) : Ready dbs k z → Ready dbs (if n < 1 then 1 else n.toNat) (setKey z n).2
  | sdb {dbs : List Dyn.Db} {k : Nat} {z z' : Z} {db : Dyn.Db} {i : Int} : Ready dbs k z → setSdb z db = some (i, z') → Ready (dbs ++ [db]) k z'

/-- The same after any number of blocks were compressed. -/
inductive Used (dbs : List Dyn.Db) (k : Nat) : Z → Prop
  | ready {z : Z} : Ready dbs k z → Used dbs k z
  | zip {z z' : Z} {src m fresh blk : Bytes} {n : Int} : Used dbs k z → compress z src m fresh = some (n, blk, z') → Used dbs k z'

/-- The most bits an element of a field takes when it is written: a text 36 more than its bytes, a number 7 more. -/
def width (f : Dyn.Field) : Nat := if f.style = .char then 8 * f.len + 36 else 8 * f.len + 7

/-- The most bits a record of a table takes when it is written. -/
def bitsOf (db : Dyn.Db) : Nat := ((List.range db.fields.length).map fun i => ((Dyn.fieldAt db i).map fun f => f.count * width f).getD 0).sum

/-- The pieces of `n` bytes of some bytes. -/
def pieces (n : Nat) (b : Bytes) : List Bytes := (List.range (b.length / n)).map fun i => (b.drop (i * n)).take n

end Sis.Zip
