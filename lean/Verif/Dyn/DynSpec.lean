import Verif.Dyn.Dynamic
/-
What the theorems about table definitions and conversions say, apart from the model of the code.
-/
namespace Sis.Dyn
open Sis

/-- A definition of a field that says all that is needed: a name, a type that is known, and a length and a number of elements
from 1 to 65535. -/
def Proper (d : Def) : Prop := d.name ≠ none ∧ d.style ≠ none ∧ 1 ≤ d.len ∧ d.len ≤ 65535 ∧ 1 ≤ d.count ∧ d.count ≤ 65535

instance (d : Def) : Decidable (Proper d) := by unfold Proper; infer_instance

/-- The bytes of a record the fields of the definitions take. -/
def total : List Def → Nat
  | [] => 0
  | d :: ds => (if Proper d then d.len.toNat * d.count.toNat else 0) + total ds

/-- The definition is a proper one of that name, where upper and lower case are the same. -/
def Named (k : Bytes) (d : Def) : Prop := Proper d ∧ ∃ k', d.name = some k' ∧ k.map lower = k'.map lower

/-- A proper definition of one of the four types of times that index a table. -/
def Timed (d : Def) : Prop := Proper d ∧ (d.style = some .tsec ∨ d.style = some .msec ∨ d.style = some .minu ∨ d.style = some .date)

/-- A table as programs make it: from definitions, and by adding fields; of at most 65536 bytes a record. -/
inductive Made : Db → Prop
  | create {ds : List Def} {db : Db} : create ds = some (some db) → db.size ≤ 65536 → Made db
  | add {db db' : Db} {name : Bytes} {style : St} {len count dot : Nat} : Made db → 1 ≤ len → 1 ≤ count →
      db.size + len * count ≤ 65536 → addField db name style len count dot = some db' → Made db'

/-- Element `e` of the field `f` of record `r` of a buffer of records of `size` bytes. -/
def slot (size : Nat) (buf : Bytes) (r : Nat) (f : Field) (e : Nat) : Bytes := (buf.drop (r * size + f.offset + e * f.len)).take f.len

/-- The two tables can be told apart by the sizes of records, the numbers of fields, or a field of both. -/
def Differ (gdb fdb : Db) : Prop :=
  fdb.size ≠ gdb.size ∨ fdb.fields.length ≠ gdb.fields.length ∨
  ∃ name f g, field fdb name = some f ∧ field gdb name = some g ∧ ¬ (g.style = f.style ∧ g.len = f.len ∧ g.count = f.count)

/-- The number in an element of an integer field: two's complement for signed ones. -/
def num (f : Field) (b : Bytes) : Int :=
  if f.style = .int ∧ 2 ^ (8 * f.len) ≤ 2 * leVal b then (leVal b : Int) - 2 ^ (8 * f.len) else leVal b

/-- A field of whole numbers of 1, 2, 4 or 8 bytes. -/
def Whole (f : Field) : Prop := (f.style = .int ∨ f.style = .uint) ∧ (f.len = 1 ∨ f.len = 2 ∨ f.len = 4 ∨ f.len = 8)

/-- The unit of a type of times that index a table. -/
def unitOf : St → Option Time.Style
  | .msec => some .msec
  | .tsec => some .tsec
  | .minu => some .minu
  | .date => some .date
  | _ => none

/-- The number can be kept by the field. -/
def Fits (f : Field) (n : Int) : Prop :=
  if f.style = .int then -(2 ^ (8 * f.len) : Int) ≤ 2 * n ∧ 2 * n < 2 ^ (8 * f.len) else 0 ≤ n ∧ n < 2 ^ (8 * f.len)

end Sis.Dyn
