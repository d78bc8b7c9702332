import Verif.Strs.Sds
/-
The order of strings, and what happens to a byte.
-/
namespace Sis.Sds
open Sis

/-- `x` comes before `y`: it is the beginning of `y`, or has the smaller byte where they first differ. -/
def Before (x y : Bytes) : Prop :=
  (∃ c v, y = x ++ c :: v) ∨ ∃ p a b u v, a < b ∧ x = p ++ a :: u ∧ y = p ++ b :: v

/-- A byte, or what it is replaced with in the first pair that begins with it. -/
def replaced (l : List (UInt8 × UInt8)) (c : UInt8) : UInt8 := ((l.find? fun p => p.1 = c).map (·.2)).getD c

/-- The capital letters and their small letters. -/
def letters : List (UInt8 × UInt8) := (List.range 26).map fun i => (UInt8.ofNat (65 + i), UInt8.ofNat (97 + i))

end Sis.Sds
