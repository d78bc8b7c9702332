import Verif.Strs.Sds
/-
What the calls on strings mean for the bytes of the string.
-/
namespace Sis.Sds
open Sis

/-- A position given from the beginning, or with -1 for the last byte; before the first byte is the first. -/
def place (x : Bytes) (i : Int) : Nat := if i < 0 then (x.length + i).toNat else i.toNat

/-- Without the bytes at either end for which `p` holds. -/
def strip (p : UInt8 → Bool) (x : Bytes) : Bytes := ((x.dropWhile p).reverse.dropWhile p).reverse

/-- The bytes after a call.  Trimming also takes zeros off. -/
def after (x : Bytes) : Op → Bytes
  | .cat b => x ++ b
  | .cpy b => b
  | .grow n => x ++ List.replicate (n - x.length) 0
  | .room _ => x
  | .clear => []
  | .shrink => x
  | .dup => x
  | .range a b => (x.take (place x b + 1)).drop (place x a)
  | .trim cset => strip (fun c => c ∈ cset ∨ c = 0) x

/-- The bytes after calls in a row. -/
def value (x : Bytes) (ops : List Op) : Bytes := ops.foldl after x

/-- How many bytes a call asks for, or how far its positions are away. -/
def asked : Op → Nat
  | .cat b => b.length
  | .cpy b => b.length
  | .grow n => n
  | .room n => n
  | .range a b => max a.natAbs b.natAbs
  | _ => 0

end Sis.Sds
