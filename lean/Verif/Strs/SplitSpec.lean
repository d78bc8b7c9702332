import Verif.Strs.Args
/-
What splitting at a separator means.
-/
namespace Sis.Split
open Sis

/-- A separator behind `p` is the first one: none begins within `p`. -/
def First (sep p : Bytes) : Prop := ∀ a b, p ++ sep = a ++ sep ++ b → p.length ≤ a.length

end Sis.Split
