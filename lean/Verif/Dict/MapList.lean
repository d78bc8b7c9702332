import Verif.Dict.Dict
import Verif.Lists.PointerList
/-
Model of the named list `s_sis_map_list` (src/core/sis_map.c:146-242): a map from names to positions and a pointer array.

The lock taken when `safe` is set is left out: each call is one step.
-/
namespace Sis.ML
open Sis.Dict (Ty Dict)
open Sis.PL (PList)

/-- `s_sis_map_list` (src/core/sis_map.h). -/
structure MList (K α : Type) where
  map : Dict K Int
  list : PList α

variable {K α : Type}

/-- `sis_map_list_create` (src/core/sis_map.c:148-156). -/
def create (vf : Bool) : MList K α := ⟨Dict.create, PL.create vf⟩

/-- `sis_map_int_get` (src/core/sis_map.c:320-329). -/
def intGet (ty : Ty K) (d : Dict K Int) (k : K) : Option (Dict K Int × Int) :=
  (Dict.find ty d k).map fun r => (r.1, match r.2 with
    | none => -1
    | some e => e.2)

/-- `sis_map_list_clear` (src/core/sis_map.c:167-173); the elements freed. -/
def clear (m : MList K α) : Option (MList K α × List α) := do
  let (l, f) ← PL.clear m.list
  some (⟨(Dict.empty m.map).1, l⟩, f)

/-- `sis_map_list_get_index` (src/core/sis_map.c:175-189). -/
def getIndex (ty : Ty K) (m : MList K α) (k : K) : Option (MList K α × Int) :=
  (intGet ty m.map k).map fun r => ({ m with map := r.1 }, r.2)

/-- `sis_map_list_geti` (src/core/sis_map.c:190-196). -/
def geti (m : MList K α) (i : Int) : Option (Option α) := PL.get m.list i

/-- `sis_map_list_get` (src/core/sis_map.c:198-213). -/
def get (ty : Ty K) (m : MList K α) (k : K) : Option (MList K α × Option α) := do
  let (d, i) ← intGet ty m.map k
  let o ← if 0 ≤ i ∧ i < m.list.count then PL.get m.list i else some none
  some ({ m with map := d }, o)

/-- `sis_map_list_set` (src/core/sis_map.c:216-234): the position, and the elements freed. -/
def set (ty : Ty K) (m : MList K α) (k : K) (v : α) : Option (MList K α × Int × List α) := do
  let (d, i) ← intGet ty m.map k
  if i ≥ 0 then
    let (l, _, f) ← PL.update m.list i v
    some (⟨d, l⟩, i, f)
  else
    let (d, _, _) ← Dict.set ty d k m.list.count
    let (l, _) ← PL.push m.list v
    some (⟨d, l⟩, (l.count : Int) - 1, [])

/-- `sis_map_list_getsize` (src/core/sis_map.c:235-242). -/
def size (m : MList K α) : Nat := m.list.count

end Sis.ML
