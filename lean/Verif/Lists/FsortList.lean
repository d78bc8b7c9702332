import Verif.Lists.PointerList
/-
Model of the ranked list `s_sis_fsort_list` (src/core/sis_list.c:1869-1947): an array of `double` scores and an array of
pointers, kept in step.  The score type `β` and its comparison `lt` are left open (the C type is `double`, and `<` on it is
false as soon as one side is NaN).
-/
namespace Sis.Fsort
open Sis.SL (SList)
open Sis.PL (PList)

/-- `s_sis_fsort_list` (src/core/sis_list.h:283-286). -/
structure FList (β α : Type) where
  key : SList β
  val : PList α

variable {α β : Type}

/-- `sis_fsort_list_create` (src/core/sis_list.c:1869-1876). -/
def create (vf : Bool) : Option (FList β α) := do
  some ⟨← SL.create 8, PL.create vf⟩

/-- `sis_fsort_list_clear` (src/core/sis_list.c:1884-1888); the elements freed. -/
def clear (s : FList β α) : Option (FList β α × List α) := do
  let (v, f) ← PL.clear s.val
  some (⟨SL.clear s.key, v⟩, f)

/-- The loop of `_fsort_list_find` (src/core/sis_list.c:1889-1902) from position `i` on, `n` positions to go, `index` the
answer so far; `none` is the use of a NULL score pointer. -/
def scan (lt : β → β → Bool) (keys : SList β) (k : β) : Nat → Int → Int → Option Int
  | 0, _, index => some index
  | n + 1, i, _ =>
    match SL.get keys i with
    | some (some v) => if lt v k then some i else scan lt keys k n (i + 1) (i + 1)
    | _ => none

/-- `sis_fsort_list_set` (src/core/sis_list.c:1903-1918). -/
def set (lt : β → β → Bool) (s : FList β α) (k : β) (v : α) : Option (FList β α × Int) := do
  let index ← scan lt s.key k s.key.count 0 (-1)
  if index < 0 ∨ index > (s.key.count : Int) - 1 then
    let (key, _) ← SL.push s.key k
    let (val, _) ← PL.push s.val v
    some (⟨key, val⟩, s.key.count)
  else
    let (key, _) ← SL.insert s.key index k
    let (val, _) ← PL.insert s.val index v
    some (⟨key, val⟩, index)

/-- `sis_fsort_list_get` (src/core/sis_list.c:1931-1934). -/
def get (s : FList β α) (i : Int) : Option (Option α) := PL.get s.val i

/-- `sis_fsort_list_getkey` (src/core/sis_list.c:1935-1938): the NULL pointer of a bad position is used. -/
def getkey (s : FList β α) (i : Int) : Option β := (SL.get s.key i).bind id

/-- `sis_fsort_list_del` (src/core/sis_list.c:1939-1943); the elements freed. -/
def del (s : FList β α) (i : Int) : Option (FList β α × List α) := do
  let (key, _) ← SL.delete s.key i 1
  let (val, _, f) ← PL.delete s.val i 1
  some (⟨key, val⟩, f)

/-- `sis_fsort_list_find` (src/core/sis_list.c:1919-1930). -/
def find [BEq α] (s : FList β α) (v : α) : Option Int := PL.indexof s.val v

/-- `sis_fsort_list_getsize` (src/core/sis_list.c:1944-1947). -/
def size (s : FList β α) : Nat := min s.key.count s.val.count

end Sis.Fsort
