import Verif.Lists.StructList
/-
Model of the sorted list `s_sis_sort_list` (src/core/sis_list.c:674-815): two record arrays, one of `int64` keys and one of
values, kept in step.
-/
namespace Sis.Sort
open Sis.SL (SList)

/-- `s_sis_sort_list` (src/core/sis_list.h:73-77). -/
structure SortL (α : Type) where
  asc : Bool
  key : SList Int
  val : SList α

variable {α : Type}

/-- `sis_sort_list_create` (src/core/sis_list.c:674-681); the flag is set by the caller afterwards. -/
def create (asc : Bool) (len : Nat) : Option (SortL α) := do
  some ⟨asc, ← SL.create 8, ← SL.create len⟩

/-- `sis_sort_list_clear` (src/core/sis_list.c:689-693). -/
def clear (s : SortL α) : SortL α := { s with key := SL.clear s.key, val := SL.clear s.val }

/-- `a` comes before `b` (src/core/sis_list.c:740-778). -/
def before (asc : Bool) (a b : Int) : Bool := if asc then decide (a < b) else decide (b < a)

/-- The loop of `_sort_list_find` (src/core/sis_list.c:740-778), with a number of passes that cannot be reached before the
range is empty: every pass shrinks it.  `none` is the use of a NULL key pointer. -/
def bfindN (asc : Bool) (keys : SList Int) (key : Int) : Nat → Int → Int → Option Int
  | 0, _, _ => some (-1)
  | n + 1, start, stop =>
    if start ≤ stop then
      let mid := (stop - start) / 2 + start
      match SL.get keys mid with
      | some (some v) =>
        if before asc key v then bfindN asc keys key n start (mid - 1)
        else if before asc v key then bfindN asc keys key n (mid + 1) stop
        else some mid
      | _ => none
    else some (-1)

/-- `_sort_list_find` (src/core/sis_list.c:740-778). -/
def bfind (asc : Bool) (keys : SList Int) (key : Int) (start stop : Int) : Option Int :=
  bfindN asc keys key (stop + 1 - start).toNat start stop

/-- `sis_sort_list_find` (src/core/sis_list.c:779-795): the position of the value the returned pointer shows and the value,
or the NULL answer. -/
def find (s : SortL α) (key : Int) : Option (Option (Int × α)) := do
  let i ← bfind s.asc s.key key 0 (s.key.count - 1)
  if i ≥ 0 then
    match ← SL.get s.val i with
    | some v => some (some (i, v))
    | none => some none
  else some none

/-- The scan of `sis_sort_list_set` for the first key that has to come behind the new one
(src/core/sis_list.c:709-718). -/
def scan (asc : Bool) (keys : SList Int) (key : Int) : Nat → Int → Option (Option Int)
  | 0, _ => some none
  | n + 1, i =>
    match SL.get keys i with
    | some (some k) => if before asc key k then some (some i) else scan asc keys key n (i + 1)
    | _ => none

/-- `sis_sort_list_set` (src/core/sis_list.c:701-722). -/
def set (s : SortL α) (key : Int) (v : α) : Option (SortL α) := do
  match ← find s key with
  | some (i, _) => do
    let (val, _) ← SL.update s.val i v
    some { s with val := val }
  | none =>
    match ← scan s.asc s.key key s.key.count 0 with
    | some i => do
      let (k, _) ← SL.insert s.key i key
      let (w, _) ← SL.insert s.val i v
      some { s with key := k, val := w }
    | none => do
      let (k, _) ← SL.push s.key key
      let (w, _) ← SL.push s.val v
      some { s with key := k, val := w }

/-- `sis_sort_list_get` (src/core/sis_list.c:796-799). -/
def get (s : SortL α) (i : Int) : Option (Option α) := SL.get s.val i

/-- `sis_sort_list_deli` (src/core/sis_list.c:807-811). -/
def deli (s : SortL α) (i : Int) : Option (SortL α) := do
  let (k, _) ← SL.delete s.key i 1
  let (w, _) ← SL.delete s.val i 1
  some { s with key := k, val := w }

/-- `sis_sort_list_del` (src/core/sis_list.c:800-806) on the pointer `sis_sort_list_find` gave for position `i`: the index is
counted from the beginning of the buffer. -/
def delAt (s : SortL α) (i : Int) : Option (SortL α) := deli s (i + s.val.start)

/-- Deleting what `sis_sort_list_find` finds; nothing when it finds nothing (src/core/sis_list.c:800-806). -/
def delKey (s : SortL α) (key : Int) : Option (SortL α) := do
  match ← find s key with
  | some (i, _) => delAt s i
  | none => some s

/-- `sis_sort_list_getsize` (src/core/sis_list.c:812-815). -/
def size (s : SortL α) : Nat := min s.key.count s.val.count

/-- `sis_sort_list_clone` (src/core/sis_list.c:694-699): the order flag is not copied. -/
def clone (src des : SortL α) : Option (SortL α) := do
  let des := clear des
  let (k, _) ← SL.clone src.key des.key
  let (w, _) ← SL.clone src.val des.val
  some { des with key := k, val := w }

end Sis.Sort
