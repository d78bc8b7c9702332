import Verif.Lists.StructListLemmas
/-
Model of the pointer array `s_sis_pointer_list` (src/core/sis_list.c:1567-1784) and of the number array `s_sis_int_list`
(src/core/sis_list.c:1788-1863), which share their buffer handling.

An element is a value of `α` (a pointer that is not NULL, or an `int64`).  A slot never written is `none`.  When the list
has a free function, the elements it frees are reported.
-/
namespace Sis.PL
open Sis.SL (blit slots intMax)

/-- `s_sis_pointer_list` (src/core/sis_list.h:224-231); `maxcount` is the length of `buf`, `vf` tells whether the list
has a free function. -/
structure PList (α : Type) where
  buf : List (Option α)
  count : Nat
  vf : Bool
deriving DecidableEq

variable {α : Type}

/-- `sis_pointer_list_create` (src/core/sis_list.c:1567-1576). -/
def create (vf : Bool) : PList α := ⟨[], 0, vf⟩

/-- The elements the free function is called on (`vfree`, src/core/sis_list.c:1589-1601). -/
def freed (vf : Bool) (xs : List α) : List α := if vf then xs else []

/-- The elements in slots `a` to `a + n`; `none`: outside the buffer or never written (src/core/sis_list.c:1697-1706). -/
def elems (s : PList α) (a n : Nat) : Option (List α) := (slots s.buf a n).bind fun v => v.mapM id

/-- `sis_pointer_list_clear` (src/core/sis_list.c:1589-1601). -/
def clear (s : PList α) : Option (PList α × List α) := do
  let xs ← elems s 0 s.count
  some ({ s with count := 0 }, freed s.vf xs)

/-- `_pointer_list_grow` (src/core/sis_list.c:1603-1630); POINTER_LIST_STEP_ROW is 1024 (src/core/sis_list.h:222). -/
def grow (s : PList α) (n : Nat) : Option (PList α) :=
  if n < s.buf.length then some s
  else
    let maxlen := if n < 256 then 256 else n + 1024
    if maxlen * 8 < intMax then do
      let b ← blit (List.replicate maxlen none) 0 s.buf
      some { s with buf := b }
    else none

/-- `sis_pointer_list_push` (src/core/sis_list.c:1640-1647) and `sis_int_list_push` (src/core/sis_list.c:1801-1808). -/
def push (s : PList α) (x : α) : Option (PList α × Int) := do
  let s ← grow s (s.count + 1)
  let b ← blit s.buf s.count [some x]
  some ({ s with buf := b, count := s.count + 1 }, (s.count : Int) + 1)

/-- `sis_pointer_list_update` (src/core/sis_list.c:1662-1675) and `sis_int_list_update` (src/core/sis_list.c:1809-1818). -/
def update (s : PList α) (i : Int) (x : α) : Option (PList α × Int × List α) :=
  if 0 ≤ i ∧ i < s.count then do
    let old ← elems s i.toNat 1
    let b ← blit s.buf i.toNat [some x]
    some ({ s with buf := b }, i, freed s.vf old)
  else some (s, -1, [])

/-- `sis_pointer_list_insert` (src/core/sis_list.c:1676-1696) and `sis_int_list_insert` (src/core/sis_list.c:1819-1838). -/
def insert (s : PList α) (i : Int) (x : α) : Option (PList α × Int) :=
  if s.count < 1 then push s x
  else if i < 0 ∨ i > s.count - 1 then some (s, -1)
  else do
    let s ← grow s (s.count + 1)
    let b ← blit s.buf (i.toNat + 1) (← slots s.buf i.toNat (s.count - i.toNat))
    let b ← blit b i.toNat [some x]
    some ({ s with buf := b, count := s.count + 1 }, i)

/-- `sis_pointer_list_get` (src/core/sis_list.c:1697-1706). -/
def get (s : PList α) (i : Int) : Option (Option α) :=
  if 0 ≤ i ∧ i < s.count then
    match s.buf[i.toNat]? with
    | some (some r) => some (some r)
    | _ => none
  else some none

/-- `sis_pointer_list_delete` (src/core/sis_list.c:1725-1749) and `sis_int_list_delete` (src/core/sis_list.c:1849-1863). -/
def delete (s : PList α) (i n : Int) : Option (PList α × Int × List α) :=
  if i < 0 ∨ n < 1 ∨ i + n > s.count then some (s, 0, [])
  else do
    let old ← elems s i.toNat n.toNat
    let b ← blit s.buf i.toNat (← slots s.buf (i + n).toNat (s.count - n.toNat - i.toNat))
    some ({ s with buf := b, count := s.count - n.toNat }, n, freed s.vf old)

/-- `sis_pointer_list_indexof` (src/core/sis_list.c:1750-1761) and `sis_int_list_indexof`
(src/core/sis_list.c:1788-1799). -/
def indexof [BEq α] (s : PList α) (x : α) : Option Int := do
  let xs ← elems s 0 s.count
  match xs.findIdx? (· == x) with
  | some i => some i
  | none => some (-1)

/-- `sis_pointer_list_set` (src/core/sis_list.c:1648-1660). -/
def set [BEq α] (s : PList α) (x : α) : Option (PList α × Int × List α) := do
  let i ← indexof s x
  if i < 0 then
    let (s, _) ← push s x
    some (s, i, [])
  else
    let (s, _, f) ← update s i x
    some (s, i, f)

/-- `sis_pointer_list_find_and_delete` (src/core/sis_list.c:1767-1784). -/
def findAndDelete [BEq α] (s : PList α) (x : α) : Option (PList α × Int × List α) := do
  let i ← indexof s x
  if i < 0 then some (s, 0, [])
  else
    let old ← elems s i.toNat 1
    let b ← blit s.buf i.toNat (← slots s.buf (i.toNat + 1) (s.count - 1 - i.toNat))
    some ({ s with buf := b, count := s.count - 1 }, i, freed s.vf old)

/-- `sis_int_list_get` (src/core/sis_list.c:1839-1848): the number passes through a local variable of type `int`. -/
def intGet (s : PList Int) (i : Int) : Option Int :=
  (get s i).map fun r => match r with
    | none => -1
    | some v => (Int.emod (v + 2147483648) 4294967296) - 2147483648

end Sis.PL
