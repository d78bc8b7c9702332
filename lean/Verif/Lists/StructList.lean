/-
Model of the fixed-size record array `s_sis_struct_list` of `src/core/sis_list.c` (lines 11-379).

A record is an element of `α`; the buffer is a list of slots, a slot that was never written is `none`.  Sizes and
positions are C `int`s: a byte count that does not fit makes the whole operation undefined (`none`), and so does a
write or a read outside the buffer.
-/
namespace Sis.SL

/-- `s_sis_struct_list` (src/core/sis_list.h:19-25); `maxcount` is the length of `buf`. -/
structure SList (α : Type) where
  buf : List (Option α)
  start : Nat
  count : Nat
  len : Nat
deriving DecidableEq

/-- The largest C `int` plus one (`count` and `maxcount`, src/core/sis_list.h:19-25). -/
def intMax : Nat := 2147483648

variable {α : Type}

/-- `memmove` of `src` to slot `dst` of a buffer; `none`: outside the buffer (src/core/sis_list.c:130-169). -/
def blit (buf : List (Option α)) (dst : Nat) (src : List (Option α)) : Option (List (Option α)) :=
  if dst + src.length ≤ buf.length then some (buf.take dst ++ src ++ buf.drop (dst + src.length)) else none

/-- Reading `n` slots from slot `src` on; `none`: outside the buffer (src/core/sis_list.c:362-379). -/
def slots (buf : List (Option α)) (src n : Nat) : Option (List (Option α)) :=
  if src + n ≤ buf.length then some ((buf.drop src).take n) else none

/-- `sis_struct_list_create` (src/core/sis_list.c:11-24). -/
def create (len : Nat) : Option (SList α) := if len < 1 then none else some ⟨[], 0, 0, len⟩

/-- The capacity chosen by `_struct_list_grow` (src/core/sis_list.c:58-83). -/
def newMax (newlen : Nat) : Nat :=
  if newlen = 1 then 1
  else if newlen < 16 then 16
  else if newlen < 64 then 64
  else if newlen < 256 then 256
  else if newlen < 1024 then 1024
  else newlen * 2

/-- Moving the records to the front of the buffer (src/core/sis_list.c:47-52 and 368-373). -/
def compact (s : SList α) : Option (SList α) := do
  let b ← blit s.buf 0 (← slots s.buf s.start s.count)
  some { s with buf := b, start := 0 }

/-- The same, only when there is something before the records (src/core/sis_list.c:368-373). -/
def front (s : SList α) : Option (SList α) := if s.start > 0 then compact s else some s

/-- The second half of `_struct_list_grow` (src/core/sis_list.c:53-98). -/
def enlarge (s : SList α) (add : Nat) : Option (SList α) :=
  let newlen := s.start + s.count + add
  if newlen ≤ s.buf.length then some s
  else if newMax newlen * s.len < intMax then
    let fresh := List.replicate (newMax newlen) none
    if s.count > 0 then do
      let b ← blit fresh 0 (← slots s.buf s.start s.count)
      some { s with buf := b, start := 0 }
    else some { s with buf := fresh, start := 0 }
  else none

/-- `_struct_list_grow` (src/core/sis_list.c:42-98). -/
def grow (s : SList α) (add : Nat) : Option (SList α) :=
  if s.start + s.count + add > s.buf.length ∧ s.start > 0 then (compact s).bind (enlarge · add)
  else enlarge s add

/-- `sis_struct_list_pushs` (src/core/sis_list.c:99-108); with one record it is `sis_struct_list_push`
(src/core/sis_list.c:110-119). -/
def pushs (s : SList α) (rs : List α) : Option (SList α × Int) := do
  let s ← grow s rs.length
  let b ← blit s.buf (s.count + s.start) (rs.map some)
  some ({ s with buf := b, count := s.count + rs.length }, (s.count + rs.length : Int) - 1)

/-- `sis_struct_list_push` (src/core/sis_list.c:110-119). -/
def push (s : SList α) (r : α) : Option (SList α × Int) := pushs s [r]

/-- `sis_struct_list_update` (src/core/sis_list.c:120-129). -/
def update (s : SList α) (i : Int) (r : α) : Option (SList α × Int) :=
  if 0 ≤ i ∧ i < s.count then do
    let b ← blit s.buf (i.toNat + s.start) [some r]
    some ({ s with buf := b }, i)
  else some (s, -1)

/-- `sis_struct_list_inserts` (src/core/sis_list.c:150-169); with one record it is `sis_struct_list_insert`
(src/core/sis_list.c:130-149). -/
def inserts (s : SList α) (i : Int) (rs : List α) : Option (SList α × Int) :=
  if s.count < 1 ∨ i > s.count - 1 then pushs s rs
  else do
    let i := if i < 0 then 0 else i.toNat
    let s ← grow s rs.length
    let off := i + s.start
    let b ← blit s.buf (off + rs.length) (← slots s.buf off (s.count - i))
    let b ← blit b off (rs.map some)
    some ({ s with buf := b, count := s.count + rs.length }, i)

/-- `sis_struct_list_insert` (src/core/sis_list.c:130-149). -/
def insert (s : SList α) (i : Int) (r : α) : Option (SList α × Int) := inserts s i [r]

/-- `sis_struct_list_get` (src/core/sis_list.c:178-187): the outer `none` is a read outside the buffer or of a slot never
written, the inner one the NULL answer. -/
def get (s : SList α) (i : Int) : Option (Option α) :=
  if 0 ≤ i ∧ i < s.count then
    match s.buf[i.toNat + s.start]? with
    | some (some r) => some (some r)
    | _ => none
  else some none

/-- `sis_struct_list_pop` (src/core/sis_list.c:351-361): the record the returned pointer shows. -/
def pop (s : SList α) : Option (SList α × Option α) :=
  if s.count > 0 then
    match s.buf[s.start]? with
    | some (some r) => some ({ s with start := s.start + 1, count := s.count - 1 }, some r)
    | _ => none
  else some (s, none)

/-- `sis_struct_list_delete` (src/core/sis_list.c:362-379). -/
def delete (s : SList α) (i n : Int) : Option (SList α × Int) :=
  if i < 0 ∨ n < 1 ∨ i + n > s.count then some (s, 0)
  else do
    let s ← front s
    let b ← blit s.buf i.toNat (← slots s.buf (i + n).toNat (s.count - n.toNat - i.toNat))
    some ({ s with buf := b, count := s.count - n.toNat }, n)

/-- `sis_struct_list_clear` (src/core/sis_list.c:37-41). -/
def clear (s : SList α) : SList α := { s with count := 0, start := 0 }

/-- `sis_struct_list_rect` (src/core/sis_list.c:284-302): keep the last `n` records. -/
def rect (s : SList α) (n : Int) : Option (SList α) :=
  if n < 1 ∨ n > s.count then some s
  else
    let s := { s with start := s.start + s.count - n.toNat }
    if s.start > n.toNat then do
      let b ← blit s.buf 0 (← slots s.buf s.start n.toNat)
      some { s with buf := b, start := 0, count := n.toNat }
    else some { s with count := n.toNat }

/-- `sis_struct_list_limit` (src/core/sis_list.c:303-313). -/
def limit (s : SList α) (n : Int) : SList α :=
  if n < 1 ∨ n > s.count then s
  else { s with start := s.start + s.count - n.toNat, count := n.toNat }

/-- `sis_struct_list_pack` (src/core/sis_list.c:328-348). -/
def pack (s : SList α) : Option (SList α × Int) :=
  if s.count > 0 then do
    let b ← slots s.buf s.start s.count
    some ({ s with buf := b, start := 0 }, s.count)
  else some ({ s with buf := [], start := 0, count := 0 }, 0)

/-- `sis_struct_list_set` (src/core/sis_list.c:247-259) with `sis_struct_list_set_size` (src/core/sis_list.c:227-237): the
records of the input replace everything; an empty input changes nothing. -/
def set (s : SList α) (rs : List α) : Option (SList α × Int) :=
  if rs.length < 1 then some (s, 0)
  else if rs.length * s.len < intMax then do
    let b ← blit (List.replicate rs.length none) 0 (rs.map some)
    some ({ s with buf := b, start := 0, count := rs.length }, rs.length)
  else none

/-- `sis_struct_list_clone` (src/core/sis_list.c:314-318): `src` into `s`. -/
def clone (src s : SList α) : Option (SList α × Int) := do
  let v ← slots src.buf src.start src.count
  let rs ← v.mapM id
  let (s', _) ← set s rs
  some (s', src.count)

end Sis.SL
