import Verif.Base.Bytes
/-
Model of the variable-length size codec of `src/core/sis_memory.c` (lines 171-308).

The functions operate on an `s_sis_memory`; here they are written on the byte string that is appended
(writers) or on the unread bytes (readers).  `Verif.Memory.Queue` models the buffer itself and shows
that appending/consuming is what the buffer does.  Reading past the unread bytes reads memory that was
never written by the caller: the model returns `none` for it (the C code does not check).
-/
namespace Sis

/-- `sis_memory_cat_byte` (src/core/sis_memory.c:171-204): the bytes appended for `(in_, bytes_)`.
Only 1, 2, 4 and 8 are accepted widths; any other width appends nothing.  `in_` is an `int64`; the
stored image is its low-order bytes, so the model takes the value modulo 2^64 as a `Nat`. -/
def catByte (v : Nat) (bytes : Nat) : Bytes :=
  if bytes = 1 ∨ bytes = 2 ∨ bytes = 4 ∨ bytes = 8 then leBytes bytes v else []

/-- `sis_memory_get_byte` (src/core/sis_memory.c:206-217): value and remaining unread bytes.
`none`: fewer than `bytes` unread bytes (out-of-bounds read in C). -/
def getByte (bytes : Nat) (m : Bytes) : Option (Nat × Bytes) :=
  if bytes = 1 ∨ bytes = 2 ∨ bytes = 4 ∨ bytes = 8 then
    (takeBytes bytes m).map fun (a, r) => (leVal a, r)
  else some (0, m)

/-- `sis_memory_cat_ssize` (src/core/sis_memory.c:227-255): the bytes appended for size `n`. -/
def catSsize (n : Nat) : Bytes :=
  if n > 0xFFFFFFFF then catByte 254 1 ++ catByte n 8
  else if n > 0xFFFF + 250 then catByte 253 1 ++ catByte n 4
  else if n > 0xFF + 250 then catByte 252 1 ++ catByte (n - 250) 2
  else if n > 250 then catByte 251 1 ++ catByte (n - 250) 1
  else catByte n 1

/-- The value returned by `sis_memory_cat_ssize` (same lines). -/
def catSsizeRet (n : Nat) : Nat :=
  if n > 0xFFFFFFFF then 9
  else if n > 0xFFFF + 250 then 5
  else if n > 0xFF + 250 then 3
  else if n > 250 then 2
  else 1

/-- `sis_memory_get_ssize` (src/core/sis_memory.c:257-277).  `none` is an out-of-bounds read. -/
def getSsize (m : Bytes) : Option (Nat × Bytes) :=
  match getByte 1 m with
  | none => none
  | some (dw, r) =>
    if dw = 254 ∨ dw = 255 then getByte 8 r
    else if dw = 253 then getByte 4 r
    else if dw = 252 then (getByte 2 r).map fun (v, r') => (v + 250, r')
    else if dw = 251 then (getByte 1 r).map fun (v, r') => (v + 250, r')
    else some (dw, r)

/-- `sis_memory_try_ssize` (src/core/sis_memory.c:278-319). -/
def trySsize (m : Bytes) : Bool :=
  if m.length < 1 then false
  else match m with
    | [] => false
    | b :: _ =>
      if b = 254 ∨ b = 255 then decide (m.length > 8)
      else if b = 253 then decide (m.length > 4)
      else if b = 252 then decide (m.length > 2)
      else if b = 251 then decide (m.length > 1)
      else true

end Sis
