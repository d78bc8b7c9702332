import Verif.Base.Bytes
/-
Model of the growable byte buffer `s_sis_memory` (src/core/sis_memory.h, src/core/sis_memory.c).
-/
namespace Sis

/-- `s_sis_memory` (src/core/sis_memory.h): `buf` is the allocated block (its length is `maxsize`),
`size` the write cursor, `offset` the read cursor.  Sizes are natural numbers: the model assumes
no `size_t` overflow (a buffer of 2^64 bytes cannot exist). -/
structure Mem where
  buf : Bytes
  size : Nat
  offset : Nat
deriving Repr, DecidableEq

namespace Mem

/-- Field `maxsize` (src/core/sis_memory.h:14-19). -/
def maxsize (m : Mem) : Nat := m.buf.length

/-- A store of `bs` at position `pos` of an allocated block (`memmove(buffer + pos, bs, n)`);
`none` when it would leave the block (heap overflow) (src/core/sis_memory.c:136-145). -/
def store (buf : Bytes) (pos : Nat) (bs : Bytes) : Option Bytes :=
  if pos + bs.length ≤ buf.length then some (buf.take pos ++ bs ++ buf.drop (pos + bs.length)) else none

/-- A load of `n` bytes at `pos`; `none` when it would leave the block (src/core/sis_memory.c:505-515). -/
def load (buf : Bytes) (pos n : Nat) : Option Bytes :=
  if pos + n ≤ buf.length then some ((buf.drop pos).take n) else none

/-- `SIS_MEMORY_SIZE` (src/core/sis_memory.h): 16 MB. -/
def memorySize : Nat := 16 * 1024 * 1024

/-- `sis_memory_create` (src/core/sis_memory.c:4-12).  `junk` is the content of freshly allocated memory. -/
def create (junk : UInt8) : Mem := ⟨List.replicate 255 junk, 0, 0⟩

/-- `sis_memory_create_size` (src/core/sis_memory.c:13-21). -/
def createSize (junk : UInt8) (n : Nat) : Mem := ⟨List.replicate (n + 1) junk, 0, 0⟩

/-- `sis_memory_clear` (src/core/sis_memory.c:61-65). -/
def clear (m : Mem) : Mem := { m with size := 0, offset := 0 }

/-- `sis_memory_get_size` (src/core/sis_memory.c:389-392). -/
def getSize (m : Mem) : Nat := m.size - m.offset

/-- `sis_memory_pack` (src/core/sis_memory.c:66-92). `m_->size - 1` is a `size_t`: for `size = 0` it wraps
to 2^64-1, so the comparison is false then. -/
def pack (m : Mem) : Option Mem :=
  if m.offset ≤ 0 then some m
  else if m.size ≠ 0 ∧ m.offset > m.size - 1 then some { m with size := 0, offset := 0 }
  else if m.getSize > 0 ∧ m.size > m.maxsize / 3 then
    let n := m.getSize
    match load m.buf m.offset n with
    | none => none
    | some bs =>
      match store m.buf 0 bs with
      | none => none
      | some b1 =>
        match store b1 n (List.replicate m.offset 0) with
        | none => none
        | some b2 => some ⟨b2, n, 0⟩
  else some m

/-- `sis_memory_grow` (src/core/sis_memory.c:112-134). -/
def grow (junk : UInt8) (m : Mem) (nsize : Nat) : Option Mem :=
  if nsize > m.maxsize then
    let g := min memorySize ((nsize + m.maxsize) / 2)
    let newsize := nsize + g
    let cursize := m.size - m.offset
    let newbuf := List.replicate newsize junk
    if cursize > 0 then
      match load m.buf m.offset cursize with
      | none => none
      | some bs =>
        match store newbuf 0 bs with
        | none => none
        | some b => some ⟨b, cursize, 0⟩
    else some ⟨newbuf, cursize, 0⟩
  else some m

/-- `sis_memory_cat` (src/core/sis_memory.c:135-144). -/
def cat (junk : UInt8) (m : Mem) (bs : Bytes) : Option Mem :=
  if bs.length > 0 then
    match grow junk m (bs.length + m.size) with
    | none => none
    | some m1 =>
      match store m1.buf m1.size bs with
      | none => none
      | some b => some { m1 with buf := b, size := m1.size + bs.length }
  else some m

/-- `sis_memory_read` / `sis_memory_readfile` (src/core/sis_memory.c:338-388): `bs` is what the file
system returned (possibly nothing, then the buffer is not touched). -/
def read (junk : UInt8) (m : Mem) (bs : Bytes) : Option Mem :=
  if bs.length = 0 then some m
  else
    match pack m with
    | none => none
    | some m1 =>
      match grow junk m1 (bs.length + m1.size) with
      | none => none
      | some m2 =>
        match store m2.buf m2.size bs with
        | none => none
        | some b => some { m2 with buf := b, size := m2.size + bs.length }

/-- `sis_memory_move` (src/core/sis_memory.c:505-515). -/
def move (m : Mem) (n : Nat) : Mem :=
  if m.offset + n ≤ m.size then { m with offset := m.offset + n } else { m with offset := m.size }

/-- `sis_memory_set_maxsize` (src/core/sis_memory.c:410-433). -/
def setMaxsize (junk : UInt8) (m : Mem) (len : Nat) : Option Mem :=
  if len > m.maxsize then
    let newsize := len + 256
    let cursize := m.size - m.offset
    let newbuf := List.replicate newsize junk
    if cursize > 0 then
      match load m.buf m.offset cursize with
      | none => none
      | some bs =>
        match store newbuf 0 bs with
        | none => none
        | some b => some ⟨b, cursize, 0⟩
    else some ⟨newbuf, cursize, 0⟩
  else some m

/-- The unread bytes: what `sis_memory(m)` points at, for `sis_memory_get_size(m)` bytes
(src/core/sis_memory.c:104-111, 389-392). -/
def unread (m : Mem) : Bytes := (m.buf.take m.size).drop m.offset

/-- The operations a client performs (src/core/sis_memory.c:61-145, 411-432, 505-515). -/
inductive Op where
  | cat (bs : Bytes)
  | read (bs : Bytes)
  | move (n : Nat)
  | pack
  | grow (n : Nat)
  | setMaxsize (n : Nat)
  | clear
deriving Repr, DecidableEq

/-- One client call; `none` means the C code would access memory outside the block (src/core/sis_memory.c:61-145, 411-432, 505-515). -/
def step (junk : UInt8) (m : Mem) : Op → Option Mem
  | .cat bs => cat junk m bs
  | .read bs => read junk m bs
  | .move n => some (move m n)
  | .pack => pack m
  | .grow n => grow junk m n
  | .setMaxsize n => setMaxsize junk m n
  | .clear => some (clear m)

/-- A history of client calls (src/core/sis_memory.c:61-145, 411-432, 505-515). -/
def run (junk : UInt8) : Mem → List Op → Option Mem
  | m, [] => some m
  | m, o :: os =>
    match step junk m o with
    | none => none
    | some m' => run junk m' os

end Mem
end Sis
