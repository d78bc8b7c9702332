import Verif.Bits.Stream
/-
Model of the integer and character codecs of `src/core/zip/sis_bits.h` (lines 259-801).
Each writer is the sequence of `sis_bits_stream_put` calls it makes; each reader is written in terms of
`sis_bits_stream_get`.  `none` is an access outside the linked buffer.
-/
namespace Sis
namespace BitS

/-- `sis_bits_stream_put_sint` (src/core/zip/sis_bits.h:259-296): the calls made, `none` when it returns -1.
`in_` is a `uint32`; the subtractions cannot wrap because they follow the comparisons. -/
def sintCalls (n : Nat) : Option (List (Nat × Nat)) :=
  if n < 2 then some [(n, 2)]
  else if n - 2 < 16 then some [(2, 2), (n - 2, 4)]
  else if n - 2 - 16 < 32 then some [(6, 3), (n - 2 - 16, 5)]
  else if n - 2 - 16 - 32 < 256 then some [(7, 3), (n - 2 - 16 - 32, 8)]
  else none

/-- `sis_bits_stream_put_short` (src/core/zip/sis_bits.h:297-333). -/
def shortCalls (n : Nat) : Option (List (Nat × Nat)) :=
  if n < 2 then some [(n, 2)]
  else if n - 2 < 256 then some [(2, 2), (n - 2, 8)]
  else if n - 2 - 256 < 4096 then some [(6, 3), (n - 2 - 256, 12)]
  else if n - 2 - 256 - 4096 < 65536 then some [(7, 3), (n - 2 - 256 - 4096, 16)]
  else none

/-- `sis_bits_stream_put_uint` (src/core/zip/sis_bits.h:334-381). -/
def uintCalls (n : Nat) : List (Nat × Nat) :=
  if n &&& 0xFFFFFF00 ≠ 0 then
    if n &&& 0xFF000000 ≠ 0 then [(n ||| 0x700000000, 35)]
    else if n &&& 0xFF0000 ≠ 0 then [(n ||| 0x6000000, 27)]
    else if n &&& 0xFF00 ≠ 0 then [(n ||| 0x50000, 19)]
    else [(n ||| 0x4000, 15)]
  else if n &&& 0xF0 ≠ 0 then [(n ||| 0x100, 10)]
  else [(n, 6)]

/-- The two's complement image of an `int64` as a 64-bit pattern (the casts of src/core/zip/sis_bits.h:383-491). -/
def pat64 (z : Int) : Nat := (z % 2 ^ 64).toNat

/-- The `int64` with the given 64-bit pattern (the casts of src/core/zip/sis_bits.h:667-729). -/
def ofPat64 (n : Nat) : Int := if n % 2 ^ 64 < 2 ^ 63 then ((n % 2 ^ 64 : Nat) : Int) else ((n % 2 ^ 64 : Nat) : Int) - 2 ^ 64

/-- `sis_bits_stream_put_int` (src/core/zip/sis_bits.h:383-491).  `-1 * in_` for INT64_MIN overflows
(formally undefined); the model uses the wrap-around of two's complement hardware. -/
def intCalls (z : Int) : List (Nat × Nat) :=
  let dw := if z < 0 then pat64 (-1 * z) else pat64 z
  let sign := if z < 0 then (1, 1) else (0, 1)
  sign ::
  (if dw &&& 0x7FFFFFFFFFF00000 ≠ 0 then
    if dw &&& 0x7F00000000000000 ≠ 0 then [(0x3F, 6), (dw, 63)]
    else if dw &&& 0xFF000000000000 ≠ 0 then [(dw ||| 0x3E00000000000000, 62)]
    else if dw &&& 0xFF0000000000 ≠ 0 then [(dw ||| 0x3D000000000000, 54)]
    else if dw &&& 0xFF00000000 ≠ 0 then [(dw ||| 0x3C0000000000, 46)]
    else if dw &&& 0xF00000000 ≠ 0 then [(dw ||| 0x3B000000000, 42)]
    else if dw &&& 0xF0000000 ≠ 0 then [(dw ||| 0x3A00000000, 38)]
    else if dw &&& 0xF000000 ≠ 0 then [(dw ||| 0x390000000, 34)]
    else [(dw ||| 0x38000000, 30)]
  else if dw &&& 0xFFFF0 ≠ 0 then
    if dw &&& 0xF0000 ≠ 0 then [(dw ||| 0x1B00000, 25)]
    else if dw &&& 0xF000 ≠ 0 then [(dw ||| 0x1A0000, 21)]
    else if dw &&& 0xF00 ≠ 0 then [(dw ||| 0x19000, 17)]
    else [(dw ||| 0x1800, 13)]
  else if dw &&& 0xF ≠ 0 then [(dw ||| 0x20, 6)]
  else [(0, 1)])

/-- `sis_bits_stream_put_incr_int` (src/core/zip/sis_bits.h:492-495): the difference is computed in
`int64` (wrap-around). -/
def incrIntCalls (z ago : Int) : List (Nat × Nat) := intCalls (ofPat64 (pat64 (z - ago)))

/-- `put_sint` on a stream: return code and new stream; on -1 the stream is untouched (src/core/zip/sis_bits.h:259-296). -/
def putSint (s : BitS) (n : Nat) : Option (Int × BitS) :=
  match sintCalls n with
  | none => some (-1, s)
  | some cs => (putAll s cs).map fun s' => (0, s')

/-- `put_short` on a stream (src/core/zip/sis_bits.h:297-333). -/
def putShort (s : BitS) (n : Nat) : Option (Int × BitS) :=
  match shortCalls n with
  | none => some (-1, s)
  | some cs => (putAll s cs).map fun s' => (0, s')

/-- `put_uint` on a stream (src/core/zip/sis_bits.h:334-381). -/
def putUint (s : BitS) (n : Nat) : Option BitS := putAll s (uintCalls n)

/-- `put_int` on a stream (src/core/zip/sis_bits.h:383-491). -/
def putInt (s : BitS) (z : Int) : Option BitS := putAll s (intCalls z)

/-- `put_incr_int` on a stream (src/core/zip/sis_bits.h:492-495). -/
def putIncrInt (s : BitS) (z ago : Int) : Option BitS := putAll s (incrIntCalls z ago)

/-- `sis_bits_stream_get_sint` (src/core/zip/sis_bits.h:593-613). -/
def getSint (s : BitS) : Option (Nat × BitS) := do
  let (level, s) ← s.get 2
  if level = 0 ∨ level = 1 then some (level, s)
  else if level = 2 then do
    let (v, s) ← s.get 4
    some (2 + v, s)
  else do
    let (level, s) ← s.get 1
    if level = 0 then do
      let (v, s) ← s.get 5
      some (18 + v, s)
    else do
      let (v, s) ← s.get 8
      some (50 + v, s)

/-- `sis_bits_stream_get_short` (src/core/zip/sis_bits.h:614-634). -/
def getShort (s : BitS) : Option (Nat × BitS) := do
  let (level, s) ← s.get 2
  if level = 0 ∨ level = 1 then some (level, s)
  else if level = 2 then do
    let (v, s) ← s.get 8
    some (2 + v, s)
  else do
    let (level, s) ← s.get 1
    if level = 0 then do
      let (v, s) ← s.get 12
      some (258 + v, s)
    else do
      let (v, s) ← s.get 16
      some (4354 + v, s)

/-- `sis_bits_stream_get_uint` (src/core/zip/sis_bits.h:636-665). -/
def getUint (s : BitS) : Option (Nat × BitS) := do
  let (level, s) ← s.get 1
  if level = 0 then do
    let (level, s) ← s.get 1
    s.get (if level = 0 then 4 else 8)
  else do
    let (level, s) ← s.get 2
    if level = 0 then s.get 12
    else if level = 1 then s.get 16
    else if level = 2 then s.get 24
    else s.get 32

/-- `sis_bits_stream_get_int` (src/core/zip/sis_bits.h:667-729). -/
def getInt (s : BitS) : Option (Int × BitS) := do
  let (signbit, s) ← s.get 1
  let (level, s) ← s.get 1
  if level = 0 then some (0, s)
  else do
    let (level, s) ← s.get 1
    let (dw, s) ←
      if level = 0 then s.get 4
      else do
        let (level, s) ← s.get 1
        if level = 0 then do
          let (level, s) ← s.get 2
          s.get (if level = 0 then 8 else if level = 1 then 12 else if level = 2 then 16 else 20)
        else do
          let (level, s) ← s.get 3
          s.get (if level = 0 then 24 else if level = 1 then 28 else if level = 2 then 32
            else if level = 3 then 36 else if level = 4 then 40 else if level = 5 then 48
            else if level = 6 then 56 else 63)
    some (if signbit ≠ 0 then -1 * ofPat64 dw else ofPat64 dw, s)

/-- `sis_bits_stream_get_incr_int` (src/core/zip/sis_bits.h:730-734); the sum wraps around. -/
def getIncrInt (s : BitS) (ago : Int) : Option (Int × BitS) := do
  let (dw, s) ← s.getInt
  some (ofPat64 (pat64 (dw + ago)), s)

/-- A signed `char` passed as the `uint64` argument of `sis_bits_stream_put` (src/core/zip/sis_bits.h:219, called
from line 522): it is sign-extended. -/
def charPat (c : UInt8) : Nat := if c.toNat < 128 then c.toNat else 2 ^ 64 - 256 + c.toNat

/-- `sis_bits_stream_put_chars` (src/core/zip/sis_bits.h:508-531).  `none` models the NULL pointer.  The first `n`
characters of the field are written; the outer `none` is a read outside the field. -/
def charsCalls (inp : Option Bytes) (n : Nat) : Option (List (Nat × Nat)) :=
  match inp with
  | none => some [(0, 1)]
  | some b =>
    if n > 0 then
      (takeBytes n b).map fun p => (1, 1) :: (uintCalls n ++ p.1.map fun c => (charPat c, 8))
    else some [(0, 1)]

/-- First loop of `sis_bits_stream_charcmp` (src/core/zip/sis_bits.h:541-544): number of characters before the first
NUL.  Simplification: for a field without NUL the C code reads one byte behind the field, the value of which cannot
change the result; the model does not record that read. -/
def isize (b : Bytes) : Nat := (b.takeWhile (· ≠ 0)).length

/-- Second loop of `sis_bits_stream_charcmp` (src/core/zip/sis_bits.h:546-566) on the remaining parts of the two
fields.  `none`: a read outside one of the fields. -/
def cmpLoop (isz l2 : Nat) : Bytes → Bytes → Nat → Option Nat
  | a :: s1, b :: s2, size =>
    if a = b then
      if a = 0 then some isz
      else if size + 1 = isz then
        if size + 1 = l2 then some 0
        else match s2 with
          | [] => none
          | c :: _ => if c = 0 then some 0 else some isz
      else cmpLoop isz l2 s1 s2 (size + 1)
    else some isz
  | _, _, _ => none

/-- `sis_bits_stream_charcmp` (src/core/zip/sis_bits.h:533-568); `ago = none` models the NULL pointer. -/
def charcmp (inp : Bytes) (ago : Option Bytes) : Option Nat :=
  match ago with
  | none => some inp.length
  | some ago =>
    if ago.length = 0 ∨ inp.length = 0 then some inp.length
    else cmpLoop (isize inp) ago.length inp ago 0

/-- `sis_bits_stream_put_incr_chars` (src/core/zip/sis_bits.h:569-582). -/
def incrCharsCalls (inp : Bytes) (ago : Option Bytes) : Option (List (Nat × Nat)) :=
  match charcmp inp ago with
  | none => none
  | some 0 => charsCalls none 0
  | some (n + 1) => charsCalls (some inp) (n + 1)

/-- The reading loop of `sis_bits_stream_get_chars` (src/core/zip/sis_bits.h:759-768): `n` characters. -/
def getBytes (s : BitS) : Nat → Option (Bytes × BitS)
  | 0 => some ([], s)
  | n + 1 => do
    let (c, s) ← s.get 8
    let (cs, s) ← getBytes s n
    some (UInt8.ofNat c :: cs, s)

/-- `sis_bits_stream_get_chars` (src/core/zip/sis_bits.h:747-782): the returned size and the new content of the target
field, whose old content is `cur`.  Simplification: `size` is a C `int`; sizes above 2^31 are not modelled. -/
def getChars (s : BitS) (cur : Bytes) : Option ((Nat × Bytes) × BitS) := do
  let (signbit, s) ← s.get 1
  if signbit = 0 then some ((0, cur), s)
  else do
    let (size, s) ← s.getUint
    let (bs, s) ← getBytes s size
    if size > 0 then some ((size, bs.take cur.length ++ List.replicate (cur.length - size) 0), s)
    else some ((size, cur), s)

/-- `sis_bits_stream_get_incr_chars` (src/core/zip/sis_bits.h:783-801): new content of the target field. -/
def getIncrChars (s : BitS) (cur ago : Bytes) : Option ((Nat × Bytes) × BitS) := do
  let ((size, out), s) ← s.getChars cur
  if size = 0 then
    let n := min cur.length ago.length
    some ((n, ago.take n ++ List.replicate (cur.length - n) 0), s)
  else some ((size, out), s)

end BitS
end Sis
