import Verif.Base.Bytes
/-
Model of the bit stream of `src/core/zip/sis_bits.h` (lines 67-258), at the level of bytes, shifts and masks.
-/
namespace Sis

/-- `s_sis_bits_stream` (src/core/zip/sis_bits.h:63-69): the linked buffer and the bit cursor.
`currpos` is a `uint32` in C; the model assumes it does not overflow. -/
structure BitS where
  buf : Bytes
  pos : Nat
deriving Repr, DecidableEq

namespace BitS

/-- `lpstream[i] = v`; `none` outside the buffer (the C code does not check). `v` is converted to `uint8` (the stores of src/core/zip/sis_bits.h:219-250). -/
def setAt (buf : Bytes) (i : Nat) (v : Nat) : Option Bytes :=
  if i < buf.length then some (buf.set i (UInt8.ofNat v)) else none

/-- `lpstream[i]`; `none` outside the buffer (the loads of src/core/zip/sis_bits.h:183-217). -/
def getAt (buf : Bytes) (i : Nat) : Option Nat := (buf[i]?).map UInt8.toNat

/-- The `while (offset > 0)` loop of `sis_bits_stream_put` (src/core/zip/sis_bits.h:240-246).
`*phigh_byte` is the most significant byte of the 64-bit value. -/
def putLoop (buf : Bytes) (pos x offset : Nat) : Option (Bytes × Nat) :=
  if _h : offset > 0 then
    match setAt buf (pos / 8) (x >>> 56) with
    | none => none
    | some buf' => putLoop buf' (pos + min 8 offset) ((x <<< 8) % 2 ^ 64) (offset - 8)
  else some (buf, pos)
termination_by offset

/-- `sis_bits_stream_put` (src/core/zip/sis_bits.h:219-250).  A width above 64 shifts by a negative amount
(undefined in C): `none`.  `bits_ <= 0` writes nothing. -/
def put (s : BitS) (v : Nat) (bits : Nat) : Option BitS :=
  if bits = 0 then some s
  else if bits > 64 then none
  else
    let x := (v <<< (64 - bits)) % 2 ^ 64
    let lastbit := s.pos % 8
    if lastbit ≠ 0 then
      let space := 8 - lastbit
      match getAt s.buf (s.pos / 8) with
      | none => none
      | some old =>
        let c := (old &&& (0xFF <<< space)) ||| ((x >>> (64 - space)) &&& (0xFF >>> lastbit))
        let incr := min bits space
        match setAt s.buf (s.pos / 8) c with
        | none => none
        | some buf1 =>
          (putLoop buf1 (s.pos + incr) ((x <<< space) % 2 ^ 64) (bits - space)).map
            fun (b, p) => ⟨b, p⟩
    else
      (putLoop s.buf s.pos x bits).map fun (b, p) => ⟨b, p⟩

/-- The `while (incpos > 0)` loop of `sis_bits_stream_get` (src/core/zip/sis_bits.h:183-217, the loop at 198-210). -/
def getLoop (buf : Bytes) (cur : Nat) (u incpos : Nat) : Option Nat :=
  if _h : incpos > 0 then
    if incpos ≥ 8 then
      match getAt buf cur with
      | none => none
      | some b => getLoop buf (cur + 1) (((u <<< 8) % 2 ^ 64) ||| b) (incpos - 8)
    else
      match getAt buf cur with
      | none => none
      | some b => some (((u <<< incpos) % 2 ^ 64) ||| (b >>> (8 - incpos)))
  else some u
termination_by incpos

/-- `sis_bits_stream_get` (src/core/zip/sis_bits.h:183-217).  `none` is a read outside the buffer. -/
def get (s : BitS) (bits : Nat) : Option (Nat × BitS) :=
  match getAt s.buf (s.pos / 8) with
  | none => none
  | some b0 =>
    let decpos := 8 - s.pos % 8
    let u := if decpos ≠ 8 then b0 &&& (0xFF >>> (8 - decpos)) else b0
    if bits ≥ decpos then
      match getLoop s.buf (s.pos / 8 + 1) u (bits - decpos) with
      | none => none
      | some r => some (r, ⟨s.buf, s.pos + bits⟩)
    else some (u >>> (decpos - bits), ⟨s.buf, s.pos + bits⟩)

/-- A sequence of `sis_bits_stream_put` calls (src/core/zip/sis_bits.h:219-250). -/
def putAll (s : BitS) : List (Nat × Nat) → Option BitS
  | [] => some s
  | (v, k) :: cs =>
    match put s v k with
    | none => none
    | some s' => putAll s' cs

/-- A sequence of `sis_bits_stream_get` calls (src/core/zip/sis_bits.h:183-217). -/
def getAll (s : BitS) : List Nat → Option (List Nat × BitS)
  | [] => some ([], s)
  | k :: ks =>
    match get s k with
    | none => none
    | some (v, s') =>
      match getAll s' ks with
      | none => none
      | some (vs, s'') => some (v :: vs, s'')

end BitS
end Sis
