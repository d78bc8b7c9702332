import Verif.Strs.Case
/-
Model of the hash functions of the dictionaries (src/core/sis_dict.c:7-189): SipHash-1-2 with a case-insensitive variant.
-/
namespace Sis.Dict

/-- The four words of the state (src/core/sis_dict.c:72-90). -/
structure St where
  v0 : UInt64
  v1 : UInt64
  v2 : UInt64
  v3 : UInt64

/-- `ROTL` (src/core/sis_dict.c:22). -/
def rotl (x b : UInt64) : UInt64 := (x <<< b) ||| (x >>> (64 - b))

/-- `SIPROUND` (src/core/sis_dict.c:54-70). -/
def sipround (s : St) : St :=
  let v0 := s.v0 + s.v1
  let v1 := rotl s.v1 13
  let v1 := v1 ^^^ v0
  let v0 := rotl v0 32
  let v2 := s.v2 + s.v3
  let v3 := rotl s.v3 16
  let v3 := v3 ^^^ v2
  let v0 := v0 + v3
  let v3 := rotl v3 21
  let v3 := v3 ^^^ v0
  let v2 := v2 + v1
  let v1 := rotl v1 17
  let v1 := v1 ^^^ v2
  let v2 := rotl v2 32
  ⟨v0, v1, v2, v3⟩

/-- Bytes to a word, first byte lowest, each byte passed through `f`: `U8TO64_LE` and `U8TO64_LE_NOCASE`
(src/core/sis_dict.c:32-52), and the `switch` on the bytes left (src/core/sis_dict.c:101-110 and 159-168). -/
def word (f : UInt8 → UInt8) : Bytes → UInt64
  | [] => 0
  | b :: bs => (f b).toUInt64 ||| (word f bs <<< 8)

/-- The loop over the full words (src/core/sis_dict.c:92-99 and 150-157); the state and the bytes left. -/
def absorb (f : UInt8 → UInt8) (s : St) : Bytes → St × Bytes
  | b0 :: b1 :: b2 :: b3 :: b4 :: b5 :: b6 :: b7 :: rest =>
    let m := word f [b0, b1, b2, b3, b4, b5, b6, b7]
    let s := sipround { s with v3 := s.v3 ^^^ m }
    absorb f { s with v0 := s.v0 ^^^ m } rest
  | rest => (s, rest)

/-- `_siphash` with `f` the identity (src/core/sis_dict.c:72-129) and `_siphash_nocase` with `f` `_siptlw`
(src/core/sis_dict.c:131-189); `k0`, `k1` are the two words of the seed. -/
def sip (f : UInt8 → UInt8) (k0 k1 : UInt64) (inp : Bytes) : UInt64 :=
  let s : St := ⟨0x736f6d6570736575 ^^^ k0, 0x646f72616e646f6d ^^^ k1, 0x6c7967656e657261 ^^^ k0, 0x7465646279746573 ^^^ k1⟩
  let (s, left) := absorb f s inp
  let b := (UInt64.ofNat inp.length <<< 56) ||| word f left
  let s := sipround { s with v3 := s.v3 ^^^ b }
  let s := { s with v0 := s.v0 ^^^ b, v2 := s.v2 ^^^ 0xff }
  let s := sipround (sipround s)
  s.v0 ^^^ s.v1 ^^^ s.v2 ^^^ s.v3

/-- `_sis_dict_strcase_hash` (src/core/sis_map.c:9-12) on a C string; the seed is all zero unless set
(src/core/sis_dict.c:218-222). `_siptlw` (src/core/sis_dict.c:7-13) is `tolower`. -/
def caseHash (k0 k1 : UInt64) (s : Bytes) : Nat := (sip lower k0 k1 s).toNat

theorem word_map (f : UInt8 → UInt8) (l : Bytes) : word f l = word id (l.map f) := by
  induction l with
  | nil => rfl
  | cons b l ih => simp [word, ih]

theorem absorb_map (f : UInt8 → UInt8) (s : St) (l : Bytes) :
    absorb id s (l.map f) = ((absorb f s l).1, (absorb f s l).2.map f) := by
  fun_induction absorb f s l with
  | case1 s b0 b1 b2 b3 b4 b5 b6 b7 rest m s' ih =>
    simp only [List.map_cons]
    rw [absorb]
    have : word id [f b0, f b1, f b2, f b3, f b4, f b5, f b6, f b7] = m := (word_map f [b0, b1, b2, b3, b4, b5, b6, b7]).symm
    simp only [this]
    exact ih
  | case2 s rest h =>
    rw [absorb]
    intro b0 b1 b2 b3 b4 b5 b6 b7 r hr
    match rest, hr with
    | c0 :: c1 :: c2 :: c3 :: c4 :: c5 :: c6 :: c7 :: r', _ => exact h c0 c1 c2 c3 c4 c5 c6 c7 r' rfl

/-- The case-insensitive hash is the plain hash of the name in lower case. -/
theorem sip_nocase (k0 k1 : UInt64) (s : Bytes) : sip lower k0 k1 s = sip id k0 k1 (s.map lower) := by
  simp only [sip, absorb_map, List.length_map]
  rw [word_map lower]

/-- Two names that compare equal have the same hash. -/
theorem caseHash_same (k0 k1 : UInt64) {a b : Bytes} (h : a.map lower = b.map lower) : caseHash k0 k1 a = caseHash k0 k1 b := by
  unfold caseHash
  rw [sip_nocase, sip_nocase, h]

end Sis.Dict
