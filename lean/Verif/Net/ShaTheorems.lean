import Verif.Net.ShaLemmas
/-
C115: the digest that the handshake of websockets rests on is SHA-1 in Base64.
-/
namespace Sis.Sha
open Sis Json

/-- C115. Whatever the working memory held before, and for every text whose length in bits fits into an int, the digest is the Base64
(RFC 4648) of the SHA-1 (FIPS 180-4) of the text up to its first zero byte.  Missing: longer texts (`C115_violated_long`). -/
theorem C115_digest_partial (junk : Nat → UInt32) (src : Bytes) (h : (src.takeWhile (· != 0)).length < 2 ^ 28) :
    shacalc junk src = some (ShaSpec.base64 (ShaSpec.sha1 (src.takeWhile (· != 0)))) := by
  have hc : cstrOf src = src.takeWhile (· != 0) := rfl
  unfold shacalc
  simp only [hc, if_neg (Nat.not_le.2 h)]
  rw [encode20 _ (by simp), hash_bytes]
  have := result_spec junk (src.takeWhile (· != 0)) h
  unfold ShaSpec.sha1
  generalize result junk (src.takeWhile (· != 0)) = r at this
  have e : (ShaSpec.blocks ((ShaSpec.padded (src.takeWhile (· != 0))).length / 64) (ShaSpec.words (ShaSpec.padded (src.takeWhile (· != 0))))).foldl
      ShaSpec.compress ⟨0x67452301, 0xefcdab89, 0x98badcfe, 0x10325476, 0xc3d2e1f0⟩ = r.spec := this.symm
  simp only [e]
  rfl

set_option maxRecDepth 10000 in
/-- Such a text, and the answer that RFC 6455 (section 1.3) gives for it. -/
example : shacalc (fun _ => 7) "dGhlIHNhbXBsZSBub25jZQ==258EAFA5-E914-47DA-95CA-C5AB0DC85B11".toUTF8.toList =
    some "s3pPLMBiTxaQ9kYGzzhZRbK+xOo=".toUTF8.toList := by
  rw [C115_digest_partial _ _ (by decide +kernel)]
  decide +kernel

/-- C115. The digest has 28 signs: 27 letters of the alphabet and the sign for one byte that is missing. -/
theorem C115_signs_partial (junk : Nat → UInt32) (src : Bytes) (h : (src.takeWhile (· != 0)).length < 2 ^ 28) :
    ∃ d, shacalc junk src = some (d ++ [61]) ∧ d.length = 27 ∧ ∀ c ∈ d, c ∈ ShaSpec.alphabet := by
  rw [C115_digest_partial junk src h]
  have h20 : (ShaSpec.sha1 (src.takeWhile (· != 0))).length = 20 := by
    simp only [ShaSpec.sha1, ShaSpec.bytesOf, List.length_append, be_length]
  generalize ShaSpec.sha1 (src.takeWhile (· != 0)) = l at h20
  have hal : ∀ n, n < 64 → ShaSpec.letter n ∈ ShaSpec.alphabet := by decide +kernel
  match l, h20 with
  | [a0, a1, a2, a3, a4, a5, a6, a7, a8, a9, b0, b1, b2, b3, b4, b5, b6, b7, b8, b9], _ =>
    have q : ∀ x : UInt8, x.toNat < 256 := fun x => x.toNat_lt
    refine ⟨(ShaSpec.base64 [a0, a1, a2, a3, a4, a5, a6, a7, a8, a9, b0, b1, b2, b3, b4, b5, b6, b7, b8, b9]).take 27, rfl, rfl, ?_⟩
    intro c hc
    simp only [ShaSpec.base64, List.cons_append, List.nil_append, List.take_succ_cons, List.take_zero, List.mem_cons, List.not_mem_nil, or_false] at hc
    rcases hc with h | h | h | h | h | h | h | h | h | h | h | h | h | h | h | h | h | h | h | h | h | h | h | h | h | h | h <;>
      rw [h] <;> apply hal
    all_goals
      have z0 := q a0; have z1 := q a1; have z2 := q a2; have z3 := q a3; have z4 := q a4; have z5 := q a5; have z6 := q a6
      have z7 := q a7; have z8 := q a8; have z9 := q a9; have y0 := q b0; have y1 := q b1; have y2 := q b2; have y3 := q b3
      have y4 := q b4; have y5 := q b5; have y6 := q b6; have y7 := q b7; have y8 := q b8; have y9 := q b9
      omega

/-- C115. Texts that agree up to their first zero byte have the same digest, and nothing else of the memory matters. -/
theorem C115_same (junk junk' : Nat → UInt32) (a b : Bytes) (h : a.takeWhile (· != 0) = b.takeWhile (· != 0)) : shacalc junk a = shacalc junk' b := by
  by_cases hl : (a.takeWhile (· != 0)).length < 2 ^ 28
  · rw [C115_digest_partial junk a hl, C115_digest_partial junk' b (h ▸ hl), h]
  · have e1 : cstrOf a = a.takeWhile (· != 0) := rfl
    have e2 : cstrOf b = b.takeWhile (· != 0) := rfl
    unfold shacalc
    simp only [e1, e2, if_pos (Nat.not_lt.1 hl), if_pos (Nat.not_lt.1 (h ▸ hl))]

example : ("ab".toUTF8.toList ++ [0, 1]).takeWhile (· != 0) = ("ab".toUTF8.toList ++ [0, 2]).takeWhile (· != 0) := by decide +kernel

/-- C115 is violated for long texts: from 268435456 bytes on the length in bits overflows an int. -/
theorem C115_violated_long (junk : Nat → UInt32) (src : Bytes) (h : 2 ^ 28 ≤ (src.takeWhile (· != 0)).length) : shacalc junk src = none := by
  have hc : cstrOf src = src.takeWhile (· != 0) := rfl
  unfold shacalc
  simp only [hc, if_pos h]

theorem long_text (n : Nat) : ((List.replicate n (97 : UInt8)).takeWhile (· != 0)).length = n := by
  induction n with
  | zero => rfl
  | succ n ih => rw [List.replicate_succ, List.takeWhile_cons_of_pos (by decide), List.length_cons, ih]

/-- Such a text. -/
example : ∃ src : Bytes, 2 ^ 28 ≤ (src.takeWhile (· != 0)).length := ⟨List.replicate _ 97, Nat.le_of_eq (long_text (2 ^ 28)).symm⟩

end Sis.Sha
