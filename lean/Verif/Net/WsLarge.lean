import Verif.Net.WsInv
/-
What happens from 2^28 bytes of input on: the size of the stream in bits does not fit a C `int`.
-/
namespace Sis.Ws
open BitS

theorem int32_neg {n : Nat} (h1 : 2 ^ 31 ≤ n) (h2 : n < 2 ^ 32) : int32 n < 0 := by
  unfold int32; rw [if_neg (by omega)]; omega

/-- The stream jumps to its end. -/
theorem move_large {s : BitS} {rest : Bytes} (h : At s rest) (n : Nat) (hn : n ≤ rest.length) (hn2 : n < 2 ^ 27)
    (hp : s.pos + 8 * n < 2 ^ 31) (hs : 2 ^ 28 ≤ s.buf.length) (hs2 : s.buf.length < 2 ^ 29) :
    moveBytes s n = some ⟨s.buf, s.buf.length * 8⟩ := by
  have e1 : int32 n = (n : Int) := by unfold int32; rw [if_pos (by omega)]; omega
  have e2 : int32 (s.buf.length * 8) < 0 := int32_neg (by omega) (by omega)
  have e3 : (((s.pos : Int) + (n : Int) * 8) % 2 ^ 32).toNat = s.pos + 8 * n := by omega
  have e4 : int32 (s.pos + 8 * n) = ((s.pos + 8 * n : Nat) : Int) := by unfold int32; rw [if_pos (by omega)]; omega
  unfold moveBytes moveTo
  rw [e1, e3, e4, if_pos (by omega), if_neg (by omega), if_pos (by omega), Nat.mod_eq_of_lt (by omega)]

theorem readStart_end (count : Nat) (h : Head) (buf : Bytes) : readStart count h ⟨buf, buf.length * 8⟩ = none := by
  have : BitS.get ⟨buf, buf.length * 8⟩ 1 = none := by
    unfold BitS.get
    have : getAt buf (buf.length * 8 / 8) = none := by
      rw [Nat.mul_div_cancel _ (by decide)]
      simp [getAt]
    simp only [this]
  simp [readStart, this]

theorem unpack_large {inp : Bytes} {op : Nat} {d r : Bytes} (h1 : parse1 inp = some (0, op, d, r)) (hd : d.length < 2 ^ 27)
    (hr : 2 ≤ r.length) (hs : 2 ^ 28 ≤ inp.length) (hs2 : inp.length < 2 ^ 29) : unpack inp = none := by
  have key : ∀ h, check h inp = none := by
    intro h
    unfold check
    have hs0 : At ⟨inp, 0⟩ inp := ⟨[], by simp, rfl⟩
    obtain ⟨k, hk⟩ : ∃ k, inp.length = k + 1 := ⟨inp.length - 1, by omega⟩
    rw [hk]
    unfold checkLoop
    match inp, hs0, h1 with
    | [], _, h1 => simp [parse1] at h1
    | [_], _, h1 => simp [parse1] at h1
    | b0 :: b1 :: t, hs0, h1 =>
      rw [if_neg (by simp)]
      obtain ⟨e1, a1⟩ := readStart_spec 0 h hs0
      simp only [e1, Option.bind_eq_bind, Option.bind_some, List.drop_succ_cons, List.drop_zero]
      obtain ⟨s2, e2, a2⟩ := readLen_spec (b1.toNat % 128) a1
      simp only [e2, Option.bind_some]
      simp only [parse1] at h1
      by_cases c1 : t.length < extLen (b1.toNat % 128)
      · rw [if_pos c1] at h1; cases h1
      · rw [if_neg c1] at h1
        simp only [if_neg c1]
        obtain ⟨a2, b2⟩ := a2 (by omega)
        obtain ⟨s3, e3, a3⟩ := skipKey_spec (b1.toNat / 128) a2
        simp only [e3, Option.bind_some]
        by_cases c2 : (t.drop (extLen (b1.toNat % 128))).length < keyLen (b1.toNat / 128)
        · rw [if_pos c2] at h1; cases h1
        · rw [if_neg c2] at h1
          simp only [if_neg c2]
          obtain ⟨a3, b3⟩ := a3 (by omega)
          by_cases c3 : ((t.drop (extLen (b1.toNat % 128))).drop (keyLen (b1.toNat / 128))).length < lenOf (b1.toNat % 128) t
          · rw [if_pos c3] at h1; cases h1
          · rw [if_neg c3] at h1
            simp only [if_neg c3]
            injection h1 with h1
            simp only [Prod.mk.injEq] at h1
            obtain ⟨f1, f2, f3, f4⟩ := h1
            have dl : d.length = lenOf (b1.toNat % 128) t := by
              rw [← f3]
              split
              · rw [xorKey_length, List.length_take]; omega
              · rw [List.length_take]; omega
            have hb3 : s3.buf = b0 :: b1 :: t := by rw [b3, b2, adv_buf]
            have hx : extLen (b1.toNat % 128) ≤ 8 := by unfold extLen; split <;> (try split) <;> omega
            have hkl : keyLen (b1.toNat / 128) ≤ 4 := by unfold keyLen; split <;> omega
            have hp : s3.pos + 8 * lenOf (b1.toNat % 128) t < 2 ^ 31 := by
              obtain ⟨pre, p1, p2⟩ := a3
              have := congrArg List.length p1
              rw [hb3] at this
              simp only [List.length_append, List.length_drop, List.length_cons] at this c1 c2 c3
              omega
            rw [move_large a3 (lenOf (b1.toNat % 128) t) (by omega) (by omega) hp (by rw [hb3]; exact hs) (by rw [hb3]; exact hs2)]
            simp only [Option.bind_some]
            rw [if_neg (by omega), f4]
            rw [List.length_cons, List.length_cons] at hk
            obtain ⟨k', hk'⟩ : ∃ k', k = k' + 1 := ⟨k - 1, by omega⟩
            rw [hk']
            unfold checkLoop
            rw [if_neg (by omega), readStart_end]
            rfl
  unfold unpack
  rw [key]
  rfl

end Sis.Ws
