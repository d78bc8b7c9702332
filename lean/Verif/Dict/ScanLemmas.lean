import Verif.Dict.Scan
import Verif.Dict.DictTheorems
/- Going through a dictionary by a cursor. -/
namespace Sis.Dict

variable {K V : Type}

/-! ### Bits in the reverse order -/

theorem step_bit {m v : BitVec 64} {s : Nat} {i : Nat} (hi : i < 64) :
    (reverseStep (m, v) s).2.getLsbD i = if (m ^^^ (m <<< s)).getLsbD i then v.getLsbD (i + s) else (decide (s ≤ i) && v.getLsbD (i - s)) := by
  unfold reverseStep
  simp only [BitVec.getLsbD_or, BitVec.getLsbD_and, BitVec.getLsbD_ushiftRight, BitVec.getLsbD_shiftLeft, BitVec.getLsbD_not, hi, decide_true, Bool.true_and]
  rw [Nat.add_comm s i]
  cases (m ^^^ m <<< s).getLsbD i with
  | true => simp
  | false =>
    by_cases h : s ≤ i
    · have : ¬ i < s := by omega
      simp [h, this]
    · have : i < s := by omega
      simp [h, this]

theorem step_place {m v m' : BitVec 64} {s : Nat} (hm : m ^^^ (m <<< s) = m') (hb : ∀ i < 64, m'.getLsbD i = (i / s % 2 == 0) ∧ (i / s % 2 ≠ 0 → s ≤ i)) {i : Nat} (hi : i < 64) :
    (reverseStep (m, v) s).2.getLsbD i = v.getLsbD (if i / s % 2 = 0 then i + s else i - s) := by
  rw [step_bit hi, hm, (hb i hi).1]
  by_cases h : i / s % 2 = 0
  · simp [h]
  · simp [h, (hb i hi).2 h]

theorem reverse_bit (v : BitVec 64) {i : Nat} (hi : i < 64) : (reverse v).getLsbD i = v.getLsbD (63 - i) := by
  unfold reverse
  simp only [List.foldl_cons, List.foldl_nil]
  have e : ∀ (m v : BitVec 64) (s : Nat), reverseStep (m, v) s = (m ^^^ (m <<< s), (reverseStep (m, v) s).2) := fun _ _ _ => rfl
  rw [e (~~~0) v 32, show (~~~0 : BitVec 64) ^^^ ((~~~0 : BitVec 64) <<< 32) = 0x00000000FFFFFFFF#64 by decide]
  generalize h1 : (reverseStep (~~~0, v) 32).2 = v1
  rw [e _ v1 16, show (0x00000000FFFFFFFF#64) ^^^ (0x00000000FFFFFFFF#64 <<< 16) = 0x0000FFFF0000FFFF#64 by decide]
  generalize h2 : (reverseStep (_, v1) 16).2 = v2
  rw [e _ v2 8, show (0x0000FFFF0000FFFF#64) ^^^ (0x0000FFFF0000FFFF#64 <<< 8) = 0x00FF00FF00FF00FF#64 by decide]
  generalize h3 : (reverseStep (_, v2) 8).2 = v3
  rw [e _ v3 4, show (0x00FF00FF00FF00FF#64) ^^^ (0x00FF00FF00FF00FF#64 <<< 4) = 0x0F0F0F0F0F0F0F0F#64 by decide]
  generalize h4 : (reverseStep (_, v3) 4).2 = v4
  rw [e _ v4 2, show (0x0F0F0F0F0F0F0F0F#64) ^^^ (0x0F0F0F0F0F0F0F0F#64 <<< 2) = 0x3333333333333333#64 by decide]
  generalize h5 : (reverseStep (_, v4) 2).2 = v5
  have g1 : ∀ i < 64, v1.getLsbD i = v.getLsbD (if i / 32 % 2 = 0 then i + 32 else i - 32) := fun i hi => by
    rw [← h1]; exact step_place (m' := 0x00000000FFFFFFFF#64) (by decide) (by decide +kernel) hi
  have g2 : ∀ i < 64, v2.getLsbD i = v1.getLsbD (if i / 16 % 2 = 0 then i + 16 else i - 16) := fun i hi => by
    rw [← h2]; exact step_place (m' := 0x0000FFFF0000FFFF#64) (by decide) (by decide +kernel) hi
  have g3 : ∀ i < 64, v3.getLsbD i = v2.getLsbD (if i / 8 % 2 = 0 then i + 8 else i - 8) := fun i hi => by
    rw [← h3]; exact step_place (m' := 0x00FF00FF00FF00FF#64) (by decide) (by decide +kernel) hi
  have g4 : ∀ i < 64, v4.getLsbD i = v3.getLsbD (if i / 4 % 2 = 0 then i + 4 else i - 4) := fun i hi => by
    rw [← h4]; exact step_place (m' := 0x0F0F0F0F0F0F0F0F#64) (by decide) (by decide +kernel) hi
  have g5 : ∀ i < 64, v5.getLsbD i = v4.getLsbD (if i / 2 % 2 = 0 then i + 2 else i - 2) := fun i hi => by
    rw [← h5]; exact step_place (m' := 0x3333333333333333#64) (by decide) (by decide +kernel) hi
  rw [step_place (m' := 0x5555555555555555#64) (by decide) (by decide +kernel) hi]
  have place : ∀ i < 64, (let a := if i / 1 % 2 = 0 then i + 1 else i - 1
      let b := if a / 2 % 2 = 0 then a + 2 else a - 2
      let c := if b / 4 % 2 = 0 then b + 4 else b - 4
      let d := if c / 8 % 2 = 0 then c + 8 else c - 8
      let e := if d / 16 % 2 = 0 then d + 16 else d - 16
      let f := if e / 32 % 2 = 0 then e + 32 else e - 32
      a < 64 ∧ b < 64 ∧ c < 64 ∧ d < 64 ∧ e < 64 ∧ f = 63 - i) := by decide +kernel
  obtain ⟨p1, p2, p3, p4, p5, p6⟩ := place i hi
  rw [g5 _ p1, g4 _ p2, g3 _ p3, g2 _ p4, g1 _ p5, p6]

theorem reverse_reverse (v : BitVec 64) : reverse (reverse v) = v := by
  apply BitVec.eq_of_getLsbD_eq
  intro i hi
  rw [reverse_bit _ hi, reverse_bit _ (by omega)]
  congr 1
  omega

/-- The place of a cursor, or of a hash, in the order in which a scan goes. -/
def pos (v : BitVec 64) : Nat := (reverse v).toNat

theorem pos_lt (v : BitVec 64) : pos v < 2 ^ 64 := (reverse v).isLt

theorem pos_bit (v : BitVec 64) {i : Nat} (hi : i < 64) : (pos v).testBit i = v.getLsbD (63 - i) := by
  rw [← reverse_bit v hi]; rfl

theorem pos_high (v : BitVec 64) {i : Nat} (hi : 64 ≤ i) : (pos v).testBit i = false :=
  Nat.testBit_lt_two_pow (Nat.lt_of_lt_of_le (pos_lt v) (Nat.pow_le_pow_right (by omega) hi))

theorem pos_zero {v : BitVec 64} (h : pos v = 0) : v = 0 := by
  rw [← reverse_reverse v]
  have : reverse v = 0 := BitVec.eq_of_toNat_eq h
  rw [this]; decide

theorem zero_pos : pos 0 = 0 := by decide

theorem same_slot {x v : BitVec 64} {k : Nat} (hk : k ≤ 64) (h : pos x / 2 ^ (64 - k) = pos v / 2 ^ (64 - k)) : x.toNat % 2 ^ k = v.toNat % 2 ^ k := by
  apply Nat.eq_of_testBit_eq
  intro i
  rw [Nat.testBit_mod_two_pow, Nat.testBit_mod_two_pow]
  by_cases hi : i < k
  · have e : ∀ w : BitVec 64, w.toNat.testBit i = (pos w / 2 ^ (64 - k)).testBit (k - 1 - i) := by
      intro w
      rw [Nat.testBit_div_two_pow, pos_bit w (by omega)]
      show w.getLsbD i = _
      congr 1
      omega
    rw [e x, e v, h]
  · simp [hi]

theorem same_pos {x v : BitVec 64} {k : Nat} (hk : k ≤ 64) (h : x.toNat % 2 ^ k = v.toNat % 2 ^ k) : pos x / 2 ^ (64 - k) = pos v / 2 ^ (64 - k) := by
  apply Nat.eq_of_testBit_eq
  intro i
  rw [Nat.testBit_div_two_pow, Nat.testBit_div_two_pow]
  by_cases hi : i + (64 - k) < 64
  · rw [pos_bit _ hi, pos_bit _ hi]
    have e : ∀ w : BitVec 64, w.getLsbD (63 - (i + (64 - k))) = (w.toNat % 2 ^ k).testBit (63 - (i + (64 - k))) := by
      intro w
      rw [Nat.testBit_mod_two_pow]
      have : 63 - (i + (64 - k)) < k := by omega
      simp only [this, decide_true, Bool.true_and]
      rfl
    rw [e x, e v, h]
  · rw [pos_high _ (by omega), pos_high _ (by omega)]

theorem mask_bit {k : Nat} {i : Nat} (hi : i < 64) : (BitVec.ofNat 64 (2 ^ k - 1)).getLsbD i = decide (i < k) := by
  rw [BitVec.getLsbD_ofNat, Nat.testBit_two_pow_sub_one]
  simp [hi]

theorem bump_pos {k : Nat} (hk : k ≤ 64) (v : BitVec 64) : pos (bump (BitVec.ofNat 64 (2 ^ k - 1)) v) = (pos v / 2 ^ (64 - k) + 1) * 2 ^ (64 - k) % 2 ^ 64 := by
  have h1 : pos (bump (BitVec.ofNat 64 (2 ^ k - 1)) v) = (pos (v ||| ~~~(BitVec.ofNat 64 (2 ^ k - 1))) + 1) % 2 ^ 64 := by
    unfold pos bump
    rw [reverse_reverse, BitVec.toNat_add]
    rfl
  rw [h1]
  congr 1
  generalize hw : v ||| ~~~(BitVec.ofNat 64 (2 ^ k - 1)) = w
  have hbit : ∀ i < 64, w.getLsbD i = (v.getLsbD i || !decide (i < k)) := by
    intro i hi
    rw [← hw, BitVec.getLsbD_or, BitVec.getLsbD_not, mask_bit hi]
    simp [hi]
  have hd : pos w / 2 ^ (64 - k) = pos v / 2 ^ (64 - k) := by
    apply Nat.eq_of_testBit_eq
    intro i
    rw [Nat.testBit_div_two_pow, Nat.testBit_div_two_pow]
    by_cases hi : i + (64 - k) < 64
    · rw [pos_bit _ hi, pos_bit _ hi, hbit _ (by omega)]
      have : 63 - (i + (64 - k)) < k := by omega
      simp [this]
    · rw [pos_high _ (by omega), pos_high _ (by omega)]
  have hm : pos w % 2 ^ (64 - k) = 2 ^ (64 - k) - 1 := by
    apply Nat.eq_of_testBit_eq
    intro i
    rw [Nat.testBit_mod_two_pow, Nat.testBit_two_pow_sub_one]
    by_cases hi : i < 64 - k
    · rw [pos_bit _ (by omega), hbit _ (by omega)]
      have : ¬ 63 - i < k := by omega
      simp [this]
    · simp [hi]
  have := Nat.div_add_mod (pos w) (2 ^ (64 - k))
  rw [hd, hm] at this
  have hp : 0 < 2 ^ (64 - k) := Nat.two_pow_pos _
  rw [Nat.add_mul, Nat.one_mul, ← this, Nat.mul_comm]
  omega

theorem between_zero {a b : Nat} (ha : a ≤ b) (hb : b ≤ 64) {w : BitVec 64} (h : pos w % 2 ^ (64 - a) = 0) :
    w &&& (BitVec.ofNat 64 (2 ^ a - 1) ^^^ BitVec.ofNat 64 (2 ^ b - 1)) = 0 := by
  apply BitVec.eq_of_getLsbD_eq
  intro i hi
  rw [BitVec.getLsbD_and, BitVec.getLsbD_xor, mask_bit hi, mask_bit hi]
  by_cases hia : i < a
  · have : i < b := by omega
    simp [hia, this]
  · have hz : w.getLsbD i = false := by
      have h2 : (pos w % 2 ^ (64 - a)).testBit (63 - i) = false := by rw [h]; simp
      rw [Nat.testBit_mod_two_pow, pos_bit _ (by omega)] at h2
      have h3 : 63 - i < 64 - a := by omega
      have h4 : 63 - (63 - i) = i := by omega
      simpa [h3, h4] using h2
    simp [hz]

theorem zero_between {a b : Nat} (hb : b ≤ 64) {w : BitVec 64} (h : pos w % 2 ^ (64 - b) = 0)
    (hz : w &&& (BitVec.ofNat 64 (2 ^ a - 1) ^^^ BitVec.ofNat 64 (2 ^ b - 1)) = 0) : pos w % 2 ^ (64 - a) = 0 := by
  apply Nat.eq_of_testBit_eq
  intro i
  rw [Nat.testBit_mod_two_pow, Nat.zero_testBit]
  by_cases hi : i < 64 - a
  · rw [pos_bit _ (by omega)]
    by_cases hib : i < 64 - b
    · have h2 : (pos w % 2 ^ (64 - b)).testBit i = false := by rw [h]; simp
      rw [Nat.testBit_mod_two_pow, pos_bit _ (by omega)] at h2
      simp [hib] at h2
      simp [h2]
    · have h2 : (w &&& (BitVec.ofNat 64 (2 ^ a - 1) ^^^ BitVec.ofNat 64 (2 ^ b - 1))).getLsbD (63 - i) = false := by rw [hz]; simp
      rw [BitVec.getLsbD_and, BitVec.getLsbD_xor, mask_bit (by omega), mask_bit (by omega)] at h2
      have h3 : ¬ 63 - i < a := by omega
      have h4 : 63 - i < b := by omega
      simp [h3, h4] at h2
      simp [h2]
  · simp [hi]

/-! ### Tables whose sizes are powers of two -/

/-- The size of a table is a power of two. -/
def HT.Pow (t : HT K V) : Prop := t.table = [] ∨ ∃ k ≤ 63, t.table.length = 2 ^ k

theorem pow_of_length {t t' : HT K V} (h : t.Pow) (hl : t'.table.length = t.table.length) : t'.Pow := by
  rcases h with h | ⟨k, hk, h⟩
  · left; rw [h] at hl; exact List.length_eq_zero_iff.1 hl
  · right; exact ⟨k, hk, hl.trans h⟩

theorem nextPowerN_pow (n : Nat) : ∀ (j size : Nat), j ≤ 63 → size ≤ 2 ^ 63 → ∃ k ≤ 63, nextPowerN n (2 ^ j) size = 2 ^ k := by
  induction n with
  | zero => intro j size hj _; exact ⟨j, hj, rfl⟩
  | succ n ih =>
    intro j size hj hs
    unfold nextPowerN
    by_cases h : 2 ^ j ≥ size
    · rw [if_pos h]; exact ⟨j, hj, rfl⟩
    · rw [if_neg h, ← Nat.pow_succ]
      refine ih (j + 1) size ?_ hs
      rcases Nat.lt_or_ge j 63 with h' | h'
      · exact h'
      · have : j = 63 := by omega
        subst this
        omega

theorem nextPower_pow (size : Nat) : ∃ k ≤ 63, nextPower size = 2 ^ k := by
  unfold nextPower
  split
  · exact ⟨63, by omega, rfl⟩
  · exact nextPowerN_pow size 2 size (by omega) (by omega)

structure Pows (d : Dict K V) : Prop where
  p0 : d.h0.Pow
  p1 : d.h1.Pow

theorem expand_pow {d : Dict K V} (h : Pows d) (size : Nat) : Pows (expand d size).1 := by
  unfold expand
  split
  · exact h
  · simp only
    split
    · exact h
    · obtain ⟨k, hk, hn⟩ := nextPower_pow size
      split
      · exact ⟨.inr ⟨k, hk, by simp [hn]⟩, h.p1⟩
      · exact ⟨h.p0, .inr ⟨k, hk, by simp [hn]⟩⟩

theorem moveEntry_len {ty : Ty K} {t t' : HT K V} {e : K × V} (h : moveEntry ty t e = some t') : t'.table.length = t.table.length := by
  unfold moveEntry at h
  obtain ⟨c, _, h⟩ := Option.bind_eq_some_iff.1 h
  cases h
  simp

theorem moveChain_len {ty : Ty K} (c : List (K × V)) : ∀ {t t' : HT K V}, moveChain ty t c = some t' → t'.table.length = t.table.length := by
  induction c with
  | nil => intro t t' h; cases h; rfl
  | cons e c ih =>
    intro t t' h
    unfold moveChain at h
    obtain ⟨t1, h1, h2⟩ := Option.bind_eq_some_iff.1 h
    rw [ih h2, moveEntry_len h1]

theorem rehashLoop_pow {ty : Ty K} (n : Nat) : ∀ (v r : Nat) {d d' : Dict K V} {b : Bool}, Pows d → rehashLoop ty n v r d = some (d', b) → Pows d' := by
  induction n with
  | zero => intro v r d d' b h hr; cases hr; exact h
  | succ n ih =>
    intro v r d d' b h hr
    unfold rehashLoop at hr
    split at hr
    · cases hr; exact h
    · obtain ⟨⟨r', v', stop⟩, _, hr⟩ := Option.bind_eq_some_iff.1 hr
      simp only at hr
      split at hr
      · cases hr; exact ⟨h.p0, h.p1⟩
      · obtain ⟨c, _, hr⟩ := Option.bind_eq_some_iff.1 hr
        obtain ⟨t, ht, hr⟩ := Option.bind_eq_some_iff.1 hr
        exact ih _ _ ⟨pow_of_length h.p0 (by simp), pow_of_length h.p1 (moveChain_len c ht)⟩ hr

theorem rehash_pow {ty : Ty K} {d d' : Dict K V} {n : Nat} (h : Pows d) (hr : rehash ty d n = some d') : Pows d' := by
  unfold rehash at hr
  split at hr
  · cases hr; exact h
  · obtain ⟨⟨d1, stop⟩, h1, hr⟩ := Option.bind_eq_some_iff.1 hr
    have h2 := rehashLoop_pow _ _ _ h h1
    simp only at hr
    split at hr
    · cases hr; exact h2
    · split at hr
      · cases hr; exact ⟨h2.p1, .inl rfl⟩
      · cases hr; exact h2

theorem rehashStep_pow {ty : Ty K} {d d' : Dict K V} (h : Pows d) (hr : rehashStep ty d = some d') : Pows d' := by
  unfold rehashStep at hr
  split at hr
  · exact rehash_pow h hr
  · cases hr; exact h

theorem expandIfNeeded_pow {d : Dict K V} (h : Pows d) : Pows (expandIfNeeded d).1 := by
  unfold expandIfNeeded
  split
  · exact h
  · split
    · exact expand_pow h 4
    · split
      · exact expand_pow h _
      · exact h

theorem keyIndex_pow {ty : Ty K} {d d' : Dict K V} {k : K} {w : Where} (h : Pows d) (hr : keyIndex ty d k = some (d', w)) : Pows d' := by
  have h1 := expandIfNeeded_pow h
  unfold keyIndex at hr
  revert h1 hr
  generalize expandIfNeeded d = r
  obtain ⟨d1, ok⟩ := r
  intro hr h1
  simp only at hr h1
  split at hr
  · cases hr; exact h1
  · obtain ⟨c, _, hr⟩ := Option.bind_eq_some_iff.1 hr
    split at hr
    · cases hr; exact h1
    · split at hr
      · cases hr; exact h1
      · obtain ⟨c, _, hr⟩ := Option.bind_eq_some_iff.1 hr
        split at hr <;> (cases hr; exact h1)

theorem setIn_len {ty : Ty K} {t t' : HT K V} {k : K} {v : V} {o : Option V} (h : setIn ty t k v = some (t', o)) : t'.table.length = t.table.length := by
  unfold setIn at h
  obtain ⟨c, _, h⟩ := Option.bind_eq_some_iff.1 h
  cases h
  simp

theorem delIn_len {ty : Ty K} {t t' : HT K V} {k : K} {o : Option V} (h : delIn ty t k = some (t', o)) : t'.table.length = t.table.length := by
  unfold delIn at h
  obtain ⟨c, _, h⟩ := Option.bind_eq_some_iff.1 h
  split at h
  · cases h; simp
  · cases h; rfl

theorem set_pow {ty : Ty K} {d : Dict K V} {k : K} {v : V} {r : Dict K V × Bool × Option V} (h : Pows d) (hr : set ty d k v = some r) : Pows r.1 := by
  unfold set at hr
  obtain ⟨d1, h1, hr⟩ := Option.bind_eq_some_iff.1 hr
  obtain ⟨⟨d2, w⟩, h2, hr⟩ := Option.bind_eq_some_iff.1 hr
  have p := keyIndex_pow (rehashStep_pow h h1) h2
  simp only at hr
  split at hr
  · cases hr
  · obtain ⟨⟨t, o⟩, h3, hr⟩ := Option.bind_eq_some_iff.1 hr
    cases hr; exact ⟨pow_of_length p.p0 (setIn_len h3), p.p1⟩
  · obtain ⟨⟨t, o⟩, h3, hr⟩ := Option.bind_eq_some_iff.1 hr
    cases hr; exact ⟨p.p0, pow_of_length p.p1 (setIn_len h3)⟩
  · split at hr
    · obtain ⟨t, h3, hr⟩ := Option.bind_eq_some_iff.1 hr
      cases hr; exact ⟨p.p0, pow_of_length p.p1 (moveEntry_len h3)⟩
    · obtain ⟨t, h3, hr⟩ := Option.bind_eq_some_iff.1 hr
      cases hr; exact ⟨pow_of_length p.p0 (moveEntry_len h3), p.p1⟩

theorem delete_pow {ty : Ty K} {d : Dict K V} {k : K} {r : Dict K V × Option V} (h : Pows d) (hr : delete ty d k = some r) : Pows r.1 := by
  unfold delete at hr
  split at hr
  · cases hr; exact h
  · obtain ⟨d1, h1, hr⟩ := Option.bind_eq_some_iff.1 hr
    have p := rehashStep_pow h h1
    obtain ⟨⟨t, o⟩, h2, hr⟩ := Option.bind_eq_some_iff.1 hr
    simp only at hr
    split at hr
    · cases hr; exact ⟨pow_of_length p.p0 (delIn_len h2), p.p1⟩
    · split at hr
      · cases hr; exact p
      · obtain ⟨⟨t, o⟩, h3, hr⟩ := Option.bind_eq_some_iff.1 hr
        cases hr; exact ⟨p.p0, pow_of_length p.p1 (delIn_len h3)⟩

theorem find_pow {ty : Ty K} {d : Dict K V} {k : K} {r : Dict K V × Option (K × V)} (h : Pows d) (hr : find ty d k = some r) : Pows r.1 := by
  unfold find at hr
  split at hr
  · cases hr; exact h
  · obtain ⟨d1, h1, hr⟩ := Option.bind_eq_some_iff.1 hr
    have p := rehashStep_pow h h1
    obtain ⟨c, _, hr⟩ := Option.bind_eq_some_iff.1 hr
    split at hr
    · cases hr; exact p
    · split at hr
      · cases hr; exact p
      · obtain ⟨c, _, hr⟩ := Option.bind_eq_some_iff.1 hr
        cases hr; exact p

theorem step_pow {ty : Ty K} {d : Dict K V} {o : Op K V} {r : Dict K V × List V} (h : Pows d) (hr : step ty d o = some r) : Pows r.1 := by
  cases o with
  | set k v => obtain ⟨x, hx, rfl⟩ := Option.map_eq_some_iff.1 hr; exact set_pow h hx
  | del k => obtain ⟨x, hx, rfl⟩ := Option.map_eq_some_iff.1 hr; exact delete_pow h hx
  | get k => obtain ⟨x, hx, rfl⟩ := Option.map_eq_some_iff.1 hr; exact find_pow h hx
  | clear => cases hr; exact ⟨.inl rfl, .inl rfl⟩
  | iters n => cases hr; exact ⟨h.p0, h.p1⟩

theorem expand_inv {ty : Ty K} {d : Dict K V} (hi : Inv ty d) (size : Nat) : Inv ty (expand d size).1 ∧ ents (expand d size).1 = ents d := by
  unfold expand
  split
  · exact ⟨hi, rfl⟩
  · rename_i hc
    have hr : d.ridx = none := by
      cases h : d.ridx with
      | none => rfl
      | some r => exact absurd (.inl (by simp [h])) hc
    have h1 := hi.idle hr
    have hpos : 0 < nextPower size := by obtain ⟨k, _, hn⟩ := nextPower_pow size; rw [hn]; exact Nat.two_pow_pos k
    have hne : List.replicate (nextPower size) ([] : List (K × V)) ≠ [] := by
      intro h
      have := congrArg List.length h
      simp at this; omega
    simp only
    split
    · exact ⟨hi, rfl⟩
    · split
      · rename_i h0
        have he : ents { d with h0 := (⟨List.replicate (nextPower size) [], 0⟩ : HT K V) } = ents d := by
          unfold ents HT.ents; rw [h0]; simp
        exact ⟨⟨HT.WF.blank ty _, hi.w1, by rw [he]; exact hi.uniq, fun _ => h1, (fun r h => by rw [show _ = none from hr] at h; cases h)⟩, he⟩
      · rename_i h0
        have he : ents { d with h1 := (⟨List.replicate (nextPower size) [], 0⟩ : HT K V), ridx := some 0 } = ents d := by
          unfold ents HT.ents; rw [h1]; simp
        refine ⟨⟨hi.w0, HT.WF.blank ty _, by rw [he]; exact hi.uniq, (fun h => by cases h), fun r h => ?_⟩, he⟩
        cases h
        exact ⟨h0, hne, Nat.zero_le _, by simp⟩

theorem resize_inv {ty : Ty K} {d : Dict K V} (hi : Inv ty d) (hp : Pows d) : Inv ty (resize d).1 ∧ ents (resize d).1 = ents d ∧ Pows (resize d).1 := by
  unfold resize
  split
  · exact ⟨hi, rfl, hp⟩
  · exact ⟨(expand_inv hi _).1, (expand_inv hi _).2, expand_pow hp _⟩

/-! ### One call -/

theorem mask_eq {t : HT K V} {k : Nat} (h : t.table.length = 2 ^ k) : t.mask = BitVec.ofNat 64 (2 ^ k - 1) := by unfold HT.mask; rw [h]

theorem at_eq {t : HT K V} {k : Nat} (hk : k ≤ 63) (h : t.table.length = 2 ^ k) (v : BitVec 64) : t.at v = t.table[v.toNat % 2 ^ k]? := by
  unfold HT.at
  rw [mask_eq h, BitVec.toNat_and, BitVec.toNat_ofNat]
  have : 2 ^ k ≤ 2 ^ 63 := Nat.pow_le_pow_right (by omega) hk
  rw [Nat.mod_eq_of_lt (by omega), Nat.and_two_pow_sub_one_eq_mod]

/-- The hash of a key as a cursor. -/
def hashAt (ty : Ty K) (k : K) : BitVec 64 := BitVec.ofNat 64 (ty.hash k)

theorem slot_at {ty : Ty K} {t : HT K V} {k : Nat} (hk : k ≤ 63) (h : t.table.length = 2 ^ k) (x : K) : t.slot ty x = (hashAt ty x).toNat % 2 ^ k := by
  unfold HT.slot hashAt
  rw [h, Nat.and_two_pow_sub_one_eq_mod, BitVec.toNat_ofNat, Nat.mod_mod_of_dvd]
  exact Nat.pow_dvd_pow 2 (by omega)

/-- The chain at a cursor has the entries whose hash is there. -/
theorem at_has {ty : Ty K} {t : HT K V} (w : t.WF ty) {k : Nat} (hk : k ≤ 63) (h : t.table.length = 2 ^ k) (v : BitVec 64) :
    ∃ c, t.at v = some c ∧ (∀ e ∈ c, e ∈ t.ents) ∧ (t.ents.Nodup → c.Nodup) ∧ (∀ e ∈ c, pos (hashAt ty e.1) / 2 ^ (64 - k) = pos v / 2 ^ (64 - k)) ∧
      ∀ e ∈ t.ents, pos (hashAt ty e.1) / 2 ^ (64 - k) = pos v / 2 ^ (64 - k) → e ∈ c := by
  have hlt : v.toNat % 2 ^ k < t.table.length := by rw [h]; exact Nat.mod_lt _ (Nat.two_pow_pos k)
  have hc := List.getElem?_eq_getElem hlt
  refine ⟨_, (at_eq hk h v).trans hc, fun e he => List.mem_flatten.2 ⟨_, List.getElem_mem hlt, he⟩, fun hn => (List.pairwise_flatten.1 hn).1 _ (List.getElem_mem hlt), ?_, ?_⟩
  · intro e he
    apply same_pos (by omega)
    rw [← slot_at hk h]
    exact w.place _ _ hc e he
  intro e he hp
  obtain ⟨c2, h2, h3⟩ := List.mem_flatten.1 he
  obtain ⟨i, hi, h4⟩ := List.getElem_of_mem h2
  have h5 : t.table[i]? = some c2 := by rw [List.getElem?_eq_getElem hi, h4]
  have h6 := w.place i c2 h5 e h3
  rw [slot_at hk h, same_slot (by omega) hp] at h6
  subst h6
  rw [h4]; exact h3

theorem big_spec {ty : Ty K} {t : HT K V} (w : t.WF ty) {a b : Nat} (hab : a ≤ b) (hb : b ≤ 63) (h : t.table.length = 2 ^ b) (n : Nat) : ∀ (v : BitVec 64),
    (pos v / 2 ^ (64 - a) + 1) * 2 ^ (b - a) ≤ n + pos v / 2 ^ (64 - b) →
    ∃ v' l, scanBig (BitVec.ofNat 64 (2 ^ a - 1)) t n v = some (v', l) ∧ pos v' = (pos v / 2 ^ (64 - a) + 1) * 2 ^ (64 - a) % 2 ^ 64 ∧ (∀ e ∈ l, e ∈ t.ents) ∧
      (t.ents.Nodup → l.Nodup) ∧ (∀ e ∈ l, pos v / 2 ^ (64 - b) ≤ pos (hashAt ty e.1) / 2 ^ (64 - b) ∧ pos (hashAt ty e.1) / 2 ^ (64 - a) = pos v / 2 ^ (64 - a)) ∧
      ∀ e ∈ t.ents, pos v ≤ pos (hashAt ty e.1) → pos (hashAt ty e.1) / 2 ^ (64 - a) = pos v / 2 ^ (64 - a) → e ∈ l := by
  have hx : 2 ^ (64 - a) = 2 ^ (64 - b) * 2 ^ (b - a) := by rw [← Nat.pow_add]; congr 1; omega
  have h64 : 2 ^ 64 = 2 ^ (64 - a) * 2 ^ a := by rw [← Nat.pow_add]; congr 1; omega
  have hba : 2 ^ b = 2 ^ (b - a) * 2 ^ a := by rw [← Nat.pow_add]; congr 1; omega
  have hy := Nat.two_pow_pos (64 - b)
  have hp := Nat.two_pow_pos (b - a)
  have hdd : ∀ x, x / 2 ^ (64 - a) = x / 2 ^ (64 - b) / 2 ^ (b - a) := fun x => by rw [hx, Nat.div_div_eq_div_mul]
  induction n with
  | zero =>
    intro v hn
    rw [hdd] at hn
    have := Nat.div_add_mod (pos v / 2 ^ (64 - b)) (2 ^ (b - a))
    have := Nat.mod_lt (pos v / 2 ^ (64 - b)) hp
    rw [Nat.add_mul, Nat.one_mul, Nat.mul_comm] at hn
    omega
  | succ n ih =>
    intro v hn
    obtain ⟨c, hc, hc1, hcn, hcp, hc2⟩ := at_has w hb h v
    have hv := bump_pos (k := b) (by omega) v
    unfold scanBig
    rw [hc, Option.bind_some, mask_eq h]
    simp only
    generalize bump (BitVec.ofNat 64 (2 ^ b - 1)) v = v1 at hv ⊢
    generalize hq : pos v / 2 ^ (64 - b) = q at hv hn hc2 hcp ⊢
    have hG : pos v / 2 ^ (64 - a) = q / 2 ^ (b - a) := by rw [hdd, hq]
    rw [hG] at hn ⊢
    generalize hg : q / 2 ^ (b - a) = G at hn hG ⊢
    have hqd := Nat.div_add_mod q (2 ^ (b - a))
    have hqm := Nat.mod_lt q hp
    rw [hg] at hqd
    have hle : q + 1 ≤ (G + 1) * 2 ^ (b - a) := by rw [Nat.add_mul, Nat.one_mul, Nat.mul_comm]; omega
    have hend : (G + 1) * 2 ^ (64 - a) = (G + 1) * 2 ^ (b - a) * 2 ^ (64 - b) := by rw [hx, Nat.mul_assoc, Nat.mul_comm (2 ^ (64 - b))]
    by_cases hlast : q + 1 = (G + 1) * 2 ^ (b - a)
    · have hv1 : pos v1 = (G + 1) * 2 ^ (64 - a) % 2 ^ 64 := by rw [hv, hlast, hend]
      have hz : pos v1 % 2 ^ (64 - a) = 0 := by
        rw [hv1, h64, Nat.mod_mul_right_mod, Nat.mul_mod_left]
      rw [between_zero hab (by omega) hz]
      refine ⟨v1, c, by simp, hv1, hc1, hcn, fun e he => ⟨by rw [hcp e he]; exact Nat.le_refl _, by rw [hdd, hcp e he, hg]⟩, ?_⟩
      intro e he h1 h2
      refine hc2 e he ?_
      have g1 : q ≤ pos (hashAt ty e.1) / 2 ^ (64 - b) := by rw [← hq]; exact Nat.div_le_div_right h1
      rw [hdd] at h2
      have g2 : pos (hashAt ty e.1) / 2 ^ (64 - b) < (G + 1) * 2 ^ (b - a) := by
        have := Nat.div_add_mod (pos (hashAt ty e.1) / 2 ^ (64 - b)) (2 ^ (b - a))
        have := Nat.mod_lt (pos (hashAt ty e.1) / 2 ^ (64 - b)) hp
        rw [h2] at *
        rw [Nat.add_mul, Nat.one_mul, Nat.mul_comm]
        omega
      omega
    · have hlt : q + 1 < (G + 1) * 2 ^ (b - a) := by omega
      have hGa : G + 1 ≤ 2 ^ a := by
        have := pos_lt v
        rw [h64, Nat.mul_comm] at this
        have := Nat.div_lt_of_lt_mul (by rw [Nat.mul_comm]; exact this)
        rw [hG] at this
        exact this
      have hsm : (q + 1) * 2 ^ (64 - b) < 2 ^ 64 := by
        have e1 : (q + 1) * 2 ^ (64 - b) < (G + 1) * 2 ^ (b - a) * 2 ^ (64 - b) := Nat.mul_lt_mul_of_pos_right hlt hy
        rw [← hend] at e1
        refine Nat.lt_of_lt_of_le e1 ?_
        rw [h64, Nat.mul_comm]
        exact Nat.mul_le_mul_left _ hGa
      rw [Nat.mod_eq_of_lt hsm] at hv
      have hv2 : pos v1 / 2 ^ (64 - b) = q + 1 := by rw [hv, Nat.mul_div_cancel _ hy]
      have hv3 : pos v1 / 2 ^ (64 - a) = G := by
        rw [hdd, hv2]
        apply Nat.div_eq_of_lt_le
        · rw [Nat.mul_comm]; omega
        · exact hlt
      have hnz : v1 &&& (BitVec.ofNat 64 (2 ^ a - 1) ^^^ BitVec.ofNat 64 (2 ^ b - 1)) ≠ 0 := by
        intro hz
        have hm := zero_between (by omega) (by rw [hv, Nat.mul_mod_left]) hz
        have hd := Nat.div_add_mod (pos v1) (2 ^ (64 - a))
        rw [hm, hv3, hv, hx, Nat.mul_assoc, Nat.mul_comm (q + 1)] at hd
        have := Nat.eq_of_mul_eq_mul_left hy (by simpa using hd)
        omega
      rw [if_pos hnz]
      obtain ⟨v', l, r1, r2, r3, r5, r6, r4⟩ := ih v1 (by rw [hv2, hv3]; omega)
      rw [hv3] at r2 r4 r6
      rw [hv2] at r6
      refine ⟨v', c ++ l, by rw [r1]; rfl, r2, ?_, ?_, ?_, ?_⟩
      · intro e he
        rcases List.mem_append.1 he with he | he
        · exact hc1 e he
        · exact r3 e he
      · intro hn
        refine List.nodup_append.2 ⟨hcn hn, r5 hn, ?_⟩
        rintro x hx y hy rfl
        have g1 := hcp x hx
        have g2 := (r6 x hy).1
        omega
      · intro e he
        rcases List.mem_append.1 he with he | he
        · exact ⟨by rw [hcp e he]; exact Nat.le_refl _, by rw [hdd, hcp e he, hg]⟩
        · exact ⟨by have := (r6 e he).1; omega, (r6 e he).2⟩
      · intro e he h1 h2
        by_cases hs : pos (hashAt ty e.1) / 2 ^ (64 - b) = q
        · exact List.mem_append_left _ (hc2 e he hs)
        · refine List.mem_append_right _ (r4 e he ?_ h2)
          have g1 : q ≤ pos (hashAt ty e.1) / 2 ^ (64 - b) := by rw [← hq]; exact Nat.div_le_div_right h1
          have g2 : q + 1 ≤ pos (hashAt ty e.1) / 2 ^ (64 - b) := by omega
          rw [hv]
          exact Nat.le_trans (Nat.mul_le_mul_right _ g2) (Nat.div_mul_le_self _ _)

/-- One call tells every entry from the old cursor up to the new one. -/
theorem scan_spec {ty : Ty K} {d : Dict K V} (hi : Inv ty d) (hp : Pows d) (v : BitVec 64) :
    ∃ v' l, scan d v = some (v', l) ∧ (∀ e ∈ l, e ∈ ents d) ∧
      ∀ e ∈ ents d, pos v ≤ pos (hashAt ty e.1) → (v' = 0 ∨ pos (hashAt ty e.1) < pos v') → e ∈ l := by
  unfold scan
  by_cases hz : size d = 0
  · rw [if_pos hz]
    have he : ents d = [] := List.length_eq_zero_iff.1 (by rw [← size_eq hi]; exact hz)
    exact ⟨0, [], rfl, (fun e h => by cases h), (fun e h => by rw [he] at h; cases h)⟩
  rw [if_neg hz]
  have range : ∀ (k : Nat) (hk : k ≤ 63) (x v v' : BitVec 64), pos v' = (pos v / 2 ^ (64 - k) + 1) * 2 ^ (64 - k) % 2 ^ 64 → pos v ≤ pos x → (v' = 0 ∨ pos x < pos v') →
      pos x / 2 ^ (64 - k) = pos v / 2 ^ (64 - k) := by
    intro k hk x v v' h1 h2 h3
    have hy := Nat.two_pow_pos (64 - k)
    have h64 : 2 ^ 64 = 2 ^ (64 - k) * 2 ^ k := by rw [← Nat.pow_add]; congr 1; omega
    have hq : pos v / 2 ^ (64 - k) < 2 ^ k := Nat.div_lt_of_lt_mul (by rw [← h64]; exact pos_lt v)
    refine Nat.le_antisymm ?_ (Nat.div_le_div_right h2)
    have hlt : pos x < (pos v / 2 ^ (64 - k) + 1) * 2 ^ (64 - k) := by
      by_cases hc : pos v / 2 ^ (64 - k) + 1 = 2 ^ k
      · rw [hc, Nat.mul_comm, ← h64]; exact pos_lt x
      · have hsm : (pos v / 2 ^ (64 - k) + 1) * 2 ^ (64 - k) < 2 ^ 64 := by
          rw [h64, Nat.mul_comm]
          exact Nat.mul_lt_mul_of_pos_left (by omega) hy
        rw [Nat.mod_eq_of_lt hsm] at h1
        rcases h3 with h3 | h3
        · rw [h3, zero_pos] at h1
          have := Nat.mul_pos (Nat.succ_pos _ : 0 < pos v / 2 ^ (64 - k) + 1) hy
          rw [← h1] at this
          exact absurd this (Nat.lt_irrefl 0)
        · omega
    have := Nat.div_lt_of_lt_mul (by rw [Nat.mul_comm] at hlt; exact hlt)
    omega
  cases hr : d.ridx with
  | none =>
    have h1 := hi.idle hr
    have he : ents d = d.h0.ents := by unfold ents HT.ents; rw [h1]; simp
    rcases hp.p0 with h0 | ⟨k, hk, hl⟩
    · exfalso; apply hz
      rw [size_eq hi, he]; unfold HT.ents; rw [h0]; rfl
    · obtain ⟨c, c1, c2, c4, c5, c3⟩ := at_has hi.w0 hk hl v
      refine ⟨_, c, by simp only [Option.isNone_none, if_true, c1, Option.map_some]; rfl, by rw [he]; exact c2, ?_⟩
      rw [he]
      intro e hm h2 h3
      rw [mask_eq hl] at h3
      exact c3 e hm (range k hk _ v _ (bump_pos (by omega) v) h2 h3)
  | some r =>
    obtain ⟨n0, n1, -, -⟩ := hi.busy r hr
    have main : ∀ (t0 t1 : HT K V), t0.WF ty → t1.WF ty → t0.Pow → t1.Pow → t0.table ≠ [] → t1.table ≠ [] → t0.table.length ≤ t1.table.length →
        ∃ v' l, ((t0.at v).bind fun c => (scanBig t0.mask t1 t1.table.length v).map fun r => (r.1, c ++ r.2)) = some (v', l) ∧ (∀ e ∈ l, e ∈ t0.ents ++ t1.ents) ∧
          ∀ e ∈ t0.ents ++ t1.ents, pos v ≤ pos (hashAt ty e.1) → (v' = 0 ∨ pos (hashAt ty e.1) < pos v') → e ∈ l := by
      intro t0 t1 w0 w1 p0 p1 e0 e1 hle
      obtain ⟨a, ha, hla⟩ := p0.resolve_left e0
      obtain ⟨b, hb, hlb⟩ := p1.resolve_left e1
      have hab : a ≤ b := by
        rw [hla, hlb] at hle
        exact (Nat.pow_le_pow_iff_right (by omega)).1 hle
      obtain ⟨c, c1, c2, c4, c5, c3⟩ := at_has w0 ha hla v
      have hfuel : (pos v / 2 ^ (64 - a) + 1) * 2 ^ (b - a) ≤ 2 ^ b + pos v / 2 ^ (64 - b) := by
        have h64 : 2 ^ 64 = 2 ^ (64 - a) * 2 ^ a := by rw [← Nat.pow_add]; congr 1; omega
        have hba : 2 ^ b = 2 ^ a * 2 ^ (b - a) := by rw [← Nat.pow_add]; congr 1; omega
        have hq : pos v / 2 ^ (64 - a) < 2 ^ a := Nat.div_lt_of_lt_mul (by rw [← h64]; exact pos_lt v)
        have : (pos v / 2 ^ (64 - a) + 1) * 2 ^ (b - a) ≤ 2 ^ b := by rw [hba]; exact Nat.mul_le_mul_right _ hq
        exact Nat.le_trans this (Nat.le_add_right _ _)
      obtain ⟨v', l, b1, b2, b3, b5, b6, b4⟩ := big_spec w1 hab hb hlb (2 ^ b) v hfuel
      refine ⟨v', c ++ l, by rw [c1, Option.bind_some, mask_eq hla, hlb, b1]; rfl, ?_, ?_⟩
      · intro e he
        rcases List.mem_append.1 he with he | he
        · exact List.mem_append_left _ (c2 e he)
        · exact List.mem_append_right _ (b3 e he)
      · intro e he h2 h3
        have hsame := range a ha _ v v' b2 h2 h3
        rcases List.mem_append.1 he with he | he
        · exact List.mem_append_left _ (c3 e he hsame)
        · exact List.mem_append_right _ (b4 e he h2 hsame)
    simp only [Option.isNone_some, Bool.false_eq_true, if_false]
    by_cases hc : d.h0.table.length > d.h1.table.length
    · simp only [if_pos hc]
      obtain ⟨v', l, m1, m2, m3⟩ := main d.h1 d.h0 hi.w1 hi.w0 hp.p1 hp.p0 n1 n0 (by omega)
      refine ⟨v', l, m1, fun e he => ?_, fun e he => m3 e ?_⟩
      · unfold ents; have := m2 e he; simp only [List.mem_append] at this ⊢; exact this.symm
      · unfold ents at he; simp only [List.mem_append] at he ⊢; exact he.symm
    · simp only [if_neg hc]
      exact main d.h0 d.h1 hi.w0 hi.w1 hp.p0 hp.p1 n0 n1 (by omega)

theorem big_fuel {a b : Nat} (hab : a ≤ b) (hb : b ≤ 63) (v : BitVec 64) : (pos v / 2 ^ (64 - a) + 1) * 2 ^ (b - a) ≤ 2 ^ b + pos v / 2 ^ (64 - b) := by
  have h64 : 2 ^ 64 = 2 ^ (64 - a) * 2 ^ a := by rw [← Nat.pow_add]; congr 1; omega
  have hba : 2 ^ b = 2 ^ a * 2 ^ (b - a) := by rw [← Nat.pow_add]; congr 1; omega
  have hq : pos v / 2 ^ (64 - a) < 2 ^ a := Nat.div_lt_of_lt_mul (by rw [← h64]; exact pos_lt v)
  have : (pos v / 2 ^ (64 - a) + 1) * 2 ^ (b - a) ≤ 2 ^ b := by rw [hba]; exact Nat.mul_le_mul_right _ hq
  exact Nat.le_trans this (Nat.le_add_right _ _)

theorem nodup_of_distinct {ty : Ty K} (ok : ty.Ok) {l : List (K × V)} (h : Distinct ty l) : l.Nodup := by
  refine List.Pairwise.imp ?_ h
  rintro a b hab rfl
  rw [ok.refl] at hab
  cases hab

/-- One call of a dictionary that holds something: the part of the keys it tells, each once. -/
theorem scan_exact {ty : Ty K} (ok : ty.Ok) {d : Dict K V} (hi : Inv ty d) (hp : Pows d) (hz : size d ≠ 0) :
    ∃ k ≤ 63, ∀ v, pos v % 2 ^ (64 - k) = 0 → ∃ v' l, scan d v = some (v', l) ∧ pos v' = (pos v / 2 ^ (64 - k) + 1) * 2 ^ (64 - k) % 2 ^ 64 ∧ l.Nodup ∧
      ∀ e, e ∈ l ↔ e ∈ ents d ∧ pos (hashAt ty e.1) / 2 ^ (64 - k) = pos v / 2 ^ (64 - k) := by
  have hnd := nodup_of_distinct ok hi.uniq
  unfold scan
  simp only [if_neg hz]
  cases hr : d.ridx with
  | none =>
    have h1 := hi.idle hr
    have he : ents d = d.h0.ents := by unfold ents HT.ents; rw [h1]; simp
    rw [he] at hnd
    rcases hp.p0 with h0 | ⟨k, hk, hl⟩
    · exfalso; apply hz
      rw [size_eq hi, he]; unfold HT.ents; rw [h0]; rfl
    · refine ⟨k, hk, fun v _ => ?_⟩
      obtain ⟨c, c1, c2, c4, c5, c3⟩ := at_has hi.w0 hk hl v
      refine ⟨_, c, by simp only [Option.isNone_none, if_true, c1, Option.map_some]; rfl, by rw [mask_eq hl]; exact bump_pos (by omega) v, c4 hnd, ?_⟩
      rw [he]
      exact fun e => ⟨fun h => ⟨c2 e h, c5 e h⟩, fun h => c3 e h.1 h.2⟩
  | some r =>
    obtain ⟨n0, n1, -, -⟩ := hi.busy r hr
    have main : ∀ (t0 t1 : HT K V), t0.WF ty → t1.WF ty → t0.Pow → t1.Pow → t0.table ≠ [] → t1.table ≠ [] → t0.table.length ≤ t1.table.length → (t0.ents ++ t1.ents).Nodup →
        ∃ k ≤ 63, ∀ v, pos v % 2 ^ (64 - k) = 0 → ∃ v' l, ((t0.at v).bind fun c => (scanBig t0.mask t1 t1.table.length v).map fun r => (r.1, c ++ r.2)) = some (v', l) ∧
          pos v' = (pos v / 2 ^ (64 - k) + 1) * 2 ^ (64 - k) % 2 ^ 64 ∧ l.Nodup ∧
          ∀ e, e ∈ l ↔ e ∈ t0.ents ++ t1.ents ∧ pos (hashAt ty e.1) / 2 ^ (64 - k) = pos v / 2 ^ (64 - k) := by
      intro t0 t1 w0 w1 p0 p1 e0 e1 hle hnd
      obtain ⟨a, ha, hla⟩ := p0.resolve_left e0
      obtain ⟨b, hb, hlb⟩ := p1.resolve_left e1
      obtain ⟨d0, d1, dd⟩ := List.nodup_append.1 hnd
      have hab : a ≤ b := by
        rw [hla, hlb] at hle
        exact (Nat.pow_le_pow_iff_right (by omega)).1 hle
      refine ⟨a, ha, fun v hv => ?_⟩
      obtain ⟨c, c1, c2, c4, c5, c3⟩ := at_has w0 ha hla v
      obtain ⟨v', l, b1, b2, b3, b5, b6, b4⟩ := big_spec w1 hab hb hlb (2 ^ b) v (big_fuel hab hb v)
      refine ⟨v', c ++ l, by rw [c1, Option.bind_some, mask_eq hla, hlb, b1]; rfl, b2, ?_, ?_⟩
      · exact List.nodup_append.2 ⟨c4 d0, b5 d1, fun x hx y hy => dd x (c2 x hx) y (b3 y hy)⟩
      · intro e
        rw [List.mem_append, List.mem_append]
        constructor
        · rintro (h | h)
          · exact ⟨.inl (c2 e h), c5 e h⟩
          · exact ⟨.inr (b3 e h), (b6 e h).2⟩
        · rintro ⟨h | h, hg⟩
          · exact .inl (c3 e h hg)
          · refine .inr (b4 e h ?_ hg)
            have e1 := Nat.div_add_mod (pos v) (2 ^ (64 - a))
            rw [hv, ← hg] at e1
            have e2 := Nat.mul_div_le (pos (hashAt ty e.1)) (2 ^ (64 - a))
            omega
    simp only [Option.isNone_some, Bool.false_eq_true, if_false]
    by_cases hc : d.h0.table.length > d.h1.table.length
    · simp only [if_pos hc]
      obtain ⟨k, hk, m⟩ := main d.h1 d.h0 hi.w1 hi.w0 hp.p1 hp.p0 n1 n0 (by omega) (List.perm_append_comm.nodup_iff.1 hnd)
      refine ⟨k, hk, fun v hv => ?_⟩
      obtain ⟨v', l, m1, m2, m3, m4⟩ := m v hv
      refine ⟨v', l, m1, m2, m3, fun e => ?_⟩
      rw [m4 e]
      unfold ents
      rw [List.mem_append, List.mem_append, Or.comm]
    · simp only [if_neg hc]
      exact main d.h0 d.h1 hi.w0 hi.w1 hp.p0 hp.p1 n0 n1 (by omega) hnd

end Sis.Dict
