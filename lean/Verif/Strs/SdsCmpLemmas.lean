import Verif.Strs.SdsCmp
import Verif.Strs.SdsCmpSpec
import Verif.Strs.SdsLemmas
namespace Sis.Sds
open Sis

theorem holds_map (f : UInt8 → Option UInt8) (g : UInt8 → UInt8) (hf : ∀ c, f c = some (g c)) :
    ∀ (y x : Bytes) (s : Sds), Good s (x ++ y) → ∃ s', mapLoop f y.length x.length s = some s' ∧ Good s' (x ++ y.map g) := by
  intro y
  induction y with
  | nil => intro x s h; exact ⟨s, rfl, h⟩
  | cons c y ih =>
    intro x s h
    have hm := good_room h
    obtain ⟨h1, h2, h3, h4, r, hr⟩ := h
    have e1 : s.mem[x.length]? = some (some c) := by rw [hr]; simp
    have hl : x.length + [some (g c)].length ≤ s.mem.length := by simp at hm ⊢; omega
    have e2 : setAt s.mem x.length [some (g c)] = (x ++ g c :: y).map some ++ some 0 :: r := by
      have : s.mem = x.map some ++ (some c :: (y.map some ++ some 0 :: r)) := by rw [hr]; simp
      rw [this, setAt_app _ _ _ _ (by simp)]; simp
    obtain ⟨s', e, g'⟩ := ih (x ++ [g c]) { s with mem := setAt s.mem x.length [some (g c)] }
      (by
        have e3 : x ++ [g c] ++ y = x ++ g c :: y := by simp
        rw [e3]
        refine ⟨h1, by simpa using h2, by simpa using h3, fun ht => ⟨(h4 ht).1, (setAt_length _ _ _ hl).trans (h4 ht).2⟩, r, e2⟩)
    refine ⟨s', ?_, by simpa using g'⟩
    rw [List.length_cons, mapLoop, e1]
    simp only [hf, Option.bind_some, poke_eq _ _ _ hl]
    simpa using e

theorem map_all (f : UInt8 → Option UInt8) (g : UInt8 → UInt8) (hf : ∀ c, f c = some (g c)) (s : Sds) (x : Bytes) (h : Good s x) :
    ∃ s', mapLoop f s.len 0 s = some s' ∧ Good s' (x.map g) := by
  rw [h.2.1]
  exact holds_map f g hf x [] s h

theorem mapChar_eq (c : UInt8) : ∀ (l pre : List (UInt8 × UInt8)),
    mapChar ((pre ++ l).map (·.1)) ((pre ++ l).map (·.2)) c l.length pre.length = some (replaced l c) := by
  intro l
  induction l with
  | nil => intro pre; rfl
  | cons p l ih =>
    intro pre
    rw [List.length_cons, mapChar]
    have e1 : ((pre ++ p :: l).map (·.1))[pre.length]? = some p.1 := by simp
    have e2 : ((pre ++ p :: l).map (·.2))[pre.length]? = some p.2 := by simp
    rw [e1, Option.bind_some, e2]
    by_cases h : c = p.1
    · rw [if_pos h]; simp [replaced, h]
    · rw [if_neg h]
      have := ih (pre ++ [p])
      have e3 : replaced (p :: l) c = replaced l c := by
        unfold replaced; rw [List.find?_cons_of_neg (by simpa using fun e => h e.symm)]
      rw [e3]
      simpa using this

theorem lower_eq : ∀ c : UInt8, (some (if 65 ≤ c ∧ c ≤ 90 then c + 32 else c) : Option UInt8) = some (replaced letters c) := by
  have h : ∀ n : Fin 256, (fun c : UInt8 => if 65 ≤ c ∧ c ≤ 90 then c + 32 else c) (UInt8.ofNat n) = replaced letters (UInt8.ofNat n) := by decide +kernel
  intro c
  have := h ⟨c.toNat, c.toNat_lt⟩
  simp only [UInt8.ofNat_toNat] at this
  rw [this]

theorem upper_eq : ∀ c : UInt8, (some (if 97 ≤ c ∧ c ≤ 122 then c - 32 else c) : Option UInt8) = some (replaced (letters.map Prod.swap) c) := by
  have h : ∀ n : Fin 256, (fun c : UInt8 => if 97 ≤ c ∧ c ≤ 122 then c - 32 else c) (UInt8.ofNat n) = replaced (letters.map Prod.swap) (UInt8.ofNat n) := by decide +kernel
  intro c
  have := h ⟨c.toNat, c.toNat_lt⟩
  simp only [UInt8.ofNat_toNat] at this
  rw [this]

/-- The comparison of bytes. -/
def cmpB : Bytes → Bytes → Int
  | [], [] => 0
  | [], _ :: _ => -1
  | _ :: _, [] => 1
  | a :: x, b :: y => if a < b then -1 else if b < a then 1 else cmpB x y

theorem before_nil (x : Bytes) : ¬ Before x [] := by
  rintro (⟨c, v, h⟩ | ⟨p, a, b, u, v, _, _, h⟩) <;> simp at h

theorem before_cons (a b : UInt8) (x y : Bytes) : Before (a :: x) (b :: y) ↔ a < b ∨ (a = b ∧ Before x y) := by
  constructor
  · rintro (⟨c, v, h⟩ | ⟨p, c, d, u, v, h1, h2, h3⟩)
    · simp at h
      exact Or.inr ⟨h.1.symm, Or.inl ⟨c, v, h.2⟩⟩
    · rcases p with _ | ⟨q, p⟩
      · simp at h2 h3
        left; rw [h2.1, h3.1]; exact h1
      · simp at h2 h3
        exact Or.inr ⟨h2.1.trans h3.1.symm, Or.inr ⟨p, c, d, u, v, h1, h2.2, h3.2⟩⟩
  · rintro (h | ⟨rfl, ⟨c, v, h⟩ | ⟨p, c, d, u, v, h1, h2, h3⟩⟩)
    · exact Or.inr ⟨[], a, b, x, y, h, rfl, rfl⟩
    · exact Or.inl ⟨c, v, by rw [h]; rfl⟩
    · exact Or.inr ⟨a :: p, c, d, u, v, h1, by rw [h2]; rfl, by rw [h3]; rfl⟩

theorem u8_tri (a b : UInt8) : a < b ∨ a = b ∨ b < a := by
  rcases Nat.lt_trichotomy a.toNat b.toNat with h | h | h
  · exact Or.inl (UInt8.lt_iff_toNat_lt.2 h)
  · exact Or.inr (Or.inl (UInt8.toNat_inj.1 h))
  · exact Or.inr (Or.inr (UInt8.lt_iff_toNat_lt.2 h))

theorem u8_asymm {a b : UInt8} (h : a < b) : ¬ b < a ∧ a ≠ b := by
  have h1 := UInt8.lt_iff_toNat_lt.1 h
  refine ⟨fun h2 => ?_, fun h2 => ?_⟩
  · have := UInt8.lt_iff_toNat_lt.1 h2; omega
  · subst h2; omega

theorem cmpB_spec : ∀ x y : Bytes, (cmpB x y = 0 ↔ x = y) ∧ (cmpB x y < 0 ↔ Before x y) ∧ (0 < cmpB x y ↔ Before y x) := by
  intro x
  induction x with
  | nil =>
    intro y
    rcases y with _ | ⟨b, y⟩
    · simp [cmpB, before_nil]
    · simp [cmpB, before_nil]
      exact Or.inl ⟨b, y, rfl⟩
  | cons a x ih =>
    intro y
    rcases y with _ | ⟨b, y⟩
    · simp [cmpB, before_nil]
      exact Or.inl ⟨a, x, rfl⟩
    · rw [before_cons, before_cons, cmpB]
      rcases u8_tri a b with h | h | h
      · rw [if_pos h]
        have := u8_asymm h
        simp [h, this.1, this.2, this.2.symm]
      · subst h
        have hn : ¬ a < a := fun h => (u8_asymm h).1 h
        rw [if_neg hn, if_neg hn]
        have := ih y
        simpa [hn] using this
      · have := u8_asymm h
        rw [if_neg this.1, if_pos h]
        simp [h, this.1, this.2, this.2.symm]

theorem before_trans : ∀ x y z : Bytes, Before x y → Before y z → Before x z := by
  intro x
  induction x with
  | nil =>
    intro y z _ h
    rcases z with _ | ⟨c, z⟩
    · exact absurd h (before_nil _)
    · exact Or.inl ⟨c, z, rfl⟩
  | cons a x ih =>
    intro y z h1 h2
    rcases z with _ | ⟨c, z⟩
    · exact absurd h2 (before_nil _)
    rcases y with _ | ⟨b, y⟩
    · exact absurd h1 (before_nil _)
    rw [before_cons] at *
    rcases h1 with h1 | ⟨rfl, h1⟩ <;> rcases h2 with h2 | ⟨rfl, h2⟩
    · left
      have := UInt8.lt_iff_toNat_lt.1 h1
      have := UInt8.lt_iff_toNat_lt.1 h2
      exact UInt8.lt_iff_toNat_lt.2 (by omega)
    · exact Or.inl h1
    · exact Or.inl h2
    · exact Or.inr ⟨rfl, ih _ _ h1 h2⟩

theorem memcmp_eq : ∀ x y : Bytes, ∃ c,
    memcmp ((x.map some).take (if x.length < y.length then x.length else y.length)) ((y.map some).take (if x.length < y.length then x.length else y.length)) = some c ∧
      (if c = 0 then (if x.length > y.length then 1 else if x.length < y.length then -1 else 0) else c) = cmpB x y := by
  intro x
  induction x with
  | nil =>
    intro y
    rcases y with _ | ⟨b, y⟩ <;> exact ⟨0, by simp [memcmp], by simp [cmpB]⟩
  | cons a x ih =>
    intro y
    rcases y with _ | ⟨b, y⟩
    · exact ⟨0, by simp [memcmp], by simp [cmpB]⟩
    · have e : (if (a :: x).length < (b :: y).length then (a :: x).length else (b :: y).length) = (if x.length < y.length then x.length else y.length) + 1 := by
        simp only [List.length_cons, Nat.add_lt_add_iff_right]; split <;> rfl
      rw [e, List.map_cons, List.map_cons, List.take_succ_cons, List.take_succ_cons, memcmp, cmpB]
      by_cases h : a < b
      · exact ⟨-1, by rw [if_pos h], by rw [if_pos h]; rfl⟩
      · rw [if_neg h, if_neg h]
        by_cases h' : b < a
        · exact ⟨1, by rw [if_pos h'], by rw [if_pos h']; rfl⟩
        · rw [if_neg h', if_neg h']
          obtain ⟨c, e1, e2⟩ := ih y
          exact ⟨c, e1, by simpa using e2⟩

theorem cmp_eq (s t : Sds) (x y : Bytes) (hs : Good s x) (ht : Good t y) : cmp s t = some (cmpB x y) := by
  obtain ⟨c, e1, e2⟩ := memcmp_eq x y
  have m1 := good_room hs
  have m2 := good_room ht
  unfold cmp
  rw [hs.2.1, ht.2.1]
  dsimp only
  obtain ⟨_, _, _, _, r, hr⟩ := hs
  obtain ⟨_, _, _, _, r', hr'⟩ := ht
  have hn1 : (if x.length < y.length then x.length else y.length) ≤ x.length := by split <;> omega
  have hn2 : (if x.length < y.length then x.length else y.length) ≤ y.length := by split <;> omega
  generalize hn : (if x.length < y.length then x.length else y.length) = n at *
  unfold peek
  rw [if_pos (by omega), if_pos (by omega), Option.bind_some, Option.bind_some, hr, hr', List.take_append_of_le_length (by simpa using hn1),
    List.take_append_of_le_length (by simpa using hn2), e1, Option.map_some, e2]

end Sis.Sds
