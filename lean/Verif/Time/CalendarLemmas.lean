import Verif.Time.Calendar
/-
The calendar of the model is the Gregorian calendar: every day is the day after the one before.
-/
namespace Sis.Time

/-! ### Specification -/

/-- The days of a month. -/
def monthDays (y m : Nat) : Nat :=
  if m = 2 then (if y % 4 = 0 ∧ (y % 100 ≠ 0 ∨ y % 400 = 0) then 29 else 28)
  else if m = 4 ∨ m = 6 ∨ m = 9 ∨ m = 11 then 30 else 31

/-- A date of the calendar. -/
def IsDate (c : Nat × Nat × Nat) : Prop := 1 ≤ c.2.1 ∧ c.2.1 ≤ 12 ∧ 1 ≤ c.2.2 ∧ c.2.2 ≤ monthDays c.1 c.2.1

/-- The day after. -/
def dayAfter (c : Nat × Nat × Nat) : Nat × Nat × Nat :=
  if c.2.2 < monthDays c.1 c.2.1 then (c.1, c.2.1, c.2.2 + 1)
  else if c.2.1 < 12 then (c.1, c.2.1 + 1, 1)
  else (c.1 + 1, 1, 1)

/-- A date as the code writes it: 20210604 is 4 June 2021. -/
def number (c : Nat × Nat × Nat) : Nat := c.1 * 10000 + c.2.1 * 100 + c.2.2

/-! ### Lemmas -/

theorem leap_iff (y : Nat) : leap y = true ↔ y % 4 = 0 ∧ (y % 100 ≠ 0 ∨ y % 400 = 0) := by
  simp [leap]

theorem beforeYear_succ (y : Nat) : beforeYear (y + 1) = beforeYear y + 365 + (if leap y = true then 1 else 0) := by
  have e4 : (y + 1 + 3) / 4 = (y + 3) / 4 + (if y % 4 = 0 then 1 else 0) := by split <;> omega
  have e100 : (y + 1 + 99) / 100 = (y + 99) / 100 + (if y % 100 = 0 then 1 else 0) := by split <;> omega
  have e400 : (y + 1 + 399) / 400 = (y + 399) / 400 + (if y % 400 = 0 then 1 else 0) := by split <;> omega
  have h4 : y % 100 = 0 → y % 4 = 0 := by omega
  have h100 : y % 400 = 0 → y % 100 = 0 := by omega
  have hle : (y + 99) / 100 ≤ 365 * y := by omega
  have hle' : (y + 1 + 99) / 100 ≤ 365 * (y + 1) := by omega
  unfold beforeYear
  rw [e100] at hle'
  rw [e4, e100, e400]
  generalize (y + 3) / 4 = a at *
  generalize (y + 99) / 100 = b at *
  generalize (y + 399) / 400 = c at *
  by_cases k4 : y % 4 = 0 <;> by_cases k100 : y % 100 = 0 <;> by_cases k400 : y % 400 = 0 <;>
    simp [leap, k4, k100, k400] at h4 h100 hle' ⊢ <;> omega

theorem beforeYear_le (y : Nat) : beforeYear y ≤ 366 * y := by unfold beforeYear; omega

theorem le_beforeYear (y : Nat) : 365 * y ≤ beforeYear y := by unfold beforeYear; omega

theorem beforeYear_mono {a b : Nat} (h : a ≤ b) : beforeYear a ≤ beforeYear b := by
  induction h with
  | refl => exact Nat.le_refl _
  | @step m _ ih => rw [Nat.succ_eq_add_one, beforeYear_succ]; omega

theorem beforeMonth_succ (y : Nat) {m : Nat} (h1 : 1 ≤ m) (h2 : m < 12) : beforeMonth y (m + 1) = beforeMonth y m + monthDays y m := by
  have : m = 1 ∨ m = 2 ∨ m = 3 ∨ m = 4 ∨ m = 5 ∨ m = 6 ∨ m = 7 ∨ m = 8 ∨ m = 9 ∨ m = 10 ∨ m = 11 := by omega
  by_cases h : leap y = true
  · have h' := (leap_iff y).1 h
    rcases this with rfl | rfl | rfl | rfl | rfl | rfl | rfl | rfl | rfl | rfl | rfl <;> simp [beforeMonth, monthDays, h, h']
  · have h' := mt (leap_iff y).2 h
    rcases this with rfl | rfl | rfl | rfl | rfl | rfl | rfl | rfl | rfl | rfl | rfl <;> simp [beforeMonth, monthDays, h, h']

theorem beforeMonth_last (y : Nat) : beforeYear y + beforeMonth y 12 + monthDays y 12 = beforeYear (y + 1) := by
  rw [beforeYear_succ]
  by_cases h : leap y = true <;> simp [beforeMonth, monthDays, h] <;> omega

theorem beforeMonth_mono (y : Nat) {a b : Nat} (h1 : 1 ≤ a) (h : a ≤ b) (h2 : b ≤ 12) : beforeMonth y a ≤ beforeMonth y b := by
  induction h with
  | refl => exact Nat.le_refl _
  | @step m hm ih =>
    have := ih (by omega)
    have hm' : a ≤ m := hm
    rw [Nat.succ_eq_add_one, beforeMonth_succ y (by omega) (by omega)]
    omega

theorem beforeMonth_one (y : Nat) : beforeMonth y 1 = 0 := by simp [beforeMonth]

theorem yearFrom_spec (n : Nat) : ∀ (k y : Nat), beforeYear y ≤ n → n < beforeYear (y + k) →
    beforeYear (yearFrom n k y) ≤ n ∧ n < beforeYear (yearFrom n k y + 1) := by
  intro k
  induction k with
  | zero => intro y h1 h2; exact absurd h1 (by have : beforeYear (y + 0) = beforeYear y := rfl; omega)
  | succ k ih =>
    intro y h1 h2
    unfold yearFrom
    by_cases h : n < beforeYear (y + 1)
    · rw [if_pos h]; exact ⟨h1, h⟩
    · rw [if_neg h]
      exact ih (y + 1) (by omega) (by rw [show y + 1 + k = y + (k + 1) by omega]; exact h2)

theorem yearOf_spec (n : Nat) : beforeYear (yearOf n) ≤ n ∧ n < beforeYear (yearOf n + 1) := by
  refine yearFrom_spec n (n + 1) (n / 366) ?_ ?_
  · have := beforeYear_le (n / 366); omega
  · have := le_beforeYear (n / 366 + (n + 1)); omega

theorem monthFrom_spec (y r : Nat) : ∀ k, k ≤ 12 → (k < 12 → r < beforeMonth y (k + 1)) → 1 ≤ k →
    1 ≤ monthFrom y r k ∧ monthFrom y r k ≤ k ∧ beforeMonth y (monthFrom y r k) ≤ r ∧
    (monthFrom y r k < 12 → r < beforeMonth y (monthFrom y r k + 1)) := by
  intro k
  induction k with
  | zero => intro _ _ h; omega
  | succ k ih =>
    intro hk hr _
    unfold monthFrom
    by_cases h : beforeMonth y (k + 1) ≤ r
    · rw [if_pos h]
      exact ⟨by omega, Nat.le_refl _, h, hr⟩
    · rw [if_neg h]
      have hk0 : 1 ≤ k := by
        rcases Nat.eq_zero_or_pos k with rfl | h0
        · rw [Nat.zero_add, beforeMonth_one] at h; omega
        · exact h0
      obtain ⟨a, b, c, d⟩ := ih (by omega) (fun _ => by omega) hk0
      exact ⟨a, by omega, c, d⟩

theorem civil_spec (n : Nat) : IsDate (civil n) ∧ daysOf (civil n).1 (civil n).2.1 (civil n).2.2 = n := by
  obtain ⟨h1, h2⟩ := yearOf_spec n
  have hl := beforeMonth_last (yearOf n)
  obtain ⟨a, b, c, d⟩ := monthFrom_spec (yearOf n) (n - beforeYear (yearOf n)) 12 (Nat.le_refl _) (fun h => by omega) (by omega)
  simp only [civil, IsDate, daysOf, monthOf]
  generalize monthFrom (yearOf n) (n - beforeYear (yearOf n)) 12 = m at *
  refine ⟨⟨a, b, by omega, ?_⟩, by omega⟩
  by_cases hm : m < 12
  · have := d hm
    rw [beforeMonth_succ _ a hm] at this
    omega
  · have : m = 12 := by omega
    subst this
    omega

theorem day_lt {c : Nat × Nat × Nat} (h : IsDate c) : daysOf c.1 c.2.1 c.2.2 < beforeYear (c.1 + 1) := by
  obtain ⟨h1, h2, h3, h4⟩ := h
  rw [← beforeMonth_last, daysOf]
  by_cases hm : c.2.1 < 12
  · have e := beforeMonth_succ c.1 h1 hm
    have := beforeMonth_mono c.1 (a := c.2.1 + 1) (b := 12) (by omega) (by omega) (Nat.le_refl _)
    omega
  · have : c.2.1 = 12 := by omega
    rw [this] at h4 ⊢
    omega

theorem daysOf_inj {c c' : Nat × Nat × Nat} (h : IsDate c) (h' : IsDate c')
    (e : daysOf c.1 c.2.1 c.2.2 = daysOf c'.1 c'.2.1 c'.2.2) : c = c' := by
  have key : ∀ {c c' : Nat × Nat × Nat}, IsDate c → daysOf c.1 c.2.1 c.2.2 = daysOf c'.1 c'.2.1 c'.2.2 → ¬ c.1 < c'.1 := by
    intro c c' h e hlt
    have h1 := day_lt h
    have h2 := beforeYear_mono (a := c.1 + 1) (b := c'.1) hlt
    rw [e, daysOf] at h1
    omega
  have hy : c.1 = c'.1 := by
    have h1 := key h e
    have h2 := key h' e.symm
    omega
  have kmon : ∀ {c c' : Nat × Nat × Nat}, IsDate c → IsDate c' → c.1 = c'.1 →
      daysOf c.1 c.2.1 c.2.2 = daysOf c'.1 c'.2.1 c'.2.2 → ¬ c.2.1 < c'.2.1 := by
    intro c c' h h' hy e hlt
    obtain ⟨a1, a2, a3, a4⟩ := h
    obtain ⟨b1, b2, b3, b4⟩ := h'
    have e1 := beforeMonth_succ c.1 a1 (by omega)
    have e2 := beforeMonth_mono c.1 (a := c.2.1 + 1) (b := c'.2.1) (by omega) hlt b2
    rw [daysOf, daysOf, ← hy] at e
    omega
  have hm : c.2.1 = c'.2.1 := by
    have h1 := kmon h h' hy e
    have h2 := kmon h' h hy.symm e.symm
    omega
  obtain ⟨-, -, a3, -⟩ := h
  obtain ⟨-, -, b3, -⟩ := h'
  have hd : c.2.2 = c'.2.2 := by
    rw [daysOf, daysOf, ← hy, ← hm] at e
    omega
  exact Prod.ext hy (Prod.ext hm hd)

theorem monthDays_bounds (y m : Nat) : 28 ≤ monthDays y m ∧ monthDays y m ≤ 31 := by
  unfold monthDays; split <;> split <;> omega

theorem civil_daysOf {c : Nat × Nat × Nat} (h : IsDate c) : civil (daysOf c.1 c.2.1 c.2.2) = c :=
  daysOf_inj (civil_spec _).1 h (civil_spec _).2

theorem dayAfter_spec {c : Nat × Nat × Nat} (h : IsDate c) :
    IsDate (dayAfter c) ∧ daysOf (dayAfter c).1 (dayAfter c).2.1 (dayAfter c).2.2 = daysOf c.1 c.2.1 c.2.2 + 1 := by
  obtain ⟨h1, h2, h3, h4⟩ := h
  unfold dayAfter
  by_cases hd : c.2.2 < monthDays c.1 c.2.1
  · rw [if_pos hd]
    refine ⟨⟨h1, h2, Nat.le_add_left _ _, hd⟩, ?_⟩
    simp only [daysOf]; omega
  · rw [if_neg hd]
    by_cases hm : c.2.1 < 12
    · rw [if_pos hm]
      have e := beforeMonth_succ c.1 h1 hm
      refine ⟨⟨Nat.le_add_left _ _, hm, Nat.le_refl _, Nat.le_trans (show 1 ≤ 28 by decide) (monthDays_bounds c.1 (c.2.1 + 1)).1⟩, ?_⟩
      simp only [daysOf]; omega
    · rw [if_neg hm]
      have hm12 : c.2.1 = 12 := by omega
      have e := beforeMonth_last c.1
      rw [hm12] at hd h4
      refine ⟨⟨Nat.le_refl _, by show 1 ≤ 12; omega, Nat.le_refl _, Nat.le_trans (show 1 ≤ 28 by decide) (monthDays_bounds (c.1 + 1) 1).1⟩, ?_⟩
      simp only [daysOf, hm12, beforeMonth_one]; omega

/-- The days of the model are those of the calendar. -/
theorem civil_succ (n : Nat) : civil (n + 1) = dayAfter (civil n) := by
  obtain ⟨h1, h2⟩ := civil_spec n
  obtain ⟨h3, h4⟩ := dayAfter_spec h1
  rw [h2] at h4
  rw [← civil_daysOf h3, h4]

theorem civil_epoch : civil epoch = (1970, 1, 1) := by decide +kernel

theorem number_dayAfter {c : Nat × Nat × Nat} (h : IsDate c) : number c < number (dayAfter c) := by
  obtain ⟨h1, h2, h3, h4⟩ := h
  have := monthDays_bounds c.1 c.2.1
  unfold dayAfter number
  split
  · simp only; omega
  · split <;> simp only <;> omega

theorem number_mono {a b : Nat} (h : a ≤ b) : number (civil a) ≤ number (civil b) := by
  induction h with
  | refl => exact Nat.le_refl _
  | @step m _ ih =>
    have := number_dayAfter (civil_spec m).1
    rw [Nat.succ_eq_add_one, civil_succ]; omega

theorem number_lt {a b : Nat} (h : a < b) : number (civil a) < number (civil b) := by
  have h1 := number_dayAfter (civil_spec a).1
  have h2 := number_mono (a := a + 1) (b := b) h
  rw [civil_succ] at h2
  omega

theorem year_bound (n : Nat) : (civil n).1 ≤ n / 365 := by
  have h1 := (yearOf_spec n).1
  have h2 := le_beforeYear (yearOf n)
  show yearOf n ≤ n / 365
  omega

end Sis.Time
