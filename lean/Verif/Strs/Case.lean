import Verif.Base.Bytes
/-
Comparison of C strings without regard to case (src/core/sis_str.c).  A C string is the list of its bytes before the
terminating zero; the functions below walk over the string with its zero.
-/
namespace Sis

/-- `tolower` in the C locale (used in src/core/sis_str.c:48-87). -/
def lower (c : UInt8) : UInt8 := if 65 ≤ c ∧ c ≤ 90 then c + 32 else c

/-- The byte at a string pointer: the terminating zero behind the last one (src/core/sis_str.c:48-87). -/
def at0 : Bytes → UInt8
  | [] => 0
  | c :: _ => c

/-- `sis_strcasecmp` on strings that are not NULL (src/core/sis_str.c:48-67); `true` is the answer 0. -/
def caseEq : Bytes → Bytes → Bool
  | [], [] => true
  | [], b :: _ => lower 0 == lower b && (0 == (0 : UInt8) || b == 0)
  | a :: _, [] => lower a == lower 0 && (a == 0 || 0 == (0 : UInt8))
  | a :: as, b :: bs => lower a == lower b && ((a == 0 || b == 0) || caseEq as bs)

/-- `sis_strncasecmp` (src/core/sis_str.c:68-87), `i` the loop counter; `true` is the answer 0. -/
def ncaseEq (n : Nat) (i : Nat) : Bytes → Bytes → Bool
  | [], bs => lower 0 == lower (at0 bs)
  | a :: as, bs => lower a == lower (at0 bs) && ((a == 0 || at0 bs == 0 || decide (i ≥ n)) || ncaseEq n (i + 1) as bs.tail)

/-- A C string: no zero byte in it (as `const char *` of src/core/sis_str.c:48-87). -/
def CStr (s : Bytes) : Prop := ∀ c ∈ s, c ≠ 0

theorem lower_eq_zero {c : UInt8} : lower c = 0 ↔ c = 0 := by
  have : ∀ n : Fin 256, (lower (UInt8.ofNat n.val) = 0 ↔ UInt8.ofNat n.val = 0) := by decide +kernel
  have h := this ⟨c.toNat, c.toNat_lt⟩
  simpa using h

theorem lower_lower (c : UInt8) : lower (lower c) = lower c := by
  have : ∀ n : Fin 256, lower (lower (UInt8.ofNat n.val)) = lower (UInt8.ofNat n.val) := by decide +kernel
  have h := this ⟨c.toNat, c.toNat_lt⟩
  simpa using h

/-- The comparison holds exactly when the strings are equal after conversion to lower case. -/
theorem caseEq_iff {a b : Bytes} (ha : CStr a) (hb : CStr b) : caseEq a b = true ↔ a.map lower = b.map lower := by
  induction a generalizing b with
  | nil =>
    cases b with
    | nil => simp [caseEq]
    | cons y b =>
      have hy : y ≠ 0 := hb y (List.mem_cons_self ..)
      have : lower 0 ≠ lower y := by
        intro h
        have h0 : lower 0 = 0 := by decide
        rw [h0] at h
        exact hy (lower_eq_zero.1 h.symm)
      simp [caseEq, this]
  | cons x a ih =>
    have hx : x ≠ 0 := ha x (List.mem_cons_self ..)
    cases b with
    | nil =>
      have : lower x ≠ lower 0 := by
        intro h
        have h0 : lower 0 = 0 := by decide
        rw [h0] at h
        exact hx (lower_eq_zero.1 h)
      simp [caseEq, this]
    | cons y b =>
      have hy : y ≠ 0 := hb y (List.mem_cons_self ..)
      have := ih (b := b) (fun c hc => ha c (List.mem_cons_of_mem _ hc)) (fun c hc => hb c (List.mem_cons_of_mem _ hc))
      simp [caseEq, hx, hy, this]

/-- The comparison looks at the bytes before the first zero. -/
theorem caseEq_cut (a b : Bytes) :
    caseEq a b = true ↔ (a.takeWhile (· != 0)).map lower = (b.takeWhile (· != 0)).map lower := by
  have h0 : lower 0 = 0 := by decide
  induction a generalizing b with
  | nil =>
    cases b with
    | nil => simp [caseEq]
    | cons y b =>
      by_cases hy : y = 0
      · subst hy; simp [caseEq]
      · have : lower 0 ≠ lower y := by
          rw [h0]; exact fun h => hy (lower_eq_zero.1 h.symm)
        simp [caseEq, this, hy]
  | cons x a ih =>
    cases b with
    | nil =>
      by_cases hx : x = 0
      · subst hx; simp [caseEq]
      · have : lower x ≠ lower 0 := by
          rw [h0]; exact fun h => hx (lower_eq_zero.1 h)
        simp [caseEq, this, hx]
    | cons y b =>
      by_cases hx : x = 0
      · subst hx
        by_cases hy : y = 0
        · subst hy; simp [caseEq]
        · have : lower 0 ≠ lower y := by
            rw [h0]; exact fun h => hy (lower_eq_zero.1 h.symm)
          simp [caseEq, this, hy]
      · by_cases hy : y = 0
        · subst hy
          have : lower x ≠ lower 0 := by
            rw [h0]; exact fun h => hx (lower_eq_zero.1 h)
          simp [caseEq, this, hx]
        · simp [caseEq, hx, hy, ih]

theorem caseEq_symm {a b : Bytes} (h : caseEq a b = true) : caseEq b a = true :=
  (caseEq_cut _ _).2 ((caseEq_cut _ _).1 h).symm

theorem caseEq_trans {a b c : Bytes} (h : caseEq a b = true) (g : caseEq b c = true) : caseEq a c = true :=
  (caseEq_cut _ _).2 (((caseEq_cut _ _).1 h).trans ((caseEq_cut _ _).1 g))

theorem caseEq_refl (a : Bytes) : caseEq a a = true := (caseEq_cut _ _).2 rfl

end Sis
