import Verif.Bits.CodecLemmas
set_option linter.unusedSimpArgs false
/-
Each reader reads exactly what the matching writer wrote.
-/
namespace Sis
namespace BitS

theorem callBits_one (v k : Nat) : callBits [(v, k)] = natBits k v := by simp [callBits]

theorem sint_widths {n : Nat} {cs} (h : sintCalls n = some cs) : Widths cs := by
  unfold sintCalls at h
  repeat' split at h
  all_goals first | cases h | skip
  all_goals intro c hc; simp at hc; rcases hc with rfl | rfl <;> simp

theorem short_widths {n : Nat} {cs} (h : shortCalls n = some cs) : Widths cs := by
  unfold shortCalls at h
  repeat' split at h
  all_goals first | cases h | skip
  all_goals intro c hc; simp at hc; rcases hc with rfl | rfl <;> simp

theorem uint_widths (n : Nat) : Widths (uintCalls n) := by
  unfold uintCalls
  repeat' split
  all_goals intro c hc; simp at hc; subst hc; simp

theorem int_widths (z : Int) : Widths (intCalls z) := by
  unfold intCalls
  intro c hc
  simp only [List.mem_cons] at hc
  rcases hc with rfl | hc
  · split <;> simp
  · revert hc
    repeat' split
    all_goals intro hc; simp only [List.mem_cons, List.not_mem_nil, or_false] at hc
    all_goals first | (subst hc; simp) | (rcases hc with rfl | rfl <;> simp)

theorem Rd_getSint {n : Nat} {cs} (h : sintCalls n = some cs) : Rd getSint (callBits cs) n := by
  intro s rest hv
  unfold sintCalls at h
  split at h
  · cases h
    simp only [callBits_cons, callBits, List.flatMap_nil, List.append_nil] at hv ⊢
    obtain ⟨g1, g2⟩ := get_step 2 n (by omega) (by omega) hv
    have hn : n % 2 ^ 2 = n := Nat.mod_eq_of_lt (by omega)
    rw [hn] at g1
    simp [getSint, g1]
    omega
  split at h
  · cases h
    simp only [callBits_cons, callBits, List.flatMap_nil, List.append_nil, List.append_assoc] at hv ⊢
    obtain ⟨g1, g2⟩ := get_step 2 2 (by omega) (by omega) hv
    obtain ⟨g3, g4⟩ := get_step 4 (n - 2) (by omega) (by omega) g2
    have hn : (n - 2) % 2 ^ 4 = n - 2 := Nat.mod_eq_of_lt (by omega)
    rw [hn] at g3
    simp only [adv_adv] at *
    simp [getSint, g1, g3, adv_adv]
    omega
  split at h
  · cases h
    rw [callBits_cons, callBits_one, show natBits 3 6 = natBits 2 3 ++ natBits 1 0 from rfl, List.append_assoc] at hv ⊢
    simp only [List.append_assoc] at hv
    obtain ⟨g1, g2⟩ := get_step 2 3 (by omega) (by omega) hv
    obtain ⟨g3, g4⟩ := get_step 1 0 (by omega) (by omega) g2
    obtain ⟨g5, g6⟩ := get_step 5 (n - 2 - 16) (by omega) (by omega) g4
    have hn : (n - 2 - 16) % 2 ^ 5 = n - 2 - 16 := Nat.mod_eq_of_lt (by omega)
    rw [hn] at g5
    simp only [adv_adv] at *
    simp [getSint, g1, g3, g5, adv_adv]
    omega
  split at h
  · cases h
    rw [callBits_cons, callBits_one, show natBits 3 7 = natBits 2 3 ++ natBits 1 1 from rfl, List.append_assoc] at hv ⊢
    simp only [List.append_assoc] at hv
    obtain ⟨g1, g2⟩ := get_step 2 3 (by omega) (by omega) hv
    obtain ⟨g3, g4⟩ := get_step 1 1 (by omega) (by omega) g2
    obtain ⟨g5, g6⟩ := get_step 8 (n - 2 - 16 - 32) (by omega) (by omega) g4
    have hn : (n - 2 - 16 - 32) % 2 ^ 8 = n - 2 - 16 - 32 := Nat.mod_eq_of_lt (by omega)
    rw [hn] at g5
    simp only [adv_adv] at *
    simp [getSint, g1, g3, g5, adv_adv]
    omega
  · cases h

theorem Rd_getShort {n : Nat} {cs} (h : shortCalls n = some cs) : Rd getShort (callBits cs) n := by
  intro s rest hv
  unfold shortCalls at h
  split at h
  · cases h
    simp only [callBits_cons, callBits, List.flatMap_nil, List.append_nil] at hv ⊢
    obtain ⟨g1, g2⟩ := get_step 2 n (by omega) (by omega) hv
    have hn : n % 2 ^ 2 = n := Nat.mod_eq_of_lt (by omega)
    rw [hn] at g1
    simp [getShort, g1]
    omega
  split at h
  · cases h
    simp only [callBits_cons, callBits, List.flatMap_nil, List.append_nil, List.append_assoc] at hv ⊢
    obtain ⟨g1, g2⟩ := get_step 2 2 (by omega) (by omega) hv
    obtain ⟨g3, g4⟩ := get_step 8 (n - 2) (by omega) (by omega) g2
    have hn : (n - 2) % 2 ^ 8 = n - 2 := Nat.mod_eq_of_lt (by omega)
    rw [hn] at g3
    simp only [adv_adv] at *
    simp [getShort, g1, g3, adv_adv]
    omega
  split at h
  · cases h
    rw [callBits_cons, callBits_one, show natBits 3 6 = natBits 2 3 ++ natBits 1 0 from rfl, List.append_assoc] at hv ⊢
    simp only [List.append_assoc] at hv
    obtain ⟨g1, g2⟩ := get_step 2 3 (by omega) (by omega) hv
    obtain ⟨g3, g4⟩ := get_step 1 0 (by omega) (by omega) g2
    obtain ⟨g5, g6⟩ := get_step 12 (n - 2 - 256) (by omega) (by omega) g4
    have hn : (n - 2 - 256) % 2 ^ 12 = n - 2 - 256 := Nat.mod_eq_of_lt (by omega)
    rw [hn] at g5
    simp only [adv_adv] at *
    simp [getShort, g1, g3, g5, adv_adv]
    omega
  split at h
  · cases h
    rw [callBits_cons, callBits_one, show natBits 3 7 = natBits 2 3 ++ natBits 1 1 from rfl, List.append_assoc] at hv ⊢
    simp only [List.append_assoc] at hv
    obtain ⟨g1, g2⟩ := get_step 2 3 (by omega) (by omega) hv
    obtain ⟨g3, g4⟩ := get_step 1 1 (by omega) (by omega) g2
    obtain ⟨g5, g6⟩ := get_step 16 (n - 2 - 256 - 4096) (by omega) (by omega) g4
    have hn : (n - 2 - 256 - 4096) % 2 ^ 16 = n - 2 - 256 - 4096 := Nat.mod_eq_of_lt (by omega)
    rw [hn] at g5
    simp only [adv_adv] at *
    simp [getShort, g1, g3, g5, adv_adv]
    omega
  · cases h

/-- Long form of `get_uint`: `1`, two level bits, then `w` bits. -/
theorem getUint_long (lv w d : Nat) (hd : d < 2 ^ w)
    (hw : (lv = 0 ∧ w = 12) ∨ (lv = 1 ∧ w = 16) ∨ (lv = 2 ∧ w = 24) ∨ (lv = 3 ∧ w = 32)) :
    Rd getUint (natBits 1 1 ++ (natBits 2 lv ++ natBits w d)) d := by
  intro s rest hv
  simp only [List.append_assoc] at hv
  obtain ⟨g1, g2⟩ := get_step 1 1 (by omega) (by omega) hv
  obtain ⟨g3, g4⟩ := get_step 2 lv (by omega) (by omega) g2
  obtain ⟨g5, g6⟩ := get_step w d (by omega) (by omega) g4
  rw [Nat.mod_eq_of_lt hd] at g5
  simp only [adv_adv] at *
  rcases hw with ⟨rfl, rfl⟩ | ⟨rfl, rfl⟩ | ⟨rfl, rfl⟩ | ⟨rfl, rfl⟩ <;>
    simp [getUint, g1, g3, g5, adv_adv]

/-- Short form of `get_uint`: `0`, one level bit, then `w` bits. -/
theorem getUint_short (lv w d : Nat) (hd : d < 2 ^ w) (hw : (lv = 0 ∧ w = 4) ∨ (lv = 1 ∧ w = 8)) :
    Rd getUint (natBits 1 0 ++ (natBits 1 lv ++ natBits w d)) d := by
  intro s rest hv
  simp only [List.append_assoc] at hv
  obtain ⟨g1, g2⟩ := get_step 1 0 (by omega) (by omega) hv
  obtain ⟨g3, g4⟩ := get_step 1 lv (by omega) (by omega) g2
  obtain ⟨g5, g6⟩ := get_step w d (by omega) (by omega) g4
  rw [Nat.mod_eq_of_lt hd] at g5
  simp only [adv_adv] at *
  rcases hw with ⟨rfl, rfl⟩ | ⟨rfl, rfl⟩ <;> simp [getUint, g1, g3, g5, adv_adv]

theorem Rd_getUint (n : Nat) (hn : n < 2 ^ 32) : Rd getUint (callBits (uintCalls n)) n := by
  unfold uintCalls
  have m1 := mask_eq_zero (d := n) 32 8 0xFFFFFF00 (by decide) (by omega) hn
  have m2 := mask_eq_zero (d := n) 32 24 0xFF000000 (by decide) (by omega) hn
  split
  · rename_i hX
    split
    · rw [callBits_one, natBits_or (b := 32) 3 7 0x700000000 (by decide) hn]
      exact getUint_long 3 32 n hn (by simp)
    rename_i hA
    have h24 : n < 2 ^ 24 := m2.mp (by simpa using hA)
    have m3 := mask_eq_zero (d := n) 24 16 0xFF0000 (by decide) (by omega) h24
    split
    · rw [callBits_one, natBits_or (b := 24) 3 6 0x6000000 (by decide) h24]
      exact getUint_long 2 24 n h24 (by simp)
    rename_i hB
    have h16 : n < 2 ^ 16 := m3.mp (by simpa using hB)
    split
    · rw [callBits_one, natBits_or (b := 16) 3 5 0x50000 (by decide) h16]
      exact getUint_long 1 16 n h16 (by simp)
    · rename_i hC
      have m4 := mask_eq_zero (d := n) 16 8 0xFF00 (by decide) (by omega) h16
      have h8 : n < 2 ^ 8 := m4.mp (by simpa using hC)
      exact absurd (m1.mpr h8) (by simpa using hX)
  · rename_i hA
    have h8 : n < 2 ^ 8 := m1.mp (by simpa using hA)
    have m5 := mask_eq_zero (d := n) 8 4 0xF0 (by decide) (by omega) h8
    split
    · rw [callBits_one, natBits_or (b := 8) 2 1 0x100 (by decide) h8]
      exact getUint_short 1 8 n h8 (by simp)
    · rename_i hB
      have h4 : n < 2 ^ 4 := m5.mp (by simpa using hB)
      rw [callBits_one]
      have : natBits 6 n = natBits 1 0 ++ (natBits 1 0 ++ natBits 4 n) := by
        have := natBits_or (d := n) (b := 4) 2 0 0 (by decide) h4
        rw [show natBits 2 0 = natBits 1 0 ++ natBits 1 0 from rfl, List.append_assoc] at this
        simpa using this
      rw [this]
      exact getUint_short 0 4 n h4 (by simp)

/-! ### signed integers -/

theorem ofPat64_small {d : Nat} (h : d < 2 ^ 63) : ofPat64 d = (d : Int) := by
  unfold ofPat64
  rw [Nat.mod_eq_of_lt (by omega), if_pos h]

/-- The value decoded from sign bit and magnitude. -/
def signed (sg d : Nat) : Int := if sg = 1 then -(d : Int) else (d : Int)

theorem getInt_zero (sg : Nat) : Rd getInt (natBits 1 sg ++ natBits 1 0) 0 := by
  intro s rest hv
  simp only [List.append_assoc] at hv
  obtain ⟨g1, g2⟩ := get_step 1 sg (by omega) (by omega) hv
  obtain ⟨g3, g4⟩ := get_step 1 0 (by omega) (by omega) g2
  simp [getInt, g1, g3, adv_adv]

theorem signed_eq {sg d : Nat} (hs : sg < 2) (hd : d < 2 ^ 63) :
    (if sg % 2 ^ 1 ≠ 0 then -1 * ofPat64 d else ofPat64 d) = signed sg d := by
  rw [ofPat64_small hd]
  have : sg = 0 ∨ sg = 1 := by omega
  rcases this with rfl | rfl
  · simp [signed]
  · simp only [signed]; simp

theorem getInt_four (sg d : Nat) (hs : sg < 2) (hd : d < 2 ^ 4) :
    Rd getInt (natBits 1 sg ++ (natBits 1 1 ++ (natBits 1 0 ++ natBits 4 d))) (signed sg d) := by
  intro s rest hv
  simp only [List.append_assoc] at hv
  obtain ⟨g1, g2⟩ := get_step 1 sg (by omega) (by omega) hv
  obtain ⟨g3, g4⟩ := get_step 1 1 (by omega) (by omega) g2
  obtain ⟨g5, g6⟩ := get_step 1 0 (by omega) (by omega) g4
  obtain ⟨g7, g8⟩ := get_step 4 d (by omega) (by omega) g6
  rw [Nat.mod_eq_of_lt hd] at g7
  have hs' := signed_eq (d := d) hs (by omega)
  simp only [adv_adv] at *
  unfold getInt
  simp only [g1, g3, g5, g7, Option.bind_eq_bind, Option.bind_some]
  simp [adv_adv]
  simpa using hs'

theorem getInt_mid (sg lv w d : Nat) (hs : sg < 2) (hd : d < 2 ^ w)
    (hw : (lv = 0 ∧ w = 8) ∨ (lv = 1 ∧ w = 12) ∨ (lv = 2 ∧ w = 16) ∨ (lv = 3 ∧ w = 20)) :
    Rd getInt (natBits 1 sg ++ (natBits 1 1 ++ (natBits 1 1 ++ (natBits 1 0 ++ (natBits 2 lv ++ natBits w d)))))
      (signed sg d) := by
  intro s rest hv
  simp only [List.append_assoc] at hv
  obtain ⟨g1, g2⟩ := get_step 1 sg (by omega) (by omega) hv
  obtain ⟨g3, g4⟩ := get_step 1 1 (by omega) (by omega) g2
  obtain ⟨g5, g6⟩ := get_step 1 1 (by omega) (by omega) g4
  obtain ⟨g7, g8⟩ := get_step 1 0 (by omega) (by omega) g6
  obtain ⟨g9, g10⟩ := get_step 2 lv (by omega) (by omega) g8
  obtain ⟨g11, g12⟩ := get_step w d (by omega) (by omega) g10
  rw [Nat.mod_eq_of_lt hd] at g11
  have hd63 : d < 2 ^ 63 := Nat.lt_of_lt_of_le hd (Nat.pow_le_pow_right (by decide) (by omega))
  have hs' := signed_eq (d := d) hs hd63
  simp only [adv_adv] at *
  unfold getInt
  rcases hw with ⟨rfl, rfl⟩ | ⟨rfl, rfl⟩ | ⟨rfl, rfl⟩ | ⟨rfl, rfl⟩ <;>
  · simp only [g1, g3, g5, g7, g9, g11, Option.bind_eq_bind, Option.bind_some]
    simp [g9, g11, adv_adv]
    simpa using hs'

theorem getInt_long (sg lv w d : Nat) (hs : sg < 2) (hd : d < 2 ^ w)
    (hw : (lv = 0 ∧ w = 24) ∨ (lv = 1 ∧ w = 28) ∨ (lv = 2 ∧ w = 32) ∨ (lv = 3 ∧ w = 36) ∨
      (lv = 4 ∧ w = 40) ∨ (lv = 5 ∧ w = 48) ∨ (lv = 6 ∧ w = 56) ∨ (lv = 7 ∧ w = 63)) :
    Rd getInt (natBits 1 sg ++ (natBits 1 1 ++ (natBits 1 1 ++ (natBits 1 1 ++ (natBits 3 lv ++ natBits w d)))))
      (signed sg d) := by
  intro s rest hv
  simp only [List.append_assoc] at hv
  obtain ⟨g1, g2⟩ := get_step 1 sg (by omega) (by omega) hv
  obtain ⟨g3, g4⟩ := get_step 1 1 (by omega) (by omega) g2
  obtain ⟨g5, g6⟩ := get_step 1 1 (by omega) (by omega) g4
  obtain ⟨g7, g8⟩ := get_step 1 1 (by omega) (by omega) g6
  obtain ⟨g9, g10⟩ := get_step 3 lv (by omega) (by omega) g8
  obtain ⟨g11, g12⟩ := get_step w d (by omega) (by omega) g10
  rw [Nat.mod_eq_of_lt hd] at g11
  have hd63 : d < 2 ^ 63 := Nat.lt_of_lt_of_le hd (Nat.pow_le_pow_right (by decide) (by omega))
  have hs' := signed_eq (d := d) hs hd63
  simp only [adv_adv] at *
  unfold getInt
  rcases hw with ⟨rfl, rfl⟩ | ⟨rfl, rfl⟩ | ⟨rfl, rfl⟩ | ⟨rfl, rfl⟩ | ⟨rfl, rfl⟩ | ⟨rfl, rfl⟩ | ⟨rfl, rfl⟩ | ⟨rfl, rfl⟩ <;>
  · simp only [g1, g3, g5, g7, g9, g11, Option.bind_eq_bind, Option.bind_some]
    simp [g9, g11, adv_adv]
    simpa using hs'

theorem pat64_nonneg {z : Int} (h0 : 0 ≤ z) (h1 : z < 2 ^ 63) : (pat64 z : Int) = z ∧ pat64 z < 2 ^ 63 := by
  unfold pat64
  rw [Int.emod_eq_of_lt h0 (by omega)]
  omega

theorem Rd_getInt (z : Int) (h1 : -(2 ^ 63) < z) (h2 : z < 2 ^ 63) : Rd getInt (callBits (intCalls z)) z := by
  -- sign and magnitude
  have key : ∃ sg d : Nat, sg < 2 ∧ d < 2 ^ 63 ∧ signed sg d = z ∧ (d = 0 → z = 0) ∧
      (if z < 0 then pat64 (-1 * z) else pat64 z) = d ∧
      (if z < 0 then ((1, 1) : Nat × Nat) else (0, 1)) = (sg, 1) := by
    by_cases hz : z < 0
    · obtain ⟨a, b⟩ := pat64_nonneg (z := -1 * z) (by omega) (by omega)
      refine ⟨1, pat64 (-1 * z), by omega, b, ?_, by omega, by rw [if_pos hz], by rw [if_pos hz]⟩
      simp [signed] at *; omega
    · obtain ⟨a, b⟩ := pat64_nonneg (z := z) (by omega) (by omega)
      refine ⟨0, pat64 z, by omega, b, ?_, by omega, by rw [if_neg hz], by rw [if_neg hz]⟩
      simp [signed]; omega
  obtain ⟨sg, d, hs, hd, hsz, hz0, e1, e2⟩ := key
  unfold intCalls
  simp only [e1, e2]
  rw [callBits_cons]
  simp only
  rw [← hsz]
  have m1 := mask_eq_zero (d := d) 63 20 0x7FFFFFFFFFF00000 (by decide) (by omega) hd
  split
  · have m2 := mask_eq_zero (d := d) 63 56 0x7F00000000000000 (by decide) (by omega) hd
    split
    · rw [callBits_cons, callBits_one]
      rw [show natBits 6 0x3F = natBits 1 1 ++ (natBits 1 1 ++ (natBits 1 1 ++ natBits 3 7)) from rfl]
      simp only [List.append_assoc]
      exact getInt_long sg 7 63 d hs hd (by simp)
    rename_i hA
    have h56 : d < 2 ^ 56 := m2.mp (by simpa using hA)
    have m3 := mask_eq_zero (d := d) 56 48 0xFF000000000000 (by decide) (by omega) h56
    split
    · rw [callBits_one, natBits_or (b := 56) 6 0x3E _ (by decide) h56]
      exact getInt_long sg 6 56 d hs h56 (by simp)
    rename_i hB
    have h48 : d < 2 ^ 48 := m3.mp (by simpa using hB)
    have m4 := mask_eq_zero (d := d) 48 40 0xFF0000000000 (by decide) (by omega) h48
    split
    · rw [callBits_one, natBits_or (b := 48) 6 0x3D _ (by decide) h48]
      exact getInt_long sg 5 48 d hs h48 (by simp)
    rename_i hC
    have h40 : d < 2 ^ 40 := m4.mp (by simpa using hC)
    have m5 := mask_eq_zero (d := d) 40 32 0xFF00000000 (by decide) (by omega) h40
    split
    · rw [callBits_one, natBits_or (b := 40) 6 0x3C _ (by decide) h40]
      exact getInt_long sg 4 40 d hs h40 (by simp)
    rename_i hD
    have h32 : d < 2 ^ 32 := m5.mp (by simpa using hD)
    have h36 : d < 2 ^ 36 := by omega
    split
    · rw [callBits_one, natBits_or (b := 36) 6 0x3B _ (by decide) h36]
      exact getInt_long sg 3 36 d hs h36 (by simp)
    have m6 := mask_eq_zero (d := d) 32 28 0xF0000000 (by decide) (by omega) h32
    split
    · rw [callBits_one, natBits_or (b := 32) 6 0x3A _ (by decide) h32]
      exact getInt_long sg 2 32 d hs h32 (by simp)
    rename_i hE
    have h28 : d < 2 ^ 28 := m6.mp (by simpa using hE)
    have m7 := mask_eq_zero (d := d) 28 24 0xF000000 (by decide) (by omega) h28
    split
    · rw [callBits_one, natBits_or (b := 28) 6 0x39 _ (by decide) h28]
      exact getInt_long sg 1 28 d hs h28 (by simp)
    rename_i hF
    have h24 : d < 2 ^ 24 := m7.mp (by simpa using hF)
    rw [callBits_one, natBits_or (b := 24) 6 0x38 _ (by decide) h24]
    exact getInt_long sg 0 24 d hs h24 (by simp)
  rename_i hA
  have h20 : d < 2 ^ 20 := m1.mp (by simpa using hA)
  have m8 := mask_eq_zero (d := d) 20 4 0xFFFF0 (by decide) (by omega) h20
  split
  · have m9 := mask_eq_zero (d := d) 20 16 0xF0000 (by decide) (by omega) h20
    split
    · rw [callBits_one, natBits_or (b := 20) 5 0x1B _ (by decide) h20]
      exact getInt_mid sg 3 20 d hs h20 (by simp)
    rename_i hB
    have h16 : d < 2 ^ 16 := m9.mp (by simpa using hB)
    have m10 := mask_eq_zero (d := d) 16 12 0xF000 (by decide) (by omega) h16
    split
    · rw [callBits_one, natBits_or (b := 16) 5 0x1A _ (by decide) h16]
      exact getInt_mid sg 2 16 d hs h16 (by simp)
    rename_i hC
    have h12 : d < 2 ^ 12 := m10.mp (by simpa using hC)
    have m11 := mask_eq_zero (d := d) 12 8 0xF00 (by decide) (by omega) h12
    split
    · rw [callBits_one, natBits_or (b := 12) 5 0x19 _ (by decide) h12]
      exact getInt_mid sg 1 12 d hs h12 (by simp)
    rename_i hD
    have h8 : d < 2 ^ 8 := m11.mp (by simpa using hD)
    rw [callBits_one, natBits_or (b := 8) 5 0x18 _ (by decide) h8]
    exact getInt_mid sg 0 8 d hs h8 (by simp)
  rename_i hB
  have h4 : d < 2 ^ 4 := m8.mp (by simpa using hB)
  have m12 := mask_eq_zero (d := d) 4 0 0xF (by decide) (by omega) h4
  split
  · rw [callBits_one, natBits_or (b := 4) 2 2 _ (by decide) h4]
    exact getInt_four sg d hs h4
  · rename_i hC
    have h0 : d = 0 := by have := m12.mp (by simpa using hC); omega
    rw [callBits_one]
    have : signed sg d = 0 := by rw [hsz]; exact hz0 h0
    rw [this]
    exact getInt_zero sg

end BitS
end Sis
