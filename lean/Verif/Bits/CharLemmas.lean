import Verif.Bits.CodecRoundtrip
/-
Character fields: what `put_incr_chars` writes, `get_incr_chars` reads.
-/
namespace Sis
namespace BitS

/-- The C string held in a fixed-size character field: the bytes before the first NUL. -/
def cstr (b : Bytes) : Bytes := b.takeWhile (· ≠ 0)

theorem charPat_mod (c : UInt8) : charPat c % 2 ^ 8 = c.toNat := by
  have := c.toNat_lt
  unfold charPat
  split <;> omega

theorem Rd_getBytes (bs : Bytes) :
    Rd (fun s => getBytes s bs.length) (callBits (bs.map fun c => (charPat c, 8))) bs := by
  induction bs with
  | nil => intro s rest _; simp [getBytes, callBits, adv]
  | cons c bs ih =>
    intro s rest hv
    simp only [List.map_cons] at hv ⊢
    rw [callBits_cons] at hv ⊢
    simp only [List.append_assoc] at hv
    obtain ⟨g1, g2⟩ := get_step 8 (charPat c) (by omega) (by omega) hv
    have g3 := ih (s.adv 8) rest g2
    simp only at g3
    rw [charPat_mod] at g1
    simp only [List.length_cons, getBytes, g1, Option.bind_eq_bind, Option.bind_some, g3, adv_adv]
    simp

theorem chars_widths {inp : Option Bytes} {n : Nat} {cs} (h : charsCalls inp n = some cs) : Widths cs := by
  unfold charsCalls at h
  split at h
  · cases h; intro c hc; simp at hc; subst hc; simp
  · split at h
    · simp only [Option.map_eq_some_iff] at h
      obtain ⟨p, _, rfl⟩ := h
      intro c hc
      simp only [List.mem_cons, List.mem_append, List.mem_map] at hc
      rcases hc with rfl | hc | ⟨a, _, rfl⟩
      · simp
      · exact uint_widths n c hc
      · simp
    · cases h; intro c hc; simp at hc; subst hc; simp

theorem incrChars_widths {inp : Bytes} {ago : Option Bytes} {cs} (h : incrCharsCalls inp ago = some cs) :
    Widths cs := by
  unfold incrCharsCalls at h
  split at h
  · cases h
  · exact chars_widths h
  · exact chars_widths h

/-- Reading a zero marker leaves the field alone. -/
theorem getChars_same (cur : Bytes) : Rd (fun s => getChars s cur) (callBits [(0, 1)]) (0, cur) := by
  intro s rest hv
  rw [callBits_one] at hv ⊢
  obtain ⟨g1, g2⟩ := get_step 1 0 (by omega) (by omega) hv
  simp [getChars, g1]

/-- Reading an explicit field. -/
theorem getChars_some (cur bs : Bytes) (h0 : 0 < bs.length) (h1 : bs.length < 2 ^ 32) :
    Rd (fun s => getChars s cur)
      (callBits ((1, 1) :: (uintCalls bs.length ++ bs.map fun c => (charPat c, 8))))
      (bs.length, bs.take cur.length ++ List.replicate (cur.length - bs.length) 0) := by
  intro s rest hv
  rw [callBits_cons, callBits_append] at hv ⊢
  simp only [List.append_assoc] at hv
  obtain ⟨g1, g2⟩ := get_step 1 1 (by omega) (by omega) hv
  obtain ⟨g3, g4⟩ := (Rd_getUint bs.length h1).view_eq g2
  have g5 := Rd_getBytes bs _ rest g4
  simp only at g5
  simp only [adv_adv] at g1 g3 g5
  simp only [getChars, g1, g3, Option.bind_eq_bind, Option.bind_some, adv_adv]
  simp [h0, Nat.add_assoc, g5]

theorem isize_le (b : Bytes) : isize b ≤ b.length := by
  unfold isize
  exact (List.takeWhile_sublist _).length_le

theorem take_isize (b : Bytes) : b.take (isize b) = cstr b := by
  induction b with
  | nil => rfl
  | cons a b ih =>
    by_cases h : a = 0
    · simp [isize, cstr, h]
    · simp only [isize, cstr] at ih ⊢
      rw [List.takeWhile_cons_of_pos (by simpa using h)]
      simp only [List.length_cons, List.take_succ_cons, ih]

theorem cstr_append_zero (a : Bytes) (n : Nat) (h : ∀ x ∈ a, x ≠ 0) : cstr (a ++ List.replicate n 0) = a := by
  unfold cstr
  induction a with
  | nil => cases n <;> simp [List.replicate_succ]
  | cons x a ih =>
    have hx : x ≠ 0 := h x (by simp)
    simp only [List.cons_append]
    rw [List.takeWhile_cons_of_pos (by simpa using hx), ih (fun y hy => h y (by simp [hy]))]

theorem cstr_nonzero (b : Bytes) : ∀ x ∈ cstr b, x ≠ 0 := by
  unfold cstr
  induction b with
  | nil => simp
  | cons a b ih =>
    by_cases h : a = 0
    · simp [h]
    · rw [List.takeWhile_cons_of_pos (by simpa using h)]
      intro x hx
      simp only [List.mem_cons] at hx
      rcases hx with rfl | hx
      · exact h
      · exact ih x hx

/-- What the comparison loop decides, for fields of equal size. -/
theorem cmpLoop_spec (p t1 t2 : Bytes) (isz l2 : Nat) (hp : ∀ x ∈ p, x ≠ 0) (hlen : t1.length = t2.length)
    (hisz : isz = p.length + isize t1) (hl2 : l2 = p.length + t2.length) (hpos : p.length < isz) :
    cmpLoop isz l2 t1 t2 p.length = some (if cstr t1 = cstr t2 then 0 else isz) := by
  induction t1 generalizing p t2 with
  | nil => simp [isize] at hisz; omega
  | cons a t1 ih =>
    cases t2 with
    | nil => simp at hlen
    | cons b t2 =>
      simp only [List.length_cons, Nat.add_right_cancel_iff] at hlen
      have ha : a ≠ 0 := by
        intro h; subst h; simp [isize] at hisz; omega
      have hisa : isize (a :: t1) = isize t1 + 1 := by simp [isize, ha]
      have hca : cstr (a :: t1) = a :: cstr t1 := by simp [cstr, ha]
      unfold cmpLoop
      by_cases hab : a = b
      · subst hab
        have hcb : cstr (a :: t2) = a :: cstr t2 := by simp [cstr, ha]
        rw [if_pos rfl, if_neg ha, hca, hcb]
        simp only [List.cons.injEq, true_and]
        by_cases he : p.length + 1 = isz
        · rw [if_pos he]
          have h1 : isize t1 = 0 := by omega
          have hc1 : cstr t1 = [] := by
            rw [← take_isize, h1]; rfl
          rw [hc1]
          cases t2 with
          | nil =>
            rw [if_pos (by simp at hl2; omega)]
            simp [cstr]
          | cons c t2 =>
            rw [if_neg (by simp at hl2; omega)]
            simp only
            by_cases hc : c = 0
            · simp [hc, cstr]
            · simp [hc, cstr]
        · rw [if_neg he]
          have := ih (p ++ [a]) t2 (by intro x hx; simp at hx; rcases hx with hx | rfl; exact hp x hx; exact ha)
            hlen (by simp; omega) (by simp at hl2 ⊢; omega) (by simp; omega)
          simpa using this
      · rw [if_neg hab, hca]
        congr 1
        rw [if_neg]
        intro h
        by_cases hb : b = 0
        · simp [cstr, hb] at h
        · have : cstr (b :: t2) = b :: cstr t2 := by simp [cstr, hb]
          rw [this] at h
          simp at h
          exact hab h.1

theorem cstr_ne_nil_iff (b : Bytes) : cstr b ≠ [] ↔ 0 < isize b := by
  unfold cstr isize
  exact List.length_pos_iff.symm

/-- The decision of `put_incr_chars` for two fields of the same size: `0` (write "same") when the strings are equal
or the new one is empty, otherwise the length of the new string. -/
theorem charcmp_spec (inp ago : Bytes) (hlen : inp.length = ago.length) :
    charcmp inp (some ago) = some (if cstr inp = cstr ago then 0 else isize inp) := by
  unfold charcmp
  simp only
  by_cases h0 : ago.length = 0 ∨ inp.length = 0
  · rw [if_pos h0]
    have : inp = [] := List.length_eq_zero_iff.mp (by omega)
    have : ago = [] := List.length_eq_zero_iff.mp (by omega)
    simp [*]
  · rw [if_neg h0]
    by_cases hi : 0 < isize inp
    · have := cmpLoop_spec [] inp ago (isize inp) ago.length (by simp) hlen (by simp) (by simp) (by simpa using hi)
      simpa using this
    · have hz : isize inp = 0 := by omega
      rw [hz]
      cases inp with
      | nil => simp at h0
      | cons a t =>
        have ha : a = 0 := by
          refine Decidable.byContradiction fun h => ?_
          simp [isize, h] at hz
        subst ha
        cases ago with
        | nil => simp at h0
        | cons b u =>
          unfold cmpLoop
          by_cases hb : (0 : UInt8) = b
          · simp [hb.symm]
          · simp [hb]

theorem takeBytes_of_le (n : Nat) (b : Bytes) (h : n ≤ b.length) : takeBytes n b = some (b.take n, b.drop n) := by
  simp [takeBytes, h]

end BitS
end Sis
