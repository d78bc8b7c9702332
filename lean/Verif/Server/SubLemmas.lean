import Verif.Server.SubSpec
/-
Helper lemmas for the subscription theorems: string comparison and the invariant of the maps.
-/
namespace Sis.Sub

open Sis.Access (str)

theorem lower_fix {d : UInt8} (hd : d = 42 ∨ d = 44 ∨ d = 46) (c : UInt8) : lower c = d ↔ c = d := by
  have : ∀ n : Fin 256, (lower (UInt8.ofNat n.val) = 42 ↔ UInt8.ofNat n.val = 42) ∧
      (lower (UInt8.ofNat n.val) = 44 ↔ UInt8.ofNat n.val = 44) ∧ (lower (UInt8.ofNat n.val) = 46 ↔ UInt8.ofNat n.val = 46) := by
    decide +kernel
  have h := this ⟨c.toNat, c.toNat_lt⟩
  simp only [UInt8.ofNat_toNat] at h
  rcases hd with rfl | rfl | rfl
  · exact h.1
  · exact h.2.1
  · exact h.2.2

theorem low_mem {d : UInt8} (hd : d = 42 ∨ d = 44 ∨ d = 46) (s : Bytes) : d ∈ low s ↔ d ∈ s := by
  simp only [low, List.mem_map]
  constructor
  · rintro ⟨c, hc, h⟩
    rw [(lower_fix hd c).1 h] at hc
    exact hc
  · intro h
    exact ⟨d, h, (lower_fix hd d).2 rfl⟩

theorem caseEq_low {a b : Bytes} (ha : CStr a) (hb : CStr b) : caseEq a b = true ↔ low a = low b := caseEq_iff ha hb

theorem cstr_tail {c : UInt8} {s : Bytes} (h : CStr (c :: s)) : CStr s := fun x hx => h x (List.mem_cons_of_mem _ hx)

theorem cstr_append_left {a b : Bytes} (h : CStr (a ++ b)) : CStr a := fun x hx => h x (List.mem_append_left _ hx)

theorem cstr_append_right {a b : Bytes} (h : CStr (a ++ b)) : CStr b := fun x hx => h x (List.mem_append_right _ hx)

/-- Comparing the first characters. -/
theorem ncaseEq_spec {n i : Nat} {k it tail : Bytes} (hk : CStr k) (hit : CStr it) (hi : i ≤ n) (hn : it.length = n - i + 1) :
    ncaseEq n i k (it ++ tail) = true ↔ low it <+: low k := by
  induction k generalizing i it with
  | nil =>
    cases it with
    | nil => simp at hn
    | cons y it =>
      have hy : y ≠ 0 := hit y (List.mem_cons_self ..)
      have : lower 0 ≠ lower y := by
        have h0 : lower 0 = 0 := by decide
        rw [h0]; exact fun h => hy (lower_eq_zero.1 h.symm)
      simp [ncaseEq, at0, this, low]
  | cons x k ih =>
    cases it with
    | nil => simp at hn
    | cons y it =>
      have hy : y ≠ 0 := hit y (List.mem_cons_self ..)
      have hx : x ≠ 0 := hk x (List.mem_cons_self ..)
      simp only [ncaseEq, List.cons_append, at0, List.tail_cons, low, List.map_cons, List.cons_prefix_cons]
      by_cases hge : i ≥ n
      · have : it = [] := by
          apply List.eq_nil_of_length_eq_zero
          simp at hn
          omega
        subst this
        have e : lower x = lower y ↔ lower y = lower x := ⟨Eq.symm, Eq.symm⟩
        simp [hge, e]
      · have := ih (i := i + 1) (it := it) (cstr_tail hk) (cstr_tail hit) (by omega) (by simp at hn; omega)
        simp only [low] at this
        have e : lower x = lower y ↔ lower y = lower x := ⟨Eq.symm, Eq.symm⟩
        simp [hx, hy, hge, this, e]

theorem items_ne (s : Bytes) : items s ≠ [] := by
  cases s with
  | nil => simp [items]
  | cons c r =>
    simp only [items]
    split
    · simp
    · split <;> simp

theorem items_low (s : Bytes) : items (low s) = (items s).map low := by
  induction s with
  | nil => rfl
  | cons c r ih =>
    have : low (c :: r) = lower c :: low r := rfl
    rw [this]
    simp only [items]
    by_cases hc : c = 44
    · have h44 : lower c = 44 := (lower_fix (by simp) c).2 hc
      simp only [if_pos hc, if_pos h44, ih, List.map_cons]
      rfl
    · have h44 : ¬ lower c = 44 := fun h => hc ((lower_fix (by simp) c).1 h)
      simp only [if_neg hc, if_neg h44, ih]
      cases h : items r with
      | nil => exact absurd h (items_ne r)
      | cons x xs => simp [low]

/-- The items of a list whose first item has already begun. -/
theorem items_cur (cur rest : Bytes) (h : 44 ∉ cur) :
    ∃ x xs, items rest = x :: xs ∧ items (cur ++ rest) = (cur ++ x) :: xs := by
  induction cur with
  | nil =>
    cases hi : items rest with
    | nil => exact absurd hi (items_ne rest)
    | cons x xs => exact ⟨x, xs, rfl, by simpa using hi⟩
  | cons c cur ih =>
    obtain ⟨x, xs, h1, h2⟩ := ih (fun hm => h (List.mem_cons_of_mem _ hm))
    refine ⟨x, xs, h1, ?_⟩
    have hc : c ≠ 44 := fun e => h (by simp [e])
    simp only [List.cons_append, items, if_neg hc, h2]

/-- Comparing one item. -/
theorem okItem {strict : Bool} {k it tail : Bytes} (hk : CStr k) (hit : CStr it) (hne : it ≠ []) :
    (ncaseEq it.length 1 k (it ++ tail) && (!strict || k.length == it.length)) = true ↔
      (if strict then low it = low k else low it <+: low k) := by
  have hl : it.length > 0 := List.length_pos_iff.2 hne
  have := ncaseEq_spec (n := it.length) (i := 1) (tail := tail) hk hit (by omega) (by omega)
  cases strict with
  | false => simp [this]
  | true =>
    simp only [Bool.not_true, Bool.false_or, Bool.and_eq_true, this, beq_iff_eq, if_true]
    constructor
    · rintro ⟨⟨t, ht⟩, h⟩
      have : t = [] := by
        apply List.eq_nil_of_length_eq_zero
        have := congrArg List.length ht
        simp [low] at this
        omega
      simpa [this] using ht
    · intro h
      refine ⟨by rw [h]; exact List.prefix_refl _, ?_⟩
      have := congrArg List.length h
      simp [low] at this
      omega

/-- No item: compared with the comma behind it. -/
theorem okEmpty {k rest : Bytes} (hk : 44 ∉ k) : ncaseEq 0 1 k (44 :: rest) = false := by
  cases k with
  | nil => simp only [ncaseEq, at0]; decide
  | cons x k =>
    have : lower x ≠ lower 44 := by
      have : lower 44 = 44 := by decide
      rw [this]
      intro h
      exact hk (by simp [(lower_fix (by simp) x).1 h])
    simp [ncaseEq, at0, this]

theorem names_ite (strict : Bool) (a b : Bytes) : (if strict = true then a = b else a <+: b) ↔ (if (!strict) = true then a <+: b else a = b) := by
  cases strict <;> simp

theorem subLoop_spec {strict : Bool} {k : Bytes} (hk : CStr k) (hkc : 44 ∉ k) (rest cur : Bytes) (hcs : CStr (cur ++ rest)) (hc : 44 ∉ cur) :
    subLoop strict k (cur ++ rest) cur.length rest = true ↔ Names (!strict) (low (cur ++ rest)) (low k) := by
  induction rest generalizing cur with
  | nil =>
    obtain ⟨x, xs, h1, h2⟩ := items_cur cur [] hc
    simp only [items, List.cons.injEq] at h1
    obtain ⟨rfl, rfl⟩ := h1
    simp only [subLoop, Names, items_low, h2]
    by_cases hne : cur = []
    · subst hne; simp [low]
    · have hl : cur.length > 0 := List.length_pos_iff.2 hne
      have hx := okItem (strict := strict) (tail := []) hk (cstr_append_left hcs) hne
      rw [Bool.and_eq_true, hx, names_ite]
      simp [hl, low, hne]
  | cons c rest ih =>
    simp only [subLoop]
    by_cases hcc : c = 44
    · subst hcc
      have h44 : (44 : UInt8) = comma := rfl
      rw [if_pos h44, Bool.or_eq_true]
      have hr : CStr rest := cstr_tail (cstr_append_right hcs)
      have i2 := ih [] hr (by simp)
      simp only [List.nil_append, List.length_nil] at i2
      rw [i2]
      obtain ⟨x, xs, h1, h2⟩ := items_cur cur (44 :: rest) hc
      have h3 : items (44 :: rest) = [] :: items rest := by simp [items]
      rw [h3] at h1
      simp only [List.cons.injEq] at h1
      obtain ⟨rfl, rfl⟩ := h1
      simp only [List.append_nil] at h2
      simp only [Names, items_low, h2, List.map_cons, List.mem_cons, exists_eq_or_imp]
      by_cases hne : cur = []
      · subst hne
        have := okEmpty (rest := rest) hkc
        simp [this, low]
      · have hx := okItem (strict := strict) (tail := 44 :: rest) hk (cstr_append_left hcs) hne
        rw [hx, names_ite]
        have : low cur ≠ [] := by simpa [low] using hne
        simp [this]
    · have hcc' : ¬ c = comma := hcc
      rw [if_neg hcc']
      have := ih (cur ++ [c]) (by simpa using hcs) (by simpa using ⟨hc, Ne.symm hcc⟩)
      simpa using this

theorem subcmp_spec {strict : Bool} {k l : Bytes} (hk : CStr k) (hkc : 44 ∉ k) (hl : CStr l) :
    subcmp strict k (some l) = true ↔ Names (!strict) (low l) (low k) := by
  have := subLoop_spec (strict := strict) hk hkc l [] hl (by simp)
  simpa [subcmp] using this

theorem names_nil (h : Bool) (k : Bytes) : ¬ Names h [] k := by
  rintro ⟨it, h1, h2, -⟩
  simp [items] at h1
  exact h2 h1

theorem cstr_star : CStr (str "*") := by unfold CStr; decide +kernel
theorem cstr_stars : CStr (str "*.*") := by unfold CStr; decide +kernel
theorem low_star : low (str "*") = [42] := by decide +kernel
theorem low_stars : low (str "*.*") = [42, 46, 42] := by decide +kernel

theorem half_spec {strict : Bool} {k l : Bytes} (hk : CStr k) (hkc : 44 ∉ k) (hl : CStr l) :
    half strict k (part l) = true ↔ Half (!strict) (low l) (low k) := by
  unfold part
  by_cases h : l = []
  · subst h
    simp only [if_true, half, subcmp, Bool.or_self, Half]
    have : low [] = [] := rfl
    simp [this, names_nil]
  · simp only [if_neg h, half, Bool.or_eq_true, subcmp_spec hk hkc hl, caseEq_low hl cstr_star, low_star, Half]

theorem before_after (s : Bytes) (h : 46 ∈ s) : s = before s ++ 46 :: after s ∧ 46 ∉ before s := by
  induction s with
  | nil => simp at h
  | cons c s ih =>
    by_cases hc : c = 46
    · subst hc
      simp [before, after, dot]
    · have hm : 46 ∈ s := by
        rcases List.mem_cons.1 h with e | e
        · exact absurd e.symm hc
        · exact e
      have hb : before (c :: s) = c :: before s := by simp [before, dot, hc]
      have ha : after (c :: s) = after s := by simp [after, dot, hc]
      obtain ⟨h1, h2⟩ := ih hm
      rw [hb, ha]
      refine ⟨by rw [List.cons_append, ← h1], ?_⟩
      simp only [List.mem_cons, not_or]
      exact ⟨Ne.symm hc, h2⟩

theorem split_unique {a b c d : Bytes} (ha : 46 ∉ a) (hc : 46 ∉ c) (h : a ++ 46 :: b = c ++ 46 :: d) : a = c ∧ b = d := by
  induction a generalizing c with
  | nil =>
    cases c with
    | nil => simpa using h
    | cons y c =>
      simp at h
      exact absurd (by simp [← h.1]) hc
  | cons x a ih =>
    cases c with
    | nil =>
      simp at h
      exact absurd (by simp [h.1]) ha
    | cons y c =>
      simp only [List.cons_append, List.cons.injEq] at h
      obtain ⟨h1, h2⟩ := ih (fun hm => ha (List.mem_cons_of_mem _ hm)) (fun hm => hc (List.mem_cons_of_mem _ hm)) h.2
      exact ⟨by rw [h.1, h1], h2⟩

/-- Both halves match. -/
theorem halves_spec {strict : Bool} {k p : Bytes} {u : Unit} (hk : CStr k) (hkc : 44 ∉ k) (hp : CStr p) (hd : 46 ∈ p)
    (h1 : u.keys = part (before p)) (h2 : u.sdbs = part (after p)) {r : Bool} (hr : halves strict k u = some r) :
    r = true ↔ ∃ a b c d, 46 ∉ a ∧ 46 ∉ c ∧ low p = a ++ 46 :: b ∧ low k = c ++ 46 :: d ∧ Half (!strict) a c ∧ Half (!strict) b d := by
  unfold halves at hr
  split at hr
  · simp only [Option.some.injEq] at hr
    rw [← hr]
    obtain ⟨p1, p2⟩ := before_after p hd
    have lp : low p = low (before p) ++ 46 :: low (after p) := by
      conv => lhs; rw [p1]
      simp [low]
      decide
    have lb : 46 ∉ low (before p) := by rw [low_mem (by simp)]; exact p2
    have hpb : CStr (before p) := cstr_append_left (p1 ▸ hp)
    have hpa : CStr (after p) := cstr_tail (cstr_append_right (p1 ▸ hp))
    by_cases hkd : 46 ∈ k
    · obtain ⟨k1, k2⟩ := before_after k hkd
      have lk : low k = low (before k) ++ 46 :: low (after k) := by
        conv => lhs; rw [k1]
        simp [low]
        decide
      have kb : 46 ∉ low (before k) := by rw [low_mem (by simp)]; exact k2
      have hkb : CStr (before k) := cstr_append_left (k1 ▸ hk)
      have hka : CStr (after k) := cstr_tail (cstr_append_right (k1 ▸ hk))
      have ckb : 44 ∉ before k := fun h => hkc (by rw [k1]; exact List.mem_append_left _ h)
      have cka : 44 ∉ after k := fun h => hkc (by rw [k1]; exact List.mem_append_right _ (List.mem_cons_of_mem _ h))
      have hcd : k.contains dot = true := by simpa [dot] using hkd
      rw [hcd, Bool.true_and, Bool.and_eq_true, h1, h2, half_spec hkb ckb hpb, half_spec hka cka hpa]
      constructor
      · rintro ⟨g1, g2⟩
        exact ⟨_, _, _, _, lb, kb, lp, lk, g1, g2⟩
      · rintro ⟨a, b, c, d, ga, gc, gp, gk, g1, g2⟩
        obtain ⟨rfl, rfl⟩ := split_unique lb ga (lp.symm.trans gp)
        obtain ⟨rfl, rfl⟩ := split_unique kb gc (lk.symm.trans gk)
        exact ⟨g1, g2⟩
    · have hcd : k.contains dot = false := by simpa [dot] using hkd
      rw [hcd]
      simp only [Bool.false_and, Bool.false_eq_true, false_iff]
      rintro ⟨a, b, c, d, ga, gc, gp, gk, g1, g2⟩
      apply hkd
      rw [← low_mem (by simp), gk]
      simp
  · exact nomatch hr

theorem names_mono {l k : Bytes} (h : Names false l k) : Names true l k := by
  obtain ⟨it, h1, h2, h3⟩ := h
  simp at h3
  exact ⟨it, h1, h2, by simp [h3]⟩

theorem half_mono {l k : Bytes} (h : Half false l k) : Half true l k := h.imp id names_mono

theorem covers_mono {h : Bool} {p k : Bytes} (hc : Covers h p k) : Covers true p k := by
  cases h with
  | true => exact hc
  | false =>
    rcases hc with h | h | h | ⟨a, b, c, d, h1, h2, h3, h4, h5, h6⟩
    · exact Or.inl h
    · exact Or.inr (Or.inl h)
    · exact Or.inr (Or.inr (Or.inl ⟨h.1, names_mono h.2⟩))
    · exact Or.inr (Or.inr (Or.inr ⟨a, b, c, d, h1, h2, h3, h4, half_mono h5, half_mono h6⟩))

/-- A unit made for a pattern matches the keys the pattern covers; without heads, only a pattern with a comma or a mere star does. -/
theorem unitMatch_spec {p k : Bytes} {h : Bool} {u : Unit} {c : List Int} (hp : CStr p) (hk : CStr k) (hkc : 44 ∉ k)
    (hm : mkUnit p h = some u) {r : Bool} (hr : unitMatch { u with cids := c } k = some r) :
    (r = true → Covers h (low p) (low k)) ∧
      (Covers h (low p) (low k) → (h = true ∨ 44 ∈ p ∨ low p = [42] ∨ low p = [42, 46, 42]) → r = true) := by
  unfold mkUnit at hm
  split at hm
  · rename_i h1
    rw [caseEq_low hp cstr_star, low_star] at h1
    simp at hm
    subst hm
    simp [unitMatch] at hr
    subst hr
    exact ⟨fun _ => Or.inl h1, fun _ _ => rfl⟩
  · rename_i h1
    rw [caseEq_low hp cstr_star, low_star] at h1
    split at hm
    · rename_i h2
      rw [caseEq_low hp cstr_stars, low_stars] at h2
      simp at hm
      subst hm
      simp [unitMatch] at hr
      subst hr
      exact ⟨fun _ => Or.inr (Or.inl h2), fun _ _ => rfl⟩
    · rename_i h2
      rw [caseEq_low hp cstr_stars, low_stars] at h2
      split at hm
      · rename_i hd
        have hdp : 46 ∈ p := by simpa [dot] using hd
        have hdl : 46 ∈ low p := (low_mem (by simp) p).2 hdp
        have key : ∀ strict : Bool, (!strict) = h → halves strict k { u with cids := c } = some r →
            u.keys = part (before p) → u.sdbs = part (after p) → (r = true ↔ Covers h (low p) (low k)) := by
          intro strict hs hh e1 e2
          rw [halves_spec hk hkc hp hdp (u := { u with cids := c }) e1 e2 hh, hs]
          constructor
          · intro hx
            exact Or.inr (Or.inr (Or.inr hx))
          · rintro (hx | hx | hx | hx)
            · exact absurd hx h1
            · exact absurd hx h2
            · exact absurd hdl hx.1
            · exact hx
        cases h with
        | true =>
          simp only [if_true, Option.some.injEq] at hm
          have := key false rfl (by rw [← hm] at hr ⊢; exact hr) (by rw [← hm]) (by rw [← hm])
          exact ⟨this.1, fun hx _ => this.2 hx⟩
        | false =>
          simp only [Bool.false_eq_true, if_false, Option.map_eq_some_iff] at hm
          obtain ⟨kd, hkd, hu⟩ := hm
          have hkind : kd = .mulMul ∨ (kd = .mulOne ∧ 44 ∉ p) := by
            unfold dotKind at hkd
            split at hkd
            · exact nomatch hkd
            · rename_i a ha
              split at hkd
              · simp at hkd; exact Or.inl hkd.symm
              · rename_i hca
                split at hkd
                · exact nomatch hkd
                · rename_i b hb
                  split at hkd
                  · simp at hkd; exact Or.inl hkd.symm
                  · rename_i hcb
                    simp at hkd
                    refine Or.inr ⟨hkd.symm, ?_⟩
                    have e1 : before p = a := by
                      unfold part at ha
                      split at ha
                      · exact nomatch ha
                      · simpa using ha
                    have e2 : after p = b := by
                      unfold part at hb
                      split at hb
                      · exact nomatch hb
                      · simpa using hb
                    rw [(before_after p hdp).1, e1, e2]
                    simp only [List.contains_iff_mem, comma] at hca hcb
                    simp [hca, hcb]
          rcases hkind with e | ⟨e, hnc⟩
          · subst e
            have := key true rfl (by rw [← hu] at hr ⊢; exact hr) (by rw [← hu]) (by rw [← hu])
            exact ⟨this.1, fun hx _ => this.2 hx⟩
          · subst e
            rw [← hu] at hr
            simp [unitMatch] at hr
            subst hr
            refine ⟨(by intro h; cases h), ?_⟩
            rintro - (hx | hx | hx | hx)
            · exact nomatch hx
            · exact absurd hx hnc
            · exact absurd hx h1
            · exact absurd hx h2
      · rename_i hd
        have hdp : 46 ∉ p := by simpa [dot] using hd
        have hdl : 46 ∉ low p := fun hx => hdp ((low_mem (by simp) p).1 hx)
        simp only [Option.some.injEq] at hm
        have key : ∀ strict : Bool, (!strict) = h → (subcmp strict k (some p) = true ↔ Covers h (low p) (low k)) := by
          intro strict hs
          rw [subcmp_spec hk hkc hp, hs]
          constructor
          · intro hx
            exact Or.inr (Or.inr (Or.inl ⟨hdl, hx⟩))
          · rintro (hx | hx | hx | ⟨a, b, c, d, -, -, hx, -⟩)
            · exact absurd hx h1
            · exact absurd hx h2
            · exact hx.2
            · exact absurd (by rw [hx]; simp) hdl
        subst hm
        cases h with
        | true =>
          simp [unitMatch] at hr
          have := key false rfl
          rw [hr] at this
          exact ⟨this.1, fun hx _ => this.2 hx⟩
        | false =>
          by_cases hc : p.contains comma = true
          · simp [unitMatch] at hr
            have hcm : comma ∈ p := by simpa using hc
            simp only [hcm, if_true, Option.some.injEq] at hr
            have := key true rfl
            rw [hr] at this
            exact ⟨this.1, fun hx _ => this.2 hx⟩
          · have hcm : comma ∉ p := by simpa using hc
            simp [unitMatch, hcm] at hr
            subst hr
            refine ⟨(by intro h; cases h), ?_⟩
            rintro - (hx | hx | hx | hx)
            · exact nomatch hx
            · exact absurd hx hcm
            · exact absurd hx h1
            · exact absurd hx h2

/-- A key whose parts fit into the arrays does no harm. -/
theorem unitMatch_defined (u : Unit) (k : Bytes) (h : k.length < 128) : ∃ r, unitMatch u k = some r := by
  have hb : (before k).length < 128 := Nat.lt_of_le_of_lt (List.takeWhile_sublist _).length_le h
  have ha : (after k).length < 128 := by
    have h1 := (List.dropWhile_sublist (fun c => c != dot) (l := k)).length_le
    have h2 : (after k).length ≤ (k.dropWhile (fun c => c != dot)).length := by
      simp [after]
    omega
  have : ∀ strict, ∃ r, halves strict k u = some r := fun strict => ⟨_, if_pos ⟨hb, ha⟩⟩
  unfold unitMatch
  cases u.kind <;> first | exact this _ | exact ⟨_, rfl⟩

/-! The maps. -/

/-- A map holds the subscriptions `A`, and its units were made for subscriptions in `E`. -/
structure Inv (m : Map) (A : Int → Bytes → Prop) (E : Bytes → Bool → Prop) : Prop where
  keys : m.Pairwise fun e f => low e.1 ≠ low f.1
  cstr : ∀ e ∈ m, CStr e.1
  nodup : ∀ e ∈ m, e.2.cids.Nodup
  sound : ∀ e ∈ m, ∀ cid ∈ e.2.cids, ∃ p, A cid p ∧ low p = low e.1
  complete : ∀ cid p, A cid p → ∃ e ∈ m, low e.1 = low p ∧ cid ∈ e.2.cids
  made : ∀ e ∈ m, ∃ h u, E e.1 h ∧ mkUnit e.1 h = some u ∧ e.2 = { u with cids := e.2.cids }

theorem inv_nil (E) : Inv [] (fun _ _ => False) E :=
  ⟨.nil, by simp, by simp, by simp, by simp, by simp⟩

theorem pairwise_map_key {m : Map} {f : Bytes × Unit → Bytes × Unit} (hf : ∀ e, (f e).1 = e.1)
    (h : m.Pairwise fun e f => low e.1 ≠ low f.1) : (m.map f).Pairwise fun e f => low e.1 ≠ low f.1 := by
  rw [List.pairwise_map]
  simpa [hf] using h

theorem find_some {m : Map} {k : Bytes} {u : Unit} (h : find m k = some u) : ∃ e ∈ m, e.2 = u ∧ caseEq k e.1 = true := by
  simp only [find, Option.map_eq_some_iff] at h
  obtain ⟨e, h1, h2⟩ := h
  exact ⟨e, List.mem_of_find?_eq_some h1, h2, by simpa using List.find?_some h1⟩

theorem find_none {m : Map} {k : Bytes} (h : find m k = none) : ∀ e ∈ m, caseEq k e.1 = false := by
  simp only [find, Option.map_eq_none_iff, List.find?_eq_none] at h
  intro e he
  simpa using h e he

theorem pairwise_unique {m : Map} (h : m.Pairwise fun e f => low e.1 ≠ low f.1) {e f : Bytes × Unit} (he : e ∈ m) (hf : f ∈ m)
    (heq : low e.1 = low f.1) : e = f := by
  induction m with
  | nil => simp at he
  | cons x m ih =>
    rw [List.pairwise_cons] at h
    rcases List.mem_cons.1 he with h1 | h1 <;> rcases List.mem_cons.1 hf with h2 | h2
    · rw [h1, h2]
    · exact absurd (h1 ▸ heq) (h.1 _ h2)
    · exact absurd (h2 ▸ heq.symm) (h.1 _ h1)
    · exact ih h.2 h1 h2

theorem find_mem {m : Map} {A E} (hI : Inv m A E) {k : Bytes} (hk : CStr k) {e : Bytes × Unit} (he : e ∈ m) (hl : low e.1 = low k) :
    find m k = some e.2 := by
  cases hf : find m k with
  | none =>
    have := find_none hf e he
    rw [(caseEq_low hk (hI.cstr e he)).2 hl.symm] at this
    exact nomatch this
  | some u =>
    obtain ⟨e', he', rfl, hc⟩ := find_some hf
    rw [caseEq_low hk (hI.cstr e' he')] at hc
    rw [pairwise_unique hI.keys he he' (hl.trans hc)]

theorem inv_notice {m m' : Map} {A E A' E'} {cid : Int} {k : Bytes} {head : Bool} {n : Int} (hI : Inv m A E) (hk : CStr k)
    (hA : ∀ c p, A' c p ↔ A c p ∨ (c = cid ∧ p = k)) (hE : ∀ p h, E p h → E' p h) (hEk : E' k head)
    (h : notice m cid k head = some (m', n)) : Inv m' A' E' := by
  unfold notice at h
  split at h
  · rename_i hf
    simp only [Option.map_eq_some_iff, Prod.mk.injEq] at h
    obtain ⟨u, hu, rfl, -⟩ := h
    have hno := find_none hf
    have hkne : ∀ e ∈ m, low e.1 ≠ low k := by
      intro e he hl
      have := hno e he
      rw [(caseEq_low hk (hI.cstr e he)).2 hl.symm] at this
      exact nomatch this
    refine ⟨?_, ?_, ?_, ?_, ?_, ?_⟩
    · rw [List.pairwise_append]
      refine ⟨hI.keys, by simp, ?_⟩
      intro e he f hf
      simp only [List.mem_singleton] at hf
      subst hf
      exact hkne e he
    · intro e he
      rcases List.mem_append.1 he with he | he
      · exact hI.cstr e he
      · simp at he; subst he; exact hk
    · intro e he
      rcases List.mem_append.1 he with he | he
      · exact hI.nodup e he
      · simp at he; subst he; simp
    · intro e he c hc
      rcases List.mem_append.1 he with he | he
      · obtain ⟨p, h1, h2⟩ := hI.sound e he c hc
        exact ⟨p, (hA c p).2 (Or.inl h1), h2⟩
      · simp at he
        subst he
        simp at hc
        exact ⟨k, (hA c k).2 (Or.inr ⟨hc, rfl⟩), rfl⟩
    · intro c p hp
      rcases (hA c p).1 hp with hp | ⟨rfl, rfl⟩
      · obtain ⟨e, he, h1, h2⟩ := hI.complete c p hp
        exact ⟨e, List.mem_append_left _ he, h1, h2⟩
      · exact ⟨_, List.mem_append_right _ (List.mem_singleton.2 rfl), rfl, List.mem_singleton.2 rfl⟩
    · intro e he
      rcases List.mem_append.1 he with he | he
      · obtain ⟨h, u, h1, h2⟩ := hI.made e he
        exact ⟨h, u, hE _ _ h1, h2⟩
      · simp at he
        subst he
        exact ⟨head, u, hEk, hu, rfl⟩
  · rename_i u hf
    obtain ⟨e0, he0, rfl, hc0⟩ := find_some hf
    rw [caseEq_low hk (hI.cstr e0 he0)] at hc0
    split at h
    · rename_i hin
      simp only [Option.some.injEq, Prod.mk.injEq] at h
      obtain ⟨rfl, -⟩ := h
      have hin : cid ∈ e0.2.cids := by simpa using hin
      refine ⟨hI.keys, hI.cstr, hI.nodup, ?_, ?_, ?_⟩
      · intro e he c hc
        obtain ⟨p, h1, h2⟩ := hI.sound e he c hc
        exact ⟨p, (hA c p).2 (Or.inl h1), h2⟩
      · intro c p hp
        rcases (hA c p).1 hp with hp | ⟨rfl, rfl⟩
        · exact hI.complete c p hp
        · exact ⟨e0, he0, hc0.symm, hin⟩
      · intro e he
        obtain ⟨h, u, h1, h2⟩ := hI.made e he
        exact ⟨h, u, hE _ _ h1, h2⟩
    · rename_i hin
      simp only [Option.some.injEq, Prod.mk.injEq] at h
      obtain ⟨rfl, -⟩ := h
      have hin : cid ∉ e0.2.cids := by simpa using hin
      have hpm : ∀ e' ∈ push m k cid, ∃ e ∈ m, (e' = e ∧ low e.1 ≠ low k) ∨
          (low e.1 = low k ∧ e' = (e.1, { e.2 with cids := e.2.cids ++ [cid] })) := by
        intro e' he'
        simp only [push, List.mem_map] at he'
        obtain ⟨e, he, h1⟩ := he'
        refine ⟨e, he, ?_⟩
        split at h1
        · rename_i hce
          rw [caseEq_low hk (hI.cstr e he)] at hce
          exact Or.inr ⟨hce.symm, h1.symm⟩
        · rename_i hce
          rw [caseEq_low hk (hI.cstr e he)] at hce
          exact Or.inl ⟨h1.symm, fun h => hce h.symm⟩
      have hmp : ∀ e ∈ m, (if caseEq k e.1 then (e.1, { e.2 with cids := e.2.cids ++ [cid] }) else e) ∈ push m k cid := by
        intro e he
        exact List.mem_map.2 ⟨e, he, rfl⟩
      refine ⟨?_, ?_, ?_, ?_, ?_, ?_⟩
      · exact pairwise_map_key (by intro e; dsimp only; split <;> rfl) hI.keys
      · intro e' he'
        obtain ⟨e, he, ⟨rfl, -⟩ | ⟨-, rfl⟩⟩ := hpm e' he'
        · exact hI.cstr e' he
        · exact hI.cstr e he
      · intro e' he'
        obtain ⟨e, he, ⟨rfl, -⟩ | ⟨hl, rfl⟩⟩ := hpm e' he'
        · exact hI.nodup e' he
        · have : e = e0 := pairwise_unique hI.keys he he0 (hl.trans hc0)
          subst this
          simp only [List.nodup_append]
          refine ⟨hI.nodup e he, by simp, ?_⟩
          intro a ha b hb
          simp at hb
          subst hb
          rintro rfl
          exact hin ha
      · intro e' he' c hc
        obtain ⟨e, he, ⟨rfl, -⟩ | ⟨hl, rfl⟩⟩ := hpm e' he'
        · obtain ⟨p, h1, h2⟩ := hI.sound e' he c hc
          exact ⟨p, (hA c p).2 (Or.inl h1), h2⟩
        · rcases List.mem_append.1 hc with hc | hc
          · obtain ⟨p, h1, h2⟩ := hI.sound e he c hc
            exact ⟨p, (hA c p).2 (Or.inl h1), h2⟩
          · simp at hc
            exact ⟨k, (hA c k).2 (Or.inr ⟨hc, rfl⟩), hl.symm⟩
      · intro c p hp
        rcases (hA c p).1 hp with hp | ⟨rfl, rfl⟩
        · obtain ⟨e, he, h1, h2⟩ := hI.complete c p hp
          refine ⟨_, hmp e he, ?_⟩
          split
          · exact ⟨h1, List.mem_append_left _ h2⟩
          · exact ⟨h1, h2⟩
        · refine ⟨_, hmp e0 he0, ?_⟩
          rw [if_pos ((caseEq_low hk (hI.cstr e0 he0)).2 hc0)]
          exact ⟨hc0.symm, by simp⟩
      · intro e' he'
        obtain ⟨e, he, ⟨rfl, -⟩ | ⟨hl, rfl⟩⟩ := hpm e' he'
        · obtain ⟨h, u, h1, h2⟩ := hI.made e' he
          exact ⟨h, u, hE _ _ h1, h2⟩
        · obtain ⟨h, u, h1, h2, h3⟩ := hI.made e he
          refine ⟨h, u, hE _ _ h1, h2, ?_⟩
          rw [h3]

theorem inv_unsub {m : Map} {A E A' E'} {cid : Int} (hI : Inv m A E)
    (hA : ∀ c p, A' c p ↔ A c p ∧ c ≠ cid ∧ cid ≠ -1) (hE : ∀ p h, E p h → E' p h) : Inv (unsubMap m cid) A' E' := by
  unfold unsubMap
  split
  · rename_i h
    refine ⟨.nil, by simp, by simp, by simp, ?_, by simp⟩
    intro c p hp
    exact absurd h ((hA c p).1 hp).2.2
  · rename_i hne
    have hmem : ∀ e', e' ∈ (m.filterMap fun e =>
        if e.2.cids.contains cid then
          if (e.2.cids.erase cid).length = 0 then none else some (e.1, { e.2 with cids := e.2.cids.erase cid })
        else some e) ↔ ∃ e ∈ m, (cid ∉ e.2.cids ∧ e' = e) ∨
          (cid ∈ e.2.cids ∧ e.2.cids.erase cid ≠ [] ∧ e' = (e.1, { e.2 with cids := e.2.cids.erase cid })) := by
      intro e'
      rw [List.mem_filterMap]
      constructor
      · rintro ⟨e, he, h⟩
        refine ⟨e, he, ?_⟩
        split at h
        · rename_i hin
          split at h
          · exact nomatch h
          · rename_i hl
            refine Or.inr ⟨by simpa using hin, ?_, by simpa using h.symm⟩
            intro h0
            exact hl (by rw [h0]; rfl)
        · rename_i hin
          exact Or.inl ⟨by simpa using hin, by simpa using h.symm⟩
      · rintro ⟨e, he, ⟨h1, rfl⟩ | ⟨h1, h2, rfl⟩⟩
        · exact ⟨e', he, by simp [h1]⟩
        · refine ⟨e, he, ?_⟩
          have : e.2.cids.contains cid = true := by simpa using h1
          rw [if_pos this, if_neg (fun h => h2 (List.eq_nil_of_length_eq_zero h))]
    refine ⟨?_, ?_, ?_, ?_, ?_, ?_⟩
    · rw [List.pairwise_filterMap]
      refine hI.keys.imp ?_
      intro e f hef e' he' f' hf'
      have k1 : e'.1 = e.1 := by
        split at he'
        · split at he'
          · exact nomatch he'
          · simp at he'; rw [← he']
        · simp at he'; rw [← he']
      have k2 : f'.1 = f.1 := by
        split at hf'
        · split at hf'
          · exact nomatch hf'
          · simp at hf'; rw [← hf']
        · simp at hf'; rw [← hf']
      rw [k1, k2]
      exact hef
    · intro e' he'
      obtain ⟨e, he, ⟨-, rfl⟩ | ⟨-, -, rfl⟩⟩ := (hmem e').1 he'
      · exact hI.cstr e' he
      · exact hI.cstr e he
    · intro e' he'
      obtain ⟨e, he, ⟨-, rfl⟩ | ⟨-, -, rfl⟩⟩ := (hmem e').1 he'
      · exact hI.nodup e' he
      · exact (hI.nodup e he).erase cid
    · intro e' he' c hc
      obtain ⟨e, he, ⟨hn, rfl⟩ | ⟨-, -, rfl⟩⟩ := (hmem e').1 he'
      · obtain ⟨p, h1, h2⟩ := hI.sound e' he c hc
        exact ⟨p, (hA c p).2 ⟨h1, by rintro rfl; exact hn hc, hne⟩, h2⟩
      · have hc' : c ∈ e.2.cids.erase cid := hc
        obtain ⟨p, h1, h2⟩ := hI.sound e he c (List.mem_of_mem_erase hc')
        refine ⟨p, (hA c p).2 ⟨h1, ?_, hne⟩, h2⟩
        rintro rfl
        rw [(hI.nodup e he).mem_erase_iff] at hc'
        exact hc'.1 rfl
    · intro c p hp
      obtain ⟨hp1, hp2, -⟩ := (hA c p).1 hp
      obtain ⟨e, he, h1, h2⟩ := hI.complete c p hp1
      by_cases hin : cid ∈ e.2.cids
      · have hcm : c ∈ e.2.cids.erase cid := by
          rw [(hI.nodup e he).mem_erase_iff]
          exact ⟨hp2, h2⟩
        exact ⟨_, (hmem _).2 ⟨e, he, Or.inr ⟨hin, List.ne_nil_of_mem hcm, rfl⟩⟩, h1, hcm⟩
      · exact ⟨e, (hmem e).2 ⟨e, he, Or.inl ⟨hin, rfl⟩⟩, h1, h2⟩
    · intro e' he'
      obtain ⟨e, he, ⟨-, rfl⟩ | ⟨-, -, rfl⟩⟩ := (hmem e').1 he'
      · obtain ⟨h, u, h1, h2⟩ := hI.made e' he
        exact ⟨h, u, hE _ _ h1, h2⟩
      · obtain ⟨h, u, h1, h2, h3⟩ := hI.made e he
        refine ⟨h, u, hE _ _ h1, h2, ?_⟩
        rw [h3]

/-- Nothing changed for a map. -/
theorem inv_congr {m : Map} {A E A' E'} (hI : Inv m A E) (hA : ∀ c p, A' c p ↔ A c p) (hE : ∀ p h, E p h → E' p h) : Inv m A' E' := by
  refine ⟨hI.keys, hI.cstr, hI.nodup, ?_, ?_, ?_⟩
  · intro e he c hc
    obtain ⟨p, h1, h2⟩ := hI.sound e he c hc
    exact ⟨p, (hA c p).2 h1, h2⟩
  · intro c p hp
    exact hI.complete c p ((hA c p).1 hp)
  · intro e he
    obtain ⟨h, u, h1, h2⟩ := hI.made e he
    exact ⟨h, u, hE _ _ h1, h2⟩

/-! Histories. -/

/-- The subscriptions to single keys, and by pattern. -/
def plainSubs (ops : List Op) (c : Int) (p : Bytes) : Prop := (c, p, false) ∈ active ops ∧ isPattern p = false
def patSubs (ops : List Op) (c : Int) (p : Bytes) : Prop := ∃ h, (c, p, h) ∈ active ops ∧ (h = true ∨ isPattern p = true)

/-- Subscriptions ever made by pattern. -/
def everPat (ops : List Op) (p : Bytes) (h : Bool) : Prop := (∃ c, Op.sub c p h ∈ ops) ∧ (h = true ∨ isPattern p = true)
def everPlain (ops : List Op) (p : Bytes) (h : Bool) : Prop := (∃ c, Op.sub c p h ∈ ops) ∧ h = false ∧ isPattern p = false

theorem active_snoc (ops : List Op) (op : Op) : active (ops ++ [op]) = match op with
    | .sub c p h => if p = [] then active ops else active ops ++ [(c, p, h)]
    | .unsub c => if c = -1 then [] else (active ops).filter fun x => x.1 ≠ c
    | _ => active ops := by
  simp only [active, List.foldl_append, List.foldl_cons, List.foldl_nil]
  cases op <;> rfl

/-- Every subject in a history is a C string. -/
def Clean (ops : List Op) : Prop := ∀ c p h, Op.sub c p h ∈ ops → CStr p

theorem hist_inv {ops : List Op} {s : St} (H : Hist ops s) (hc : Clean ops) :
    Inv s.one (plainSubs ops) (everPlain ops) ∧ Inv s.mul (patSubs ops) (everPat ops) := by
  induction H with
  | nil =>
    constructor
    · exact inv_congr (inv_nil (everPlain [])) (by simp [plainSubs, active]) (fun _ _ h => h)
    · exact inv_congr (inv_nil (everPat [])) (by simp [patSubs, active]) (fun _ _ h => h)
  | @snoc ops s op s' o _ hst ih =>
    obtain ⟨i1, i2⟩ := ih (fun c p h hm => hc c p h (List.mem_append_left _ hm))
    have e1 : ∀ p h, everPlain ops p h → everPlain (ops ++ [op]) p h := by
      rintro p h ⟨⟨c, h1⟩, h2⟩
      exact ⟨⟨c, List.mem_append_left _ h1⟩, h2⟩
    have e2 : ∀ p h, everPat ops p h → everPat (ops ++ [op]) p h := by
      rintro p h ⟨⟨c, h1⟩, h2⟩
      exact ⟨⟨c, List.mem_append_left _ h1⟩, h2⟩
    cases op with
    | sub cid k head =>
      have hk : CStr k := hc cid k head (by simp)
      simp only [step, Option.map_eq_some_iff, Prod.mk.injEq] at hst
      obtain ⟨⟨s1, n⟩, h1, rfl, -⟩ := hst
      unfold sub at h1
      split at h1
      · rename_i h0
        simp at h1
        obtain ⟨rfl, -⟩ := h1
        constructor
        · exact inv_congr i1 (by simp [plainSubs, active_snoc, h0]) e1
        · exact inv_congr i2 (by simp [patSubs, active_snoc, h0]) e2
      · rename_i h0
        split at h1
        · rename_i hp
          simp only [Option.map_eq_some_iff, Prod.mk.injEq] at h1
          obtain ⟨⟨m, n'⟩, h1, rfl, -⟩ := h1
          have hp' : head = true ∨ isPattern k = true := by simpa using hp
          constructor
          · refine inv_congr i1 ?_ e1
            intro c p
            simp only [plainSubs, active_snoc, if_neg h0, List.mem_append, List.mem_singleton, Prod.mk.injEq]
            constructor
            · rintro ⟨h | ⟨rfl, rfl, rfl⟩, h'⟩
              · exact ⟨h, h'⟩
              · rcases hp' with h | h
                · exact nomatch h
                · rw [h'] at h; exact nomatch h
            · rintro ⟨h, h'⟩
              exact ⟨Or.inl h, h'⟩
          · refine inv_notice i2 hk ?_ e2 ⟨⟨cid, by simp⟩, hp'⟩ h1
            intro c p
            simp only [patSubs, active_snoc, if_neg h0, List.mem_append, List.mem_singleton, Prod.mk.injEq]
            constructor
            · rintro ⟨h, h1 | ⟨rfl, rfl, rfl⟩, h2⟩
              · exact Or.inl ⟨h, h1, h2⟩
              · exact Or.inr ⟨rfl, rfl⟩
            · rintro (⟨h, h1, h2⟩ | ⟨rfl, rfl⟩)
              · exact ⟨h, Or.inl h1, h2⟩
              · exact ⟨head, Or.inr ⟨rfl, rfl, rfl⟩, hp'⟩
        · rename_i hp
          simp only [Option.map_eq_some_iff, Prod.mk.injEq] at h1
          obtain ⟨⟨m, n'⟩, h1, rfl, -⟩ := h1
          have hp' : head = false ∧ isPattern k = false := by simpa using hp
          obtain ⟨rfl, hpk⟩ := hp'
          constructor
          · refine inv_notice i1 hk ?_ e1 ⟨⟨cid, by simp⟩, rfl, hpk⟩ h1
            intro c p
            simp only [plainSubs, active_snoc, if_neg h0, List.mem_append, List.mem_singleton, Prod.mk.injEq, and_true]
            constructor
            · rintro ⟨h1 | ⟨rfl, rfl⟩, h2⟩
              · exact Or.inl ⟨h1, h2⟩
              · exact Or.inr ⟨rfl, rfl⟩
            · rintro (⟨h1, h2⟩ | ⟨rfl, rfl⟩)
              · exact ⟨Or.inl h1, h2⟩
              · exact ⟨Or.inr ⟨rfl, rfl⟩, hpk⟩
          · refine inv_congr i2 ?_ e2
            intro c p
            simp only [patSubs, active_snoc, if_neg h0, List.mem_append, List.mem_singleton, Prod.mk.injEq]
            constructor
            · rintro ⟨h, h1 | ⟨rfl, rfl, rfl⟩, h2⟩
              · exact ⟨h, h1, h2⟩
              · rcases h2 with h | h
                · exact nomatch h
                · rw [hpk] at h; exact nomatch h
            · rintro ⟨h, h1, h2⟩
              exact ⟨h, Or.inl h1, h2⟩
    | unsub cid =>
      simp only [step, Option.some.injEq, Prod.mk.injEq] at hst
      obtain ⟨rfl, -⟩ := hst
      constructor
      · refine inv_unsub i1 ?_ e1
        intro c p
        simp only [plainSubs, active_snoc]
        by_cases h : cid = -1
        · simp [h]
        · simp only [if_neg h, List.mem_filter, decide_eq_true_eq]
          constructor
          · rintro ⟨⟨h1, h2⟩, h3⟩
            exact ⟨⟨h1, h3⟩, h2, h⟩
          · rintro ⟨⟨h1, h3⟩, h2, -⟩
            exact ⟨⟨h1, h2⟩, h3⟩
      · refine inv_unsub i2 ?_ e2
        intro c p
        simp only [patSubs, active_snoc]
        by_cases h : cid = -1
        · simp [h]
        · simp only [if_neg h, List.mem_filter, decide_eq_true_eq]
          constructor
          · rintro ⟨g, ⟨h1, h2⟩, h3⟩
            exact ⟨⟨g, h1, h3⟩, h2, h⟩
          · rintro ⟨⟨g, h1, h3⟩, h2, -⟩
            exact ⟨g, ⟨h1, h2⟩, h3⟩
    | write k =>
      simp only [step, Option.map_eq_some_iff, Prod.mk.injEq] at hst
      obtain ⟨l, -, rfl, -⟩ := hst
      exact ⟨inv_congr i1 (by simp [plainSubs, active_snoc]) e1, inv_congr i2 (by simp [patSubs, active_snoc]) e2⟩
    | close cid =>
      have hr : caseEq (str "reader") (str "reader") = true := by decide +kernel
      simp only [step, clear, hr, Bool.true_eq_false, if_false, Option.some.injEq, Prod.mk.injEq] at hst
      obtain ⟨rfl, -⟩ := hst
      exact ⟨inv_congr i1 (by simp [plainSubs, active_snoc]) e1, inv_congr i2 (by simp [patSubs, active_snoc]) e2⟩

/-! Notifications. -/

theorem pubMul_mem {k : Bytes} {m : Map} {r : List Int} (h : pubMul k m = some r) (c : Int) :
    c ∈ r ↔ ∃ e ∈ m, unitMatch e.2 k = some true ∧ c ∈ e.2.cids := by
  induction m generalizing r with
  | nil => simp [pubMul] at h; simp [h]
  | cons e m ih =>
    simp only [pubMul, Option.bind_eq_bind, Option.bind_eq_some_iff, Option.some.injEq] at h
    obtain ⟨b, hb, r', hr', rfl⟩ := h
    rw [List.mem_append, ih hr']
    simp only [List.mem_cons, exists_eq_or_imp, hb]
    cases b <;> simp

theorem pubMul_each {k : Bytes} {m : Map} {r : List Int} (h : pubMul k m = some r) : ∀ e ∈ m, ∃ b, unitMatch e.2 k = some b := by
  induction m generalizing r with
  | nil => simp
  | cons e m ih =>
    simp only [pubMul, Option.bind_eq_bind, Option.bind_eq_some_iff, Option.some.injEq] at h
    obtain ⟨b, hb, r', hr', rfl⟩ := h
    intro e' he'
    rcases List.mem_cons.1 he' with rfl | he'
    · exact ⟨b, hb⟩
    · exact ih hr' e' he'

theorem pubMul_defined {k : Bytes} (hk : k.length < 128) (m : Map) : ∃ r, pubMul k m = some r := by
  induction m with
  | nil => exact ⟨_, rfl⟩
  | cons e m ih =>
    obtain ⟨b, hb⟩ := unitMatch_defined e.2 k hk
    obtain ⟨r, hr⟩ := ih
    exact ⟨(if b then e.2.cids else []) ++ r, by simp only [pubMul, hb, hr, Option.bind_eq_bind, Option.bind_some]⟩

end Sis.Sub
