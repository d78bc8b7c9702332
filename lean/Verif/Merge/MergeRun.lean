import Verif.Merge.MergeLemmas
/-
The rounds of the merge come to an end, and the calls before it.
-/
namespace Sis.Mrg
open Sis.Time (Style Env convert)

theorem drain_nil {curr : Nat} : ∀ {q : List (Nat × Item)}, (drain curr q).1 = [] → ∀ t ts, q = t :: ts → curr < t.1
  | [], _, t, ts, h => by cases h
  | a :: q, h, t, ts, hq => by
    cases hq
    unfold drain at h
    split at h
    · cases h
    · omega

/-- A round in which nothing is due. -/
theorem turns_idle {v : Env} (curr : Nat) {s : St} (k : SOk v s) : ∀ (is : List Nat) (next : Option Nat),
    (∀ i ∈ is, i < s.c.units.length) → (∀ i ∈ is, ∀ u, s.c.units[i]? = some u → (drain curr u.q).1 = []) →
    ∃ n', is.foldlM (turn v curr) (s, next) = some (s, n') ∧
      (∀ n, next = some n → ∃ n1, n' = some n1 ∧ n1 ≤ n) ∧
      (∀ n1, n' = some n1 → next = some n1 ∨ ∃ i ∈ is, ∃ u t ts, s.c.units[i]? = some u ∧ u.q = t :: ts ∧ t.1 = n1) ∧
      ∀ i ∈ is, ∀ u t ts, s.c.units[i]? = some u → u.q = t :: ts → ∃ n1, n' = some n1 ∧ n1 ≤ t.1
  | [], next, _, _ => ⟨next, rfl, fun n h => ⟨n, h, Nat.le_refl _⟩, fun _ h => Or.inl h, nofun⟩
  | i :: is, next, h, hd => by
    have hi := List.getElem?_eq_getElem (h i List.mem_cons_self)
    generalize s.c.units[i]'(h i List.mem_cons_self) = u at hi
    have hu := hd i List.mem_cons_self u hi
    have hq : (drain curr u.q).2 = u.q := by
      have := drain_append curr u.q
      rw [hu, List.nil_append] at this
      exact this
    have ha : after s i u (drain curr u.q) = s := by
      unfold after
      rw [hu, hq]
      obtain ⟨hlt, rfl⟩ := List.getElem?_eq_some_iff.1 hi
      have hset : s.c.units.set i { s.c.units[i] with q := s.c.units[i].q } = s.c.units := List.set_getElem_self hlt
      have hw : wrap ((s.c.newSums : Int) - (([] : List (Nat × Item)).length : Nat)) = s.c.newSums := by
        have := k.bound
        have := k.c.sums
        simp only [List.length_nil, Int.natCast_zero, Int.sub_zero]
        exact wrap_of (by omega)
      rw [hset, hw]
      simp
    have e1 : turn v curr (s, next) i = some (s, least next u.q) := by
      rw [turn_eq v curr s next i hi, hq, if_neg (fun hc => hc.1 hc.2), ha]
    obtain ⟨n', e2, g1, g3, g2⟩ := turns_idle curr k is (least next u.q) (fun j hj => h j (List.mem_cons_of_mem _ hj))
      (fun j hj => hd j (List.mem_cons_of_mem _ hj))
    have hl1 : ∀ n, next = some n → ∃ n0, least next u.q = some n0 ∧ n0 ≤ n := by
      rintro n rfl
      unfold least
      split
      · exact ⟨n, rfl, Nat.le_refl _⟩
      · simp only
        split
        · exact ⟨_, rfl, by omega⟩
        · exact ⟨_, rfl, Nat.le_refl _⟩
    have hl2 : ∀ t ts, u.q = t :: ts → ∃ n0, least next u.q = some n0 ∧ n0 ≤ t.1 := by
      intro t ts ht
      rw [ht]
      unfold least
      cases next with
      | none => exact ⟨_, rfl, Nat.le_refl _⟩
      | some n =>
        simp only
        split
        · exact ⟨_, rfl, Nat.le_refl _⟩
        · exact ⟨_, rfl, by omega⟩
    have hl3 : ∀ n1, least next u.q = some n1 → next = some n1 ∨ ∃ t ts, u.q = t :: ts ∧ t.1 = n1 := by
      intro n1 hn
      cases hq' : u.q with
      | nil => rw [hq'] at hn; exact Or.inl hn
      | cons t ts =>
        rw [hq'] at hn
        cases next with
        | none =>
          simp only [least, Option.some.injEq] at hn
          exact Or.inr ⟨t, ts, rfl, hn⟩
        | some n =>
          simp only [least] at hn
          split at hn
          · exact Or.inr ⟨t, ts, rfl, Option.some.inj hn⟩
          · exact Or.inl hn
    refine ⟨n', ?_, ?_, ?_, ?_⟩
    · rw [List.foldlM_cons, e1]; exact e2
    · intro n hn
      obtain ⟨n0, h0, h1⟩ := hl1 n hn
      obtain ⟨n1, h2, h3⟩ := g1 n0 h0
      exact ⟨n1, h2, by omega⟩
    · intro n1 hn1
      rcases g3 n1 hn1 with h1 | ⟨j, hj, w, t, ts, h1, h2, h3⟩
      · rcases hl3 n1 h1 with h1 | ⟨t, ts, h1, h2⟩
        · exact Or.inl h1
        · exact Or.inr ⟨i, List.mem_cons_self, u, t, ts, hi, h1, h2⟩
      · exact Or.inr ⟨j, List.mem_cons_of_mem _ hj, w, t, ts, h1, h2, h3⟩
    · intro j hj w t ts hw ht
      rcases List.mem_cons.1 hj with rfl | hj
      · rw [hi] at hw
        cases hw
        obtain ⟨n0, h0, h1⟩ := hl2 t ts ht
        obtain ⟨n1, h2, h3⟩ := g1 n0 h0
        exact ⟨n1, h2, by omega⟩
      · exact g2 j hj w t ts hw ht

/-- Something is due. -/
def Due (s : St) : Prop := ∃ i, i < s.c.units.length ∧ ∃ u, s.c.units[i]? = some u ∧ (drain s.c.newMsec u.q).1 ≠ []

theorem round_ok {v : Env} {s : St} (k : SOk v s) : ∃ s' b, round v s = some (s', b) ∧ SOk v s' ∧ lft s' ≤ lft s ∧
    (∀ kn sn, strm s' kn sn = strm s kn sn) ∧ s'.c.status = s.c.status ∧ (b = true → s'.c.newSums = 0) ∧
    (Due s → lft s' < lft s) ∧ (¬ Due s → b = true ∨ Due s') := by
  obtain ⟨s', n', e, k', l, st, x, pr⟩ := turns_ok (v := v) s.c.newMsec (List.range s.c.units.length) none k
    (fun i hi => List.mem_range.1 hi)
  have hpr : Due s → lft s' < lft s := by
    rintro ⟨i, hi, u, hu, hd⟩
    exact pr ⟨i, List.mem_range.2 hi, u, hu, hd⟩
  unfold round
  rw [e]
  simp only [Option.map_some]
  by_cases h0 : s'.c.newSums = 0
  · rw [if_pos h0]
    exact ⟨s', true, rfl, k', l, st, x, fun _ => h0, hpr, fun _ => Or.inl rfl⟩
  · rw [if_neg h0]
    by_cases hm : s.c.newMsec = s'.c.newMsec
    · rw [if_pos hm]
      refine ⟨_, false, rfl, ⟨⟨k'.c.uniq, k'.c.tn, k'.c.tab, k'.c.sums⟩, k'.bound, k'.conv, k'.live⟩, l, st, x, nofun, hpr, ?_⟩
      intro hd
      obtain ⟨n2, e2, -, g3, g2⟩ := turns_idle s.c.newMsec k (List.range s.c.units.length) none (fun i hi => List.mem_range.1 hi)
        (fun i hi u hu => by
          by_cases hz : (drain s.c.newMsec u.q).1 = []
          · exact hz
          · exact absurd ⟨i, List.mem_range.1 hi, u, hu, hz⟩ hd)
      rw [e] at e2
      cases e2
      refine Or.inr ?_
      have htot : total s.c.units ≠ 0 := by rw [← k.c.sums]; exact h0
      have : ∃ i : Nat, ∃ u, s.c.units[i]? = some u ∧ u.q ≠ [] := by
        clear e g2 g3 hd pr hpr hm h0 k k' l st x
        generalize s.c.units = us at htot
        induction us with
        | nil => exact absurd rfl htot
        | cons w us ih =>
          by_cases hw : w.q = []
          · rw [total_cons, hw] at htot
            obtain ⟨i, u, h1, h2⟩ := ih (by simpa using htot)
            exact ⟨i + 1, u, by simpa using h1, h2⟩
          · exact ⟨0, w, rfl, hw⟩
      obtain ⟨i, u, hu, hq⟩ := this
      have hi := (List.getElem?_eq_some_iff.1 hu).1
      cases hqq : u.q with
      | nil => exact absurd hqq hq
      | cons t ts =>
        obtain ⟨n1, h1, h2⟩ := g2 i (List.mem_range.2 hi) u t ts hu hqq
        rcases g3 n1 h1 with h3 | ⟨j, hj, w, t', ts', h3, h4, h5⟩
        · cases h3
        · refine ⟨j, List.mem_range.1 hj, w, h3, ?_⟩
          simp only [h1, Option.getD_some, h4]
          unfold drain
          rw [if_pos (by omega)]
          simp
    · rw [if_neg hm]
      refine ⟨s', false, rfl, k', l, st, x, nofun, hpr, ?_⟩
      intro hd
      exfalso
      obtain ⟨n2, e2, -⟩ := turns_idle s.c.newMsec k (List.range s.c.units.length) none (fun i hi => List.mem_range.1 hi)
        (fun i hi u hu => by
          by_cases hz : (drain s.c.newMsec u.q).1 = []
          · exact hz
          · exact absurd ⟨i, List.mem_range.1 hi, u, hu, hz⟩ hd)
      rw [e] at e2
      cases e2
      exact hm rfl

theorem rounds_end {v : Env} : ∀ (b : Nat) {s : St}, SOk v s → lft s ≤ b →
    ∃ n s', rounds v n s = some (s', true) ∧ SOk v s' ∧ s'.c.newSums = 0 ∧ (∀ kn sn, strm s' kn sn = strm s kn sn) ∧
      s'.c.status = s.c.status := by
  intro b
  induction b using Nat.strongRecOn with
  | _ b ih =>
    have hdue : ∀ {s : St}, SOk v s → lft s ≤ b → Due s → ∃ n s', rounds v n s = some (s', true) ∧ SOk v s' ∧ s'.c.newSums = 0 ∧
        (∀ kn sn, strm s' kn sn = strm s kn sn) ∧ s'.c.status = s.c.status := by
      intro s k hl hd
      obtain ⟨s1, b1, e1, k1, l1, st1, x1, z1, d1, -⟩ := round_ok k
      have hlt := d1 hd
      cases b1 with
      | true => exact ⟨1, s1, by simp [rounds, e1], k1, z1 rfl, st1, x1⟩
      | false =>
        obtain ⟨n, s2, e2, k2, z2, st2, x2⟩ := ih (lft s1) (by omega) k1 (Nat.le_refl _)
        exact ⟨n + 1, s2, by simp [rounds, e1, e2], k2, z2, fun kn sn => (st2 kn sn).trans (st1 kn sn), x2.trans x1⟩
    intro s k hl
    by_cases hd : Due s
    · exact hdue k hl hd
    · obtain ⟨s1, b1, e1, k1, l1, st1, x1, z1, -, d1⟩ := round_ok k
      cases b1 with
      | true => exact ⟨1, s1, by simp [rounds, e1], k1, z1 rfl, st1, x1⟩
      | false =>
        rcases d1 hd with h | h
        · cases h
        · obtain ⟨n, s2, e2, k2, z2, st2, x2⟩ := hdue k1 (by omega) h
          exact ⟨n + 1, s2, by simp [rounds, e1, e2], k2, z2, fun kn sn => (st2 kn sn).trans (st1 kn sn), x2.trans x1⟩

/-- Rounds that came to an end do not depend on how many were allowed. -/
theorem rounds_mono {v : Env} : ∀ (n k : Nat) {s s' : St}, rounds v n s = some (s', true) → rounds v (n + k) s = some (s', true)
  | 0, k, s, s', h => by simp [rounds] at h
  | n + 1, k, s, s', h => by
    have : n + 1 + k = (n + k) + 1 := by omega
    rw [this]
    simp only [rounds] at h ⊢
    cases hr : round v s with
    | none => rw [hr] at h; cases h
    | some r =>
      rw [hr] at h
      simp only [Option.bind_some] at h ⊢
      by_cases hb : r.2 = true
      · rw [if_pos hb] at h ⊢; exact h
      · rw [if_neg hb] at h ⊢; exact rounds_mono n k h

/-! ### The calls before -/

theorem pend_clear (us : List Chan) (kn sn : Bytes) : pend (us.map fun u => { u with q := [] }) kn sn = [] :=
  pend_total (total_map_nil us) kn sn

theorem setTab_tabs (c : Cxt) (tn : Bytes) (st : Option Style) (sn : Bytes) :
    Known (setTab c tn st) sn ↔ Known c sn ∨ alike tn sn := by
  unfold setTab
  split
  · rename_i h
    constructor
    · exact Or.inl
    · rintro (h1 | h1)
      · exact h1
      · obtain ⟨t, h2, h3⟩ := List.any_eq_true.1 h
        exact ⟨t, h2, alike_trans (same_iff.1 h3) h1⟩
  · constructor
    · rintro ⟨t, h1, h2⟩
      rcases List.mem_append.1 h1 with h1 | h1
      · exact Or.inl ⟨t, h1, h2⟩
      · simp only [List.mem_singleton] at h1; subst h1; exact Or.inr h2
    · rintro (⟨t, h1, h2⟩ | h)
      · exact ⟨t, List.mem_append_left _ h1, h2⟩
      · exact ⟨_, List.mem_append_right _ (List.mem_singleton.2 rfl), h⟩

theorem calls_ok {v : Env} : ∀ {cs : List Call} {c c' : Cxt} (known : List Bytes), COk c → (∀ sn, Known c sn ↔ ∃ t ∈ known, alike t sn) →
    total c.units + count cs < 2 ^ 32 → cs.foldlM (call v) c = some c' →
    COk c' ∧ total c'.units ≤ total c.units + count cs ∧ c'.status = c.status ∧
    ∀ kn sn, (pend c'.units kn sn).map Prod.snd = given kn sn known ((pend c.units kn sn).map Prod.snd) cs
  | [], c, c', known, k, _, _, h => by
    cases h
    exact ⟨k, Nat.le_add_right _ _, rfl, fun _ _ => rfl⟩
  | .tab tn st :: cs, c, c', known, k, hk, hb, h => by
    rw [List.foldlM_cons] at h
    simp only [call, count] at h hb
    have hu : (setTab c tn st).units = c.units ∧ (setTab c tn st).status = c.status := by unfold setTab; split <;> exact ⟨rfl, rfl⟩
    obtain ⟨g1, g2, g3, g4⟩ := calls_ok (known ++ [tn]) (setTab_ok k tn st) (fun sn => by
      rw [setTab_tabs, hk]
      constructor
      · rintro (⟨t, h1, h2⟩ | h1)
        · exact ⟨t, List.mem_append_left _ h1, h2⟩
        · exact ⟨tn, List.mem_append_right _ (List.mem_singleton.2 rfl), h1⟩
      · rintro ⟨t, h1, h2⟩
        rcases List.mem_append.1 h1 with h1 | h1
        · exact Or.inl ⟨t, h1, h2⟩
        · simp only [List.mem_singleton] at h1; subst h1; exact Or.inr h2) (by rw [hu.1]; exact hb) h
    rw [hu.1] at g2 g4
    exact ⟨g1, g2, g3.trans hu.2, g4⟩
  | .push kn sn xs :: cs, c, c', known, k, hk, hb, h => by
    rw [List.foldlM_cons] at h
    simp only [call, count] at h hb
    cases hp : push v c kn sn xs with
    | none => rw [hp] at h; cases h
    | some c1 =>
      rw [hp] at h
      obtain ⟨p1, p2, p3, p4, p5, p6⟩ := push_ok k (by omega) hp
      obtain ⟨g1, g2, g3, g4⟩ := calls_ok known p1 (fun sn => by rw [← hk]; unfold Known; rw [p2]) (by omega) h
      refine ⟨g1, by simp only [count]; omega, g3.trans p4, ?_⟩
      intro kn' sn'
      rw [g4, p6]
      simp only [given]
      congr 1
      by_cases hc : alike kn kn' ∧ alike sn sn' ∧ ∃ t ∈ known, alike t sn
      · rw [if_pos hc, if_pos ⟨hc.1, hc.2.1, (hk sn).2 hc.2.2⟩]
      · rw [if_neg hc, if_neg fun hg => hc ⟨hg.1, hg.2.1, (hk sn).1 hg.2.2⟩, List.append_nil]
  | .clear :: cs, c, c', known, k, hk, hb, h => by
    rw [List.foldlM_cons] at h
    simp only [call, count] at h hb
    have ht : total (clear c).units = 0 := total_map_nil _
    obtain ⟨g1, g2, g3, g4⟩ := calls_ok known (clear_ok k) hk (by omega) h
    refine ⟨g1, by simp only [count]; omega, g3, ?_⟩
    intro kn sn
    rw [g4]
    simp only [given, clear, pend_clear, List.map_nil]

end Sis.Mrg
