import Verif.Snodb.WlogLemmas
/-
Lemmas about the log of the day: from the start of the process through whole days.
-/
namespace Sis.Snodb
open Sis

/-- Between two days; `ds` are the days that were. -/
structure Ready (ds : List Nat) (w : W) : Prop where
  good : Good .weak 0 w.s
  dict : w.s.dict = none
  flog : w.flog = none
  place : w.place = .pos w.s.out.length
  old : w.wdate ∈ ds ∨ (w.begun = false ∧ w.winit = false)

/-- The texts are what was set last in `vs`, if anything was. -/
def TextsOf (e : Env) (vs : List Ev) (s : St) : Prop :=
  (∀ K, lastKeys vs = some K → s.keys = .val K) ∧ ∀ b T, lastSdbs vs = some b → e.conv b = some T → s.sdbs = .val T

theorem textsOf_step {e : Env} {vs : List Ev} {s s' : St} {v : Ev} (h : TextsOf e vs s) (h1 : s'.keys = keysOf s v) (h2 : s'.sdbs = sdbsOf e s v) : TextsOf e (vs ++ [v]) s' := by
  constructor
  · intro K hK
    rw [h1]
    by_cases hv : ∃ b, v = .keys (some b)
    · obtain ⟨b, rfl⟩ := hv
      rw [lastKeys_snoc] at hK
      cases hK
      rfl
    · rw [lastKeys_other vs fun b hb => hv ⟨b, hb⟩] at hK
      rw [show keysOf s v = s.keys from ?_]
      · exact h.1 K hK
      · unfold keysOf
        split
        · exact absurd ⟨_, rfl⟩ hv
        · rfl
  · intro b T hb hT
    rw [h2]
    by_cases hv : ∃ b, v = .sdbs (some b)
    · obtain ⟨c, rfl⟩ := hv
      rw [lastSdbs_snoc] at hb
      cases hb
      simp [sdbsOf, hT]
    · rw [lastSdbs_other vs fun b hb => hv ⟨b, hb⟩] at hb
      rw [show sdbsOf e s v = s.sdbs from ?_]
      · exact h.2 b T hb hT
      · unfold sdbsOf
        split
        · exact absurd ⟨_, rfl⟩ hv
        · rfl

theorem logStep_end {w w' : W} (hp : w.place = .pos w.s.out.length) (h : logStep w = some w') : w' = w := by
  unfold logStep at h
  rw [hp] at h
  dsimp only at h
  rw [List.getElem?_eq_none_iff.2 (Nat.le_refl _)] at h
  cases h
  rfl

theorem between_run {e : Env} {ds : List Nat} {as : List Act} : ∀ {w w' : W} {os : List (List Out)} {vs : List Ev}, Ready ds w → (∀ a ∈ as, between a = true) →
    TextsOf e vs w.s → actRun e w as = some (w', os) → Ready ds w' ∧ w'.logs = w.logs ∧ w'.files = w.files ∧ TextsOf e (vs ++ actEvs as) w'.s := by
  induction as with
  | nil => intro w w' os vs h _ ht hr; cases hr; exact ⟨h, rfl, rfl, by simpa [actEvs] using ht⟩
  | cons a as ih =>
    intro w w' os vs h hb ht hr
    obtain ⟨w1, o, os1, h1, h2, rfl⟩ := act_run_cons.1 hr
    cases a with
    | crash n t => have := hb _ (List.mem_cons_self); cases this
    | log =>
      obtain ⟨h3, rfl⟩ := act_step_log h1
      have := logStep_end h.place h3
      subst this
      exact ih h (fun a ha => hb a (by simp [ha])) ht h2
    | ev v =>
      have hv : between (.ev v) = true := hb _ (List.mem_cons_self)
      simp only [between, Bool.and_eq_true, Bool.not_eq_true'] at hv
      obtain ⟨⟨v1, v2⟩, v3⟩ := hv
      obtain ⟨s', rfl, f1, f2, f3, f4, _, _, f7⟩ := ev_facts h.good v2 v3 h1
      obtain ⟨f8, f9⟩ := f7 v1 h.dict
      rw [f9, List.append_nil] at f2
      obtain ⟨i1, i2, i3, i4⟩ := ih (w := { w with s := s' }) ⟨f1, f8, h.flog, by show w.place = _; rw [h.place, f2], h.old⟩
        (fun a ha => hb a (by simp [ha])) (textsOf_step ht f3 f4) h2
      exact ⟨i1, i2, i3, by simpa [actEvs] using i4⟩

theorem start_in {e : Env} {ds : List Nat} {w w' : W} {o : List Out} {d : Nat} {K T : Bytes} (h : Ready ds w) (hd : d ∉ ds) (hk : w.s.keys = .val K) (ht : w.s.sdbs = .val T)
    (hs : actStep e w (.ev (.start d)) = some (w', o)) : InDay d w'.s.out.length K T w.logs w.files w' := by
  simp only [actStep, Option.map_eq_some_iff, Prod.mk.injEq] at hs
  obtain ⟨⟨s', o'⟩, h1, rfl, _⟩ := hs
  have hg := good_step (fun h => by cases h) h.good h1 (fun h => by cases h)
  have hs' : s' = (start e w.s d).1 := by
    simp only [step, Option.some.injEq] at h1
    rw [h1]
  have q1 : s'.date = d := by rw [hs']; rfl
  have q2 : s'.keys = .val K := by rw [hs']; exact hk
  have q3 : s'.sdbs = .val T := by rw [hs']; exact ht
  have q4 : s'.status ≠ .none := by rw [hs']; intro hx; cases hx
  have hout : s'.out = if e.keep then [] else w.s.out := by rw [hs']; rfl
  have hpl : (startLog e w.s.out.length { w with s := s' } d).place = .pos s'.out.length := by
    unfold startLog
    dsimp only
    cases hkp : e.keep with
    | true => simp only [h.place, if_true, hout, hkp]; split <;> rfl
    | false => simp only [Bool.false_eq_true, if_false, hout, hkp]; split <;> exact h.place
  have hrest : (startLog e w.s.out.length { w with s := s' } d).s = s' ∧ (startLog e w.s.out.length { w with s := s' } d).files = w.files ∧
      (startLog e w.s.out.length { w with s := s' } d).logs = w.logs ∧ (startLog e w.s.out.length { w with s := s' } d).flog = none ∧
      (startLog e w.s.out.length { w with s := s' } d).wdate = d ∧ (startLog e w.s.out.length { w with s := s' } d).begun = false ∧
      (startLog e w.s.out.length { w with s := s' } d).winit = false := by
    by_cases hx : w.wdate = 0 ∨ w.wdate ≠ d
    · unfold startLog
      cases hkp : e.keep <;> simp [hx, h.flog]
    · have hw : w.wdate = d := by
        by_cases hq : w.wdate = d
        · exact hq
        · exact absurd (Or.inr hq) hx
      have hold : w.begun = false ∧ w.winit = false := by
        rcases h.old with ho | ho
        · rw [hw] at ho; exact absurd ho hd
        · exact ho
      have hx' : ¬(d = 0) := fun h0 => hx (Or.inl (hw.trans h0))
      unfold startLog
      cases hkp : e.keep <;> simp [hx', hw, h.flog, hold.1, hold.2]
  obtain ⟨r1, r2, r3, r4, r5, r6, r7⟩ := hrest
  refine ⟨by rw [r1]; exact hg, by rw [r1]; exact q1, by rw [r1]; exact q2, by rw [r1]; exact q3, by rw [r1]; exact q4, r2, r5, s'.out.length, hpl,
    by rw [r1]; exact Nat.le_refl _, by rw [r1]; exact Nat.le_refl _, ?_⟩
  rw [r1]
  have : (s'.out.take s'.out.length).drop s'.out.length = [] := by simp
  rw [this]
  exact ⟨by rw [r6, r7], by rw [r7]; rfl, by rw [r4]; rfl, by rw [r3]; rfl⟩

theorem running_in {e : Env} {ds : List Nat} {w w' : W} {d : Nat} {K T : Bytes} {ps : List Bytes} (h : Ready ds w) (hd : d ∉ ds) (hr : Running e w d K T ps w') :
    ∃ B, InDay d B K T w.logs w.files w' ∧ w'.s.out.drop B = ps ∧ B ≤ w'.s.out.length := by
  obtain ⟨pre, body, w1, o1, o2, h1, h2, hp, hb, hk, ⟨t, ht, hT⟩, rfl⟩ := hr
  obtain ⟨w0, x1, x2, g1, g2, rfl⟩ := act_run_append.1 h1
  obtain ⟨w3, o, os, g3, g4, rfl⟩ := act_run_cons.1 g2
  cases g4
  obtain ⟨i1, i2, i3, i4⟩ := between_run (vs := []) h hp ⟨fun K h => (by cases h), fun b T h => (by cases h)⟩ g1
  rw [List.nil_append] at i4
  have hin := start_in i1 hd (i4.1 K hk) (i4.2 t T ht hT) g3
  rw [i2, i3] at hin
  obtain ⟨j1, j2⟩ := during_run hin hb h2
  refine ⟨w1.s.out.length, j1, ?_, ?_⟩
  · rw [j2, List.drop_left]
  · rw [j2, List.length_append]; omega

theorem stop_out {s : St} (hs : s.status ≠ .none) (l : List Bytes) : (stop s l).1.dict = none ∧ (stop s l).1.date = s.date ∧
    ∃ q, (stop s l).1.out = s.out ++ q ∧ q.length ≤ l.length ∧ ∀ p ∈ q, p ∈ l := by
  unfold stop
  rw [if_neg hs]
  dsimp only
  cases hd : s.dict with
  | none => exact ⟨rfl, rfl, [], by simp, by simp, by simp⟩
  | some x =>
    dsimp only
    obtain ⟨f1, _, _, _, _, f6, _⟩ := pushes_facts l { s with inputs := [], dict := some x }
    exact ⟨rfl, f6, _, f1, List.length_filter_le _ _, fun p hp => (List.mem_filter.1 hp).1⟩

/-- After the end of a day the thread of the log writes nothing. -/
theorem quiet_log {e : Env} {ds : List Nat} (n : Nat) : ∀ {w w' : W} {os : List (List Out)} {k : Nat}, Good .weak 0 w.s → w.s.dict = none → w.flog = none → w.place = .pos k → k ≤ w.s.out.length →
    w.s.out.length ≤ k + n → w.wdate ∈ ds → (w.winit = true ∨ (w.begun = false ∧ ∀ p ∈ w.s.out.drop k, starts p = false)) →
    actRun e w (List.replicate n .log) = some (w', os) → Ready ds w' ∧ w'.logs = w.logs ∧ w'.files = w.files := by
  induction n with
  | zero =>
    intro w w' os k hg hd hf hp hk hn hw _ hr
    cases hr
    exact ⟨⟨hg, hd, hf, by rw [hp]; congr 1; omega, Or.inl hw⟩, rfl, rfl⟩
  | succ n ih =>
    intro w w' os k hg hd hf hp hk hn hw hq hr
    rw [List.replicate_succ] at hr
    obtain ⟨w1, o, os1, h1, h2, rfl⟩ := act_run_cons.1 hr
    obtain ⟨h3, rfl⟩ := act_step_log h1
    unfold logStep at h3
    rw [hp] at h3
    dsimp only at h3
    cases hx : w.s.out[k]? with
    | none =>
      rw [hx] at h3
      cases h3
      have := List.getElem?_eq_none_iff.1 hx
      exact ih hg hd hf hp hk (by omega) hw hq h2
    | some p =>
      rw [hx] at h3
      simp only [Option.map_eq_some_iff] at h3
      obtain ⟨w2, h4, rfl⟩ := h3
      have hlt := (List.getElem?_eq_some_iff.1 hx).1
      have hcons : w.s.out.drop k = p :: w.s.out.drop (k + 1) := by
        rw [List.drop_eq_getElem_cons hlt, (List.getElem?_eq_some_iff.1 hx).2]
      have hw2 : w2 = w ∧ w.winit = false ∨ (w.winit = true ∧ w2 = { w with begun := true }) ∨ (w.winit = true ∧ w2 = w) := by
        unfold logOne at h4
        rcases hq with hi | ⟨hb, hns⟩
        · split at h4
          · cases h4; exact Or.inr (Or.inr ⟨hi, rfl⟩)
          · simp only [hi, if_true, Option.some.injEq] at h4
            unfold writeLog at h4
            simp only [hf] at h4
            exact Or.inr (Or.inl ⟨hi, by rw [← h4]; simp [hi, hf]⟩)
        · have : starts p = false := hns p (by rw [hcons]; simp)
          rw [starts_begins, this, hb] at h4
          simp only [Bool.not_false, Bool.and_self, if_true, Option.some.injEq] at h4
          cases hi : w.winit with
          | true => exact Or.inr (Or.inr ⟨rfl, h4.symm⟩)
          | false => exact Or.inl ⟨h4.symm, rfl⟩
      have hrest : ∀ p ∈ w.s.out.drop (k + 1), p ∈ w.s.out.drop k := fun p hp => by rw [hcons]; exact List.mem_cons_of_mem _ hp
      rcases hw2 with ⟨rfl, hi⟩ | ⟨hi, rfl⟩ | ⟨hi, rfl⟩
      · obtain ⟨i1, i2, i3⟩ := ih (w := { w2 with place := .pos (k + 1) }) (k := k + 1) hg hd hf rfl hlt (by show w2.s.out.length ≤ _; omega) hw (by
          rcases hq with h | ⟨h, h'⟩
          · exact Or.inl h
          · exact Or.inr ⟨h, fun p hp => h' p (hrest p hp)⟩) h2
        exact ⟨i1, i2, i3⟩
      · obtain ⟨i1, i2, i3⟩ := ih (w := { w with begun := true, place := .pos (k + 1) }) (k := k + 1) hg hd hf rfl hlt (by show w.s.out.length ≤ _; omega) hw (Or.inl hi) h2
        exact ⟨i1, i2, i3⟩
      · obtain ⟨i1, i2, i3⟩ := ih (w := { w2 with place := .pos (k + 1) }) (k := k + 1) hg hd hf rfl hlt (by show w2.s.out.length ≤ _; omega) hw (Or.inl hi) h2
        exact ⟨i1, i2, i3⟩

/-- A whole day. -/
theorem whole_day {e : Env} {ds : List Nat} {w w' : W} {d : Nat} {K T : Bytes} {ps : List Bytes} (h : Ready ds w) (hd : d ∉ ds) (hr : WholeDay e w d K T ps w') :
    Ready (d :: ds) w' ∧ (∀ x, x ≠ d → w'.logs x = w.logs x ∧ w'.files x = w.files x) ∧ w'.logs d = none ∧
    w'.files d = if w.logs d = none ∧ record K T ps = [] then w.files d else some ((w.logs d).getD [] ++ record K T ps) := by
  obtain ⟨w1, n, w2, o2, last, m, o3, h1, hn, h2, h3, hm, hc⟩ := hr
  obtain ⟨B, g1, g2, g3⟩ := running_in h hd h1
  obtain ⟨k, hk, hB, hk2, _⟩ := g1.log
  have hlen : w1.s.out.length = B + ps.length := by rw [← g2, List.length_drop]; omega
  obtain ⟨i1, i2, i3⟩ := drain_log n g1 hk (by omega) h2
  obtain ⟨k', hk', _, _, l1, l2, l3, l4⟩ := i1.log
  rw [i3] at hk'
  cases hk'
  rw [i2, List.take_length, g2] at l2 l3 l4
  obtain ⟨w3, o4, o5, h4, h5, rfl⟩ := act_run_cons.1 h3
  simp only [actStep, Option.map_eq_some_iff, Prod.mk.injEq] at h4
  obtain ⟨⟨s', o'⟩, h6, h7, _⟩ := h4
  rw [if_neg i1.alive] at h7
  have hgood := good_step (fun h => by cases h) i1.good h6 (fun h => by cases h)
  simp only [step, Option.some.injEq] at h6
  obtain ⟨q1, q2, q, q3, q4, q5⟩ := stop_out i1.alive last
  rw [h6] at q1 q2 q3
  dsimp only at q1 q2 q3 h7
  have hdate : s'.date = d := q2.trans i1.date
  have hrec : fromBlock ps = [] → record K T ps = [] := fun hx => by unfold record; rw [if_pos hx]
  have hrec' : fromBlock ps ≠ [] → record K T ps ≠ [] := fun hx => by unfold record; rw [if_neg hx]; simp
  have hlog : w2.logs d = if fromBlock ps = [] then w.logs d else some ((w.logs d).getD [] ++ record K T ps) := by
    rw [l4]
    split
    · rfl
    · rw [setDay_same]
  have hother : ∀ x, x ≠ d → w2.logs x = w.logs x := by
    intro x hx
    rw [l4]
    split
    · rfl
    · rw [setDay_other _ _ hx]
  have hw3 : w3.s = s' ∧ w3.flog = none ∧ w3.place = w2.place ∧ w3.wdate = d ∧ w3.winit = w2.winit ∧ w3.begun = w2.begun ∧
      (∀ x, x ≠ d → w3.logs x = w.logs x ∧ w3.files x = w.files x) ∧ w3.logs d = none ∧
      w3.files d = if w.logs d = none ∧ record K T ps = [] then w.files d else some ((w.logs d).getD [] ++ record K T ps) := by
    rw [← h7]
    unfold endLog
    dsimp only
    rw [hdate]
    cases hl : w2.logs d with
    | none =>
      dsimp only
      rw [hl] at hlog
      refine ⟨rfl, rfl, rfl, i1.wdate, rfl, rfl, fun x hx => ⟨hother x hx, by rw [i1.files]⟩, hl, ?_⟩
      by_cases hx : fromBlock ps = []
      · rw [if_pos hx] at hlog
        rw [if_pos ⟨hlog.symm, hrec hx⟩, i1.files]
      · rw [if_neg hx] at hlog
        cases hlog
    | some rs =>
      dsimp only
      rw [hl] at hlog
      refine ⟨rfl, rfl, rfl, i1.wdate, rfl, rfl, fun x hx => ⟨by rw [setDay_other _ _ hx]; exact hother x hx, by rw [setDay_other _ _ hx, i1.files]⟩, setDay_same _ _ _, ?_⟩
      rw [setDay_same]
      by_cases hx : fromBlock ps = []
      · rw [if_pos hx] at hlog
        rw [if_neg (fun h => by rw [h.1] at hlog; cases hlog), ← hlog, hrec hx]
        simp
      · rw [if_neg hx] at hlog
        rw [if_neg (fun h => hrec' hx h.2), hlog]
  obtain ⟨r1, r2, r3, r4, r5, r6, r7, r8, r9⟩ := hw3
  obtain ⟨j1, j2, j3⟩ := quiet_log (ds := d :: ds) m (k := w1.s.out.length) (by rw [r1]; exact hgood) (by rw [r1]; exact q1) r2 (r3.trans i3)
    (by rw [r1, q3, i2, List.length_append]; omega) (by rw [r1, q3, i2, List.length_append]; omega) (by rw [r4]; simp) (by
      rw [r5, r6, r1, q3, i2]
      rcases hc with hc | hc
      · exact Or.inl (by rw [l2]; simp [hc])
      · by_cases hx : fromBlock ps = []
        · refine Or.inr ⟨by rw [l1, l2]; simp [hx], fun p hp => ?_⟩
          rw [List.drop_left] at hp
          exact hc p (q5 p hp)
        · exact Or.inl (by rw [l2]; simp [hx])) h5
  exact ⟨j1, fun x hx => by rw [j2, j3]; exact r7 x hx, by rw [j2]; exact r8, by rw [j3]; exact r9⟩

/-! The start of the process -/

theorem load_one {e : Env} {s : St} {r : Rec} (h : s.readers = []) (hg : s.gone = 0) (hc : s.cur = 0) (hd : s.dict = none) (hf : s.keys ≠ .freed ∧ s.sdbs ≠ .freed) :
    ∃ s', loadOne e s r = some s' ∧ s'.readers = [] ∧ s'.gone = 0 ∧ s'.cur = 0 ∧ s'.dict = none ∧ s'.keys ≠ .freed ∧ s'.sdbs ≠ .freed := by
  cases r with
  | keys b => exact ⟨_, rfl, h, hg, hc, hd, (by simp), hf.2⟩
  | sdbs b => exact ⟨_, rfl, h, hg, hc, hd, hf.1, (by simp)⟩
  | zpub p =>
    unfold loadOne
    dsimp only
    have hpush : ∀ s : St, s.readers = [] → s.gone = 0 → s.cur = 0 → s.dict = none → s.keys ≠ .freed → s.sdbs ≠ .freed →
        (push s p).readers = [] ∧ (push s p).gone = 0 ∧ (push s p).cur = 0 ∧ (push s p).dict = none ∧ (push s p).keys ≠ .freed ∧ (push s p).sdbs ≠ .freed := by
      intro s a1 a2 a3 a4 a5 a6
      unfold push
      split <;> exact ⟨a1, a2, a3, a4, a5, a6⟩
    unfold writeInit
    split
    · exact ⟨_, rfl, hpush s h hg hc hd hf.1 hf.2⟩
    · split
      · exact ⟨_, rfl, hpush s h hg hc hd hf.1 hf.2⟩
      · split
        · rename_i hx
          rcases hx.2 with hx | hx
          · exact absurd hx hf.1
          · exact absurd hx hf.2
        · dsimp only
          rw [h, if_pos (by simp)]
          exact ⟨_, rfl, rfl, hg, hc, hd, hf.1, hf.2⟩

theorem load_all {e : Env} (rs : List Rec) : ∀ {s : St}, s.readers = [] → s.gone = 0 → s.cur = 0 → s.dict = none → s.keys ≠ .freed → s.sdbs ≠ .freed →
    ∃ s', loadAll e s rs = some s' ∧ s'.readers = [] ∧ s'.gone = 0 ∧ s'.cur = 0 ∧ s'.dict = none := by
  induction rs with
  | nil => intro s a1 a2 a3 a4 _ _; exact ⟨s, rfl, a1, a2, a3, a4⟩
  | cons r rs ih =>
    intro s a1 a2 a3 a4 a5 a6
    obtain ⟨s1, h1, b1, b2, b3, b4, b5, b6⟩ := load_one (e := e) (r := r) a1 a2 a3 a4 ⟨a5, a6⟩
    obtain ⟨s2, h2, c⟩ := ih b1 b2 b3 b4 b5 b6
    exact ⟨s2, by unfold loadAll; rw [h1]; exact h2, c⟩

theorem start_init (e : Env) (t d : Nat) : (start e (init t) d).1.readers = [] ∧ (start e (init t) d).1.gone = 0 ∧ (start e (init t) d).1.cur = 0 ∧
    (start e (init t) d).1.dict = none ∧ (start e (init t) d).1.keys = .null ∧ (start e (init t) d).1.sdbs = .null ∧ (start e (init t) d).1.out = [] ∧
    (start e (init t) d).1.status = .init := by
  cases hk : e.keep <;> simp [start, init, hk]

theorem boot_facts {e : Env} (logs files : Nat → Option (List Rec)) (today : Nat) : ∃ w, boot e logs files today = some w ∧ w.logs = logs ∧ w.files = files ∧
    Good .weak 0 w.s ∧ w.s.dict = none ∧ w.flog = none ∧ w.place = .fresh ∧ w.begun = false ∧ w.winit = false := by
  unfold boot
  cases hl : logs today with
  | none => exact ⟨_, rfl, rfl, rfl, good_init _ _, rfl, rfl, rfl, rfl, rfl⟩
  | some rs =>
    obtain ⟨a1, a2, a3, a4, a5, a6, _⟩ := start_init e today today
    obtain ⟨s', h1, b1, b2, b3, b4⟩ := load_all (e := e) rs a1 a2 a3 a4 (by rw [a5]; simp) (by rw [a6]; simp)
    dsimp only
    rw [h1]
    exact ⟨_, rfl, rfl, rfl, good_empty b1 (by show s'.gone ≤ _; rw [b2]; exact Nat.zero_le _) b3, b4, rfl, rfl, rfl, rfl⟩

theorem since_ready {e : Env} {logs files : Nat → Option (List Rec)} {today : Nat} {ds : List Nat} {w : W} (h : Since e logs files today ds w) : Ready ds w := by
  induction h with
  | boot h1 h2 =>
    obtain ⟨w', e1, e2, e3, e4, e5, e6, e7, e8, e9⟩ := boot_facts (e := e) logs files today
    rw [e1] at h1
    cases h1
    obtain ⟨w1, o, os, h3, h4, rfl⟩ := act_run_cons.1 h2
    cases h4
    obtain ⟨h5, rfl⟩ := act_step_log h3
    unfold logStep at h5
    rw [e7] at h5
    cases h5
    exact ⟨e4, e5, e6, rfl, Or.inr ⟨e8, e9⟩⟩
  | day _ hd hw ih => exact (whole_day ih hd hw).1

end Sis.Snodb
