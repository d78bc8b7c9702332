import Verif.Snodb.WlogSpec
import Verif.Snodb.SnodbMore
/-
Lemmas about the log of the day.
-/
namespace Sis.Snodb
open Sis

/-! Lists -/

theorem starts_begins (p : Bytes) : begins p = starts p := by
  have h := begins_iff p
  cases hb : begins p with
  | true =>
    obtain ⟨b, r, rfl, h1⟩ := h.1 hb
    simp [starts, h1]
  | false =>
    cases hs : starts p with
    | false => rfl
    | true =>
      exfalso
      have : begins p = true := h.2 (by
        cases p with
        | nil => simp [starts] at hs
        | cons b r => exact ⟨b, r, rfl, by simpa [starts] using hs⟩)
      rw [hb] at this
      cases this

theorem fromBlock_append (a b : List Bytes) : fromBlock (a ++ b) = if fromBlock a = [] then fromBlock b else fromBlock a ++ b := by
  induction a with
  | nil => simp [fromBlock]
  | cons p a ih =>
    cases hp : starts p with
    | true => simp [fromBlock, hp]
    | false =>
      have h1 : ∀ l, fromBlock (p :: l) = fromBlock l := fun l => by simp [fromBlock, hp]
      rw [List.cons_append, h1, h1, ih]

theorem fromBlock_none {a : List Bytes} (h : ∀ p ∈ a, starts p = false) : fromBlock a = [] := by
  induction a with
  | nil => rfl
  | cons p a ih =>
    have : fromBlock (p :: a) = fromBlock a := by simp [fromBlock, h p (by simp)]
    rw [this]
    exact ih fun p hp => h p (by simp [hp])

theorem setDay_setDay (f : Nat → Option (List Rec)) (d : Nat) (x y) : setDay (setDay f d x) d y = setDay f d y := by
  funext k
  unfold setDay
  split <;> rfl

theorem setDay_same (f : Nat → Option (List Rec)) (d : Nat) (x) : setDay f d x d = x := by simp [setDay]

theorem setDay_other (f : Nat → Option (List Rec)) {d k : Nat} (x) (h : k ≠ d) : setDay f d x k = f k := by simp [setDay, h]

theorem take_drop_succ {l : List Bytes} {k B : Nat} {p : Bytes} (h : l[k]? = some p) (hB : B ≤ k) : (l.take (k + 1)).drop B = (l.take k).drop B ++ [p] := by
  have hk := (List.getElem?_eq_some_iff.1 h).1
  rw [List.take_add_one, h, List.drop_append_of_le_length (by rw [List.length_take]; omega)]
  rfl

/-! One event -/

theorem good_empty {s : St} (h : s.readers = []) (hg : s.gone ≤ s.out.length) (hc : s.cur = 0) : Good .weak 0 s :=
  ⟨by simp [h], by simp [h], hg, Nat.zero_le _, fun _ => rfl, fun h => absurd rfl h, fun h => (by cases h), by simp [h], by simp [h], fun h => absurd rfl h, by omega⟩

theorem date_step {e : Env} {s s' : St} {v : Ev} {o : List Out} (hg : Good .weak 0 s) (h : step e s v = some (s', o)) (h1 : isStart v = false) :
    (s'.date = s.date ∨ ∃ a, v = .sub a ∧ s'.date = max s.date a.today) ∧ (s.status ≠ .none → s'.status ≠ .none) := by
  cases v with
  | start d => cases h1
  | stop l =>
    simp only [step, Option.some.injEq] at h
    unfold stop at h
    split at h
    · cases h; exact ⟨Or.inl rfl, id⟩
    · cases hd : s.dict with
      | none =>
        simp only [hd] at h
        cases h
        exact ⟨Or.inl rfl, id⟩
      | some x =>
        simp only [hd] at h
        cases h
        obtain ⟨_, _, _, f4, _, f6, _⟩ := pushes_facts l { s with inputs := [], dict := some x }
        exact ⟨Or.inl f6, fun hn => by dsimp only; rw [f4]; exact hn⟩
  | keys x =>
    dsimp only [step] at h
    unfold setKeys at h
    cases x with
    | none => cases h
    | some x => cases h; exact ⟨Or.inl rfl, id⟩
  | sdbs x =>
    dsimp only [step] at h
    unfold setSdbs at h
    split at h
    · cases h
    · cases x with
      | none => cases h
      | some x =>
        dsimp only at h
        cases hcv : e.conv x with
        | none => rw [hcv] at h; cases h; exact ⟨Or.inl rfl, id⟩
        | some t => rw [hcv] at h; cases h; exact ⟨Or.inl rfl, id⟩
  | pub k t d =>
    dsimp only [step] at h
    unfold pub at h
    cases hw : writeInit e s with
    | none => rw [hw] at h; cases h
    | some x =>
      obtain ⟨s1, b, o1⟩ := x
      obtain ⟨_, _, _, _, f5, _, _, _, _, f10, f11⟩ := writeInit_facts hg.count hw
      rw [hw] at h
      cases b with
      | false => cases h; rw [(f10 rfl).1]; exact ⟨Or.inl rfl, id⟩
      | true =>
        simp only [Option.map_eq_some_iff, Prod.mk.injEq] at h
        obtain ⟨s2, h2, rfl, rfl⟩ := h
        obtain ⟨_, g2, _⟩ := f11 rfl
        have hs := writeBytes_facts h2
        have hd : s2.date = s1.date := by
          unfold writeBytes at h2
          split at h2
          · cases h2; rfl
          · split at h2 <;> cases h2 <;> rfl
        exact ⟨Or.inl (hd.trans f5), fun _ => by rw [hs.2.2.2.2.2.1, g2]; decide⟩
  | zpub p =>
    dsimp only [step] at h
    unfold zpub at h
    cases hw : writeInit e s with
    | none => rw [hw] at h; cases h
    | some x =>
      obtain ⟨s1, b, o1⟩ := x
      obtain ⟨_, _, _, _, f5, _, _, _, _, f10, f11⟩ := writeInit_facts hg.count hw
      rw [hw] at h
      cases b with
      | false => cases h; rw [(f10 rfl).1]; exact ⟨Or.inl rfl, id⟩
      | true =>
        cases h
        obtain ⟨_, g2, _⟩ := f11 rfl
        obtain ⟨_, _, _, p4, _, p6, _⟩ := pushes_facts [p] s1
        exact ⟨Or.inl ((show _ = s1.date from p6).trans f5), fun _ => by rw [show (push s1 p).status = s1.status from p4, g2]; decide⟩
  | pack ps =>
    simp only [step, Option.some.injEq] at h
    unfold pack at h
    split at h
    · cases h
      obtain ⟨_, _, _, p4, _, p6, _⟩ := pushes_facts ps s
      exact ⟨Or.inl p6, fun hn => by dsimp only; rw [p4]; exact hn⟩
    · cases h; exact ⟨Or.inl rfl, id⟩
  | sub a =>
    simp only [step, Option.some.injEq] at h
    refine ⟨Or.inr ⟨a, rfl, ?_⟩, ?_⟩
    · rw [show s' = (sub s a).1 from by rw [h]]
      unfold sub
      dsimp only
      have hr : ∀ c, (remove { s with date := max s.date a.today } c).date = max s.date a.today := by
        intro c; unfold remove; split <;> rfl
      split
      · rfl
      · split
        · split <;> split <;> first | exact hr _ | rfl
        · split <;> rfl
    · rw [show s' = (sub s a).1 from by rw [h]]
      unfold sub
      dsimp only
      have hr : ∀ c, (remove { s with date := max s.date a.today } c).status = s.status := by
        intro c; unfold remove; split <;> rfl
      intro hn
      split
      · exact hn
      · split
        · split <;> split <;> first | (dsimp only; rw [hr]; exact hn) | (rw [hr]; exact hn) | exact hn
        · split <;> exact hn
  | unsub c =>
    cases h
    unfold remove
    split <;> exact ⟨Or.inl rfl, id⟩
  | read c =>
    dsimp only [step] at h
    unfold read at h
    split at h
    · cases h; exact ⟨Or.inl rfl, id⟩
    · simp only [Option.map_eq_some_iff, Prod.mk.injEq] at h
      obtain ⟨x, _, rfl, _⟩ := h
      exact ⟨Or.inl rfl, id⟩
  | shed =>
    cases h
    unfold shed
    split <;> exact ⟨Or.inl rfl, id⟩

theorem brings_none {v : Ev} {o : List Out} (hp : isPub v = false) (h : ∀ k t qs, .coded k t qs ∉ o) : brings v o = [] := by
  have hf : o.flatMap codedOf = [] := by
    rw [List.flatMap_eq_nil_iff]
    intro x hx
    cases x with
    | coded k t qs => exact absurd hx (h k t qs)
    | answer _ => rfl
    | send _ _ _ => rfl
  cases v <;> first | exact hf | cases hp

theorem ev_facts {e : Env} {w w' : W} {v : Ev} {o : List Out} (hg : Good .weak 0 w.s) (h1 : isStart v = false) (h2 : isStop v = false)
    (h : actStep e w (.ev v) = some (w', o)) :
    ∃ s', w' = { w with s := s' } ∧ Good .weak 0 s' ∧ s'.out = w.s.out ++ brings v o ∧ s'.keys = keysOf w.s v ∧ s'.sdbs = sdbsOf e w.s v ∧
      (s'.date = w.s.date ∨ ∃ a, v = .sub a ∧ s'.date = max w.s.date a.today) ∧ (w.s.status ≠ .none → s'.status ≠ .none) ∧
      (isPub v = false → w.s.dict = none → s'.dict = none ∧ brings v o = []) := by
  have key : ∀ s', step e w.s v = some (s', o) → Good .weak 0 s' ∧ s'.out = w.s.out ++ brings v o ∧ s'.keys = keysOf w.s v ∧ s'.sdbs = sdbsOf e w.s v ∧
      (s'.date = w.s.date ∨ ∃ a, v = .sub a ∧ s'.date = max w.s.date a.today) ∧ (w.s.status ≠ .none → s'.status ≠ .none) ∧
      (isPub v = false → w.s.dict = none → s'.dict = none ∧ brings v o = []) := by
    intro s' hs
    obtain ⟨t1, t2⟩ := texts_step hg hs
    obtain ⟨d1, d2⟩ := date_step hg hs h1
    refine ⟨good_step (fun h => by cases h) hg hs (fun h => by cases h), stream_step hg hs h1, t1, t2, d1, d2, fun hp hd => ?_⟩
    obtain ⟨g1, g2⟩ := dict_step hg hs
    refine ⟨?_, brings_none hp fun k t qs hm => ?_⟩
    · rcases g1 with g1 | g1 | ⟨⟨k, t, x, rfl⟩, _⟩
      · rw [g1, hd]
      · exact g1
      · cases hp
    · have := g2 k t qs hm
      rw [hd] at this
      cases this
  have gen : (step e w.s v).map (fun x => ({ w with s := x.1 }, x.2)) = some (w', o) → ∃ s', w' = { w with s := s' } ∧ step e w.s v = some (s', o) := by
    intro h
    simp only [Option.map_eq_some_iff, Prod.mk.injEq] at h
    obtain ⟨⟨s', o'⟩, hs, rfl, rfl⟩ := h
    exact ⟨s', rfl, hs⟩
  have fin : (step e w.s v).map (fun x => ({ w with s := x.1 }, x.2)) = some (w', o) → ∃ s', w' = { w with s := s' } ∧ Good .weak 0 s' ∧ s'.out = w.s.out ++ brings v o ∧
      s'.keys = keysOf w.s v ∧ s'.sdbs = sdbsOf e w.s v ∧
      (s'.date = w.s.date ∨ ∃ a, v = .sub a ∧ s'.date = max w.s.date a.today) ∧ (w.s.status ≠ .none → s'.status ≠ .none) ∧
      (isPub v = false → w.s.dict = none → s'.dict = none ∧ brings v o = []) := by
    intro h
    obtain ⟨s', e1, e2⟩ := gen h
    exact ⟨s', e1, key s' e2⟩
  cases v with
  | start d => cases h1
  | stop l => cases h2
  | shed =>
    have same : some (w, ([] : List Out)) = some (w', o) → ∃ s', w' = { w with s := s' } ∧ Good .weak 0 s' ∧ s'.out = w.s.out ++ brings .shed o ∧ s'.keys = keysOf w.s .shed ∧
        s'.sdbs = sdbsOf e w.s .shed ∧ (s'.date = w.s.date ∨ ∃ a, Ev.shed = .sub a ∧ s'.date = max w.s.date a.today) ∧ (w.s.status ≠ .none → s'.status ≠ .none) ∧
        (isPub .shed = false → w.s.dict = none → s'.dict = none ∧ brings .shed o = []) := by
      intro h
      cases h
      exact ⟨w.s, rfl, hg, by simp [brings], rfl, rfl, Or.inl rfl, id, fun _ hd => ⟨hd, rfl⟩⟩
    dsimp only [actStep] at h
    split at h
    · split at h
      · exact fin h
      · exact same h
    · exact fin h
  | keys x => exact fin h
  | sdbs x => exact fin h
  | pub k t d => exact fin h
  | zpub p => exact fin h
  | pack ps => exact fin h
  | sub a => exact fin h
  | unsub c => exact fin h
  | read c => exact fin h

/-! During a day -/

/-- What the thread of the log has done when it has seen `seen` of the day. -/
def LogIs (d : Nat) (K T : Bytes) (logs0 : Nat → Option (List Rec)) (w : W) (seen : List Bytes) : Prop :=
  w.begun = w.winit ∧ w.winit = decide (fromBlock seen ≠ []) ∧ w.flog = (if fromBlock seen = [] then none else some d) ∧
  w.logs = if fromBlock seen = [] then logs0 else setDay logs0 d (some ((logs0 d).getD [] ++ record K T seen))

theorem logOne_is {d : Nat} {K T : Bytes} {logs0 : Nat → Option (List Rec)} {w w' : W} {seen : List Bytes} {p : Bytes}
    (hd : w.s.date = d) (hk : w.s.keys = .val K) (ht : w.s.sdbs = .val T) (h : LogIs d K T logs0 w seen) (hl : logOne w p = some w') :
    LogIs d K T logs0 w' (seen ++ [p]) ∧ w'.s = w.s ∧ w'.files = w.files ∧ w'.wdate = w.wdate := by
  obtain ⟨h1, h2, h3, h4⟩ := h
  by_cases hs : fromBlock seen = []
  · rw [if_pos hs] at h3 h4
    have hw : w.winit = false := by rw [h2]; simp [hs]
    have hb : w.begun = false := by rw [h1, hw]
    unfold logOne at hl
    cases hp : starts p with
    | false =>
      rw [starts_begins, hp, hb] at hl
      simp only [Bool.not_false, Bool.and_self, if_true, Option.some.injEq] at hl
      subst hl
      have hn : fromBlock (seen ++ [p]) = [] := by rw [fromBlock_append, if_pos hs]; simp [fromBlock, hp]
      exact ⟨⟨h1, by rw [hw]; simp [hn], by rw [if_pos hn]; exact h3, by rw [if_pos hn]; exact h4⟩, rfl, rfl, rfl⟩
    | true =>
      rw [starts_begins, hp, hb] at hl
      simp only [Bool.not_false, Bool.not_true, Bool.and_false, Bool.false_eq_true, if_false, hw, hk, ht, Option.some.injEq] at hl
      have hn : fromBlock (seen ++ [p]) = [p] := by rw [fromBlock_append, if_pos hs]; simp [fromBlock, hp]
      have hr : record K T (seen ++ [p]) = [.keys K, .sdbs T, .zpub p] := by unfold record; rw [hn]; simp
      have hf : openLog { w with begun := true, winit := false } w.s.date = { w with begun := true, winit := false, flog := some d, logs := setDay w.logs d (some ((w.logs d).getD [])) } := by
        unfold openLog
        simp only [h3, hd]
      rw [hf] at hl
      subst hl
      refine ⟨⟨rfl, by simp [writeLog, hn], by simp [writeLog, hn], ?_⟩, rfl, rfl, rfl⟩
      rw [if_neg (by rw [hn]; simp), hr]
      simp only [writeLog, setDay_same, Option.map_some, setDay_setDay, h4]
      simp
  · rw [if_neg hs] at h3 h4
    have hw : w.winit = true := by rw [h2]; simp [hs]
    have hb : w.begun = true := by rw [h1, hw]
    unfold logOne at hl
    rw [hb] at hl
    simp only [Bool.not_true, Bool.false_and, Bool.false_eq_true, if_false, hw, if_true, Option.some.injEq] at hl
    have hn : fromBlock (seen ++ [p]) = fromBlock seen ++ [p] := by rw [fromBlock_append, if_neg hs]
    have hne : fromBlock (seen ++ [p]) ≠ [] := by rw [hn]; simp
    have hr : record K T (seen ++ [p]) = record K T seen ++ [.zpub p] := by
      unfold record
      rw [if_neg hne, if_neg hs, hn]
      simp
    subst hl
    unfold writeLog
    simp only [h3]
    refine ⟨⟨by simp, by simp [hne], by simp [hne], ?_⟩, by simp, by simp, by simp⟩
    rw [if_neg hne, hr]
    simp only [h4, setDay_same, Option.map_some, setDay_setDay, List.append_assoc]

/-- During day `d`, of which the list had `B` packets before. -/
structure InDay (d B : Nat) (K T : Bytes) (logs0 files0 : Nat → Option (List Rec)) (w : W) : Prop where
  good : Good .weak 0 w.s
  date : w.s.date = d
  keys : w.s.keys = .val K
  sdbs : w.s.sdbs = .val T
  alive : w.s.status ≠ .none
  files : w.files = files0
  wdate : w.wdate = d
  log : ∃ k, w.place = .pos k ∧ B ≤ k ∧ k ≤ w.s.out.length ∧ LogIs d K T logs0 w ((w.s.out.take k).drop B)

theorem act_run_cons {e : Env} {w w' : W} {a : Act} {as : List Act} {outs : List (List Out)} :
    actRun e w (a :: as) = some (w', outs) ↔ ∃ w1 o os, actStep e w a = some (w1, o) ∧ actRun e w1 as = some (w', os) ∧ outs = o :: os := by
  constructor
  · intro h
    simp only [actRun, Option.bind_eq_some_iff, Option.map_eq_some_iff, Prod.mk.injEq] at h
    obtain ⟨⟨s1, o⟩, h1, ⟨s2, os⟩, h2, rfl, rfl⟩ := h
    exact ⟨s1, o, os, h1, h2, rfl⟩
  · rintro ⟨s1, o, os, h1, h2, rfl⟩
    simp [actRun, h1, h2]

theorem act_run_append {e : Env} {a b : List Act} : ∀ {w w' : W} {outs : List (List Out)},
    actRun e w (a ++ b) = some (w', outs) ↔ ∃ w1 o1 o2, actRun e w a = some (w1, o1) ∧ actRun e w1 b = some (w', o2) ∧ outs = o1 ++ o2 := by
  induction a with
  | nil =>
    intro s s' outs
    constructor
    · intro h; exact ⟨s, [], outs, rfl, h, rfl⟩
    · rintro ⟨s1, o1, o2, h1, h2, rfl⟩
      cases h1
      exact h2
  | cons v a ih =>
    intro s s' outs
    rw [List.cons_append, act_run_cons]
    constructor
    · rintro ⟨s1, o, os, h1, h2, rfl⟩
      obtain ⟨s2, o1, o2, h3, h4, rfl⟩ := ih.1 h2
      exact ⟨s2, o :: o1, o2, act_run_cons.2 ⟨s1, o, o1, h1, h3, rfl⟩, h4, rfl⟩
    · rintro ⟨s2, o1, o2, h1, h2, rfl⟩
      obtain ⟨s1, o, os, h3, h4, rfl⟩ := act_run_cons.1 h1
      exact ⟨s1, o, os ++ o2, h3, ih.2 ⟨s2, os, o2, h4, h2, rfl⟩, rfl⟩

theorem act_step_log {e : Env} {w w' : W} {o : List Out} (h : actStep e w .log = some (w', o)) : logStep w = some w' ∧ o = [] := by
  simp only [actStep, Option.map_eq_some_iff, Prod.mk.injEq] at h
  obtain ⟨w1, h1, rfl, rfl⟩ := h
  exact ⟨h1, rfl⟩

theorem logStep_in {d B : Nat} {K T : Bytes} {logs0 files0 : Nat → Option (List Rec)} {w w' : W} (h : InDay d B K T logs0 files0 w) (hs : logStep w = some w') :
    InDay d B K T logs0 files0 w' ∧ w'.s = w.s ∧
      ∀ k, w.place = .pos k → w'.place = .pos (if k < w.s.out.length then k + 1 else k) := by
  obtain ⟨k, hp, hB, hk, hl⟩ := h.log
  unfold logStep at hs
  rw [hp] at hs
  dsimp only at hs
  cases hg : w.s.out[k]? with
  | none =>
    rw [hg] at hs
    cases hs
    have := List.getElem?_eq_none_iff.1 hg
    refine ⟨h, rfl, fun j hj => ?_⟩
    rw [hp] at hj
    cases hj
    rw [hp, if_neg (by omega)]
  | some p =>
    rw [hg] at hs
    simp only [Option.map_eq_some_iff] at hs
    obtain ⟨w1, h1, rfl⟩ := hs
    obtain ⟨g1, g2, g3, g4⟩ := logOne_is h.date h.keys h.sdbs hl h1
    have hlt := (List.getElem?_eq_some_iff.1 hg).1
    refine ⟨⟨?_, ?_, ?_, ?_, ?_, g3.trans h.files, g4.trans h.wdate, k + 1, rfl, by omega, ?_, ?_⟩, g2, fun j hj => ?_⟩
    · show Good .weak 0 w1.s; rw [g2]; exact h.good
    · show w1.s.date = d; rw [g2]; exact h.date
    · show w1.s.keys = _; rw [g2]; exact h.keys
    · show w1.s.sdbs = _; rw [g2]; exact h.sdbs
    · show w1.s.status ≠ _; rw [g2]; exact h.alive
    · show k + 1 ≤ w1.s.out.length; rw [g2]; omega
    · show LogIs d K T logs0 _ ((w1.s.out.take (k + 1)).drop B)
      rw [g2, take_drop_succ hg hB]
      exact g1
    · rw [hp] at hj
      cases hj
      rw [if_pos hlt]

theorem during_step {e : Env} {d B : Nat} {K T : Bytes} {logs0 files0 : Nat → Option (List Rec)} {w w' : W} {a : Act} {o : List Out} (h : InDay d B K T logs0 files0 w)
    (ha : during d a = true) (hs : actStep e w a = some (w', o)) :
    InDay d B K T logs0 files0 w' ∧ w'.s.out = w.s.out ++ actStream [a] [o] := by
  cases a with
  | crash n t => cases ha
  | log =>
    obtain ⟨h1, rfl⟩ := act_step_log hs
    obtain ⟨g1, g2, _⟩ := logStep_in h h1
    exact ⟨g1, by rw [g2]; simp [actStream]⟩
  | ev v =>
    have hst : isStart v = false := by cases v <;> first | rfl | cases ha
    have hsp : isStop v = false := by cases v <;> first | rfl | cases ha
    obtain ⟨s', rfl, f1, f2, f3, f4, f5, f6, _⟩ := ev_facts h.good hst hsp hs
    have hk : keysOf w.s v = w.s.keys := by cases v <;> first | rfl | cases ha
    have ht : sdbsOf e w.s v = w.s.sdbs := by cases v <;> first | rfl | cases ha
    obtain ⟨k, hp, hB, hk2, hl⟩ := h.log
    refine ⟨⟨f1, ?_, f3.trans (hk.trans h.keys), f4.trans (ht.trans h.sdbs), f6 h.alive, h.files, h.wdate, k, hp, hB, ?_, ?_⟩, ?_⟩
    · rcases f5 with f5 | ⟨a, rfl, f5⟩
      · exact f5.trans h.date
      · have : a.today ≤ d := by simpa [during] using ha
        show s'.date = d
        rw [f5, h.date]
        omega
    · show k ≤ s'.out.length
      rw [f2, List.length_append]; omega
    · show LogIs d K T logs0 _ ((s'.out.take k).drop B)
      rw [f2, List.take_append_of_le_length hk2]
      exact hl
    · show s'.out = _
      rw [f2]
      simp [actStream]

theorem during_run {e : Env} {d B : Nat} {K T : Bytes} {logs0 files0 : Nat → Option (List Rec)} {as : List Act} : ∀ {w w' : W} {os : List (List Out)}, InDay d B K T logs0 files0 w →
    (∀ a ∈ as, during d a = true) → actRun e w as = some (w', os) → InDay d B K T logs0 files0 w' ∧ w'.s.out = w.s.out ++ actStream as os := by
  induction as with
  | nil => intro w w' os h _ hr; cases hr; exact ⟨h, by simp [actStream]⟩
  | cons a as ih =>
    intro w w' os h ha hr
    obtain ⟨w1, o, os1, h1, h2, rfl⟩ := act_run_cons.1 hr
    obtain ⟨g1, g2⟩ := during_step h (ha a (by simp)) h1
    obtain ⟨i1, i2⟩ := ih g1 (fun a h => ha a (by simp [h])) h2
    refine ⟨i1, ?_⟩
    rw [i2, g2]
    simp [actStream]

/-- The thread of the log has time. -/
theorem drain_log {e : Env} {d B : Nat} {K T : Bytes} {logs0 files0 : Nat → Option (List Rec)} (n : Nat) : ∀ {w w' : W} {os : List (List Out)} {k : Nat}, InDay d B K T logs0 files0 w →
    w.place = .pos k → w.s.out.length ≤ k + n → actRun e w (List.replicate n .log) = some (w', os) →
    InDay d B K T logs0 files0 w' ∧ w'.s = w.s ∧ w'.place = .pos w.s.out.length := by
  induction n with
  | zero =>
    intro w w' os k h hp hn hr
    cases hr
    obtain ⟨j, hj, _, hj2, _⟩ := h.log
    rw [hp] at hj
    cases hj
    refine ⟨h, rfl, ?_⟩
    rw [hp]
    congr 1
    omega
  | succ n ih =>
    intro w w' os k h hp hn hr
    rw [List.replicate_succ] at hr
    obtain ⟨w1, o, os1, h1, h2, rfl⟩ := act_run_cons.1 hr
    obtain ⟨h3, rfl⟩ := act_step_log h1
    obtain ⟨g1, g2, g3⟩ := logStep_in h h3
    have g4 := g3 k hp
    obtain ⟨i1, i2, i3⟩ := ih g1 g4 (by rw [g2]; split <;> omega) h2
    exact ⟨i1, i2.trans g2, by rw [i3, g2]⟩

end Sis.Snodb
