import Verif.Sync.TasksLemmas
/-
C120: the list of tasks with a thread of its own runs every task once, in the order they were added, one at a time;
waiting for it returns when all are done; it can be made and destroyed.
-/
namespace Sis.Wt

private theorem run_hist {rf : Bool} {es : List Ev} : ∀ {h h' : List (Ev × Out)} {s s' : W}, Hist rf h s →
    run rf s es = some (s', h') → Hist rf (h ++ h') s' := by
  induction es with
  | nil => intro h h' s s' H hr; simp only [run, Option.some.injEq, Prod.mk.injEq] at hr; obtain ⟨rfl, rfl⟩ := hr; simpa using H
  | cons e es ih =>
    intro h h' s s' H hr
    simp only [run] at hr
    split at hr
    · next he =>
      cases hs : step rf s e with
      | none => rw [hs] at hr; cases hr
      | some x =>
        obtain ⟨s1, o⟩ := x
        rw [hs] at hr
        simp only [Option.bind_some] at hr
        cases h2 : run rf s1 es with
        | none => rw [h2] at hr; cases hr
        | some y =>
          obtain ⟨s2, h2'⟩ := y
          rw [h2] at hr
          simp only [Option.map_some, Option.some.injEq, Prod.mk.injEq] at hr
          obtain ⟨rfl, rfl⟩ := hr
          have := ih (Hist.snoc H he hs) h2
          simpa using this
    · cases hr

private theorem run_of {rf : Bool} {es : List Ev} {s' : W} {h' : List (Ev × Out)} (hr : run rf create es = some (s', h')) :
    Hist rf h' s' := by
  have := run_hist (h := []) .nil hr
  simpa using this

/-- C120: whatever the callers do and whenever the thread runs, as long as the list is not destroyed and nothing happens
before it is there, no task is used after it was freed and no lock that is not there. -/
theorem C120_defined_partial {rf : Bool} {h : List (Ev × Out)} {s : W} (H : Hist rf h s) (hp : Plain h) (hn : h ≠ [])
    {e : Ev} (he : enabled s e = true) (hd : e ≠ .destroy) : (step rf s e).isSome := by
  rcases hist_ok H hp with ⟨rfl, -⟩ | ⟨d, m, v⟩
  · exact absurd rfl hn
  · have hr : e ≠ .ready := by
      rintro rfl
      simp only [enabled, v.inv.ready] at he
      cases he
    obtain ⟨s1, o1, d1, m1, e1, -⟩ := step_ok v e he hd hr
    rw [e1]; rfl

/-- C120: the tasks begin in the order they were added, each once; and each ends before the next begins. -/
theorem C120_order_partial {rf : Bool} {h : List (Ev × Out)} {s : W} (H : Hist rf h s) (hp : Plain h) :
    began h <+: added h ∧ ended h <+: began h ∧ (began h).length ≤ (ended h).length + 1 := by
  rcases hist_ok H hp with ⟨rfl, -⟩ | ⟨d, m, v⟩
  · exact ⟨⟨[], rfl⟩, ⟨[], rfl⟩, Nat.zero_le _⟩
  · have hb : bz s.pc ≤ 1 := by cases s.pc <;> simp [bz]
    refine ⟨by rw [v.began]; exact List.take_prefix _ _, ?_, ?_⟩
    · rw [v.began, v.ended]
      exact List.take_prefix_take_left (by omega)
    · rw [v.began, v.ended]
      simp only [List.length_take]; omega

private theorem calls_len (h : List (Ev × Out)) : (calls h).length = waitings h := by
  induction h using List.reverseRecOn with
  | nil => rfl
  | append_singleton l x ih =>
    obtain ⟨e, o⟩ := x
    rw [calls_snoc]
    simp only [List.length_append, ih, waitings, List.filter_append]
    by_cases hw : e = .wait
    · simp [hw]
    · simp [hw]

private theorem calls_prefix (h g : List (Ev × Out)) : calls h <+: calls (h ++ g) := by
  induction g using List.reverseRecOn with
  | nil => simp
  | append_singleton l x ih =>
    rw [← List.append_assoc, calls_snoc]
    exact ih.trans (List.prefix_append _ _)

/-- C120: when a call of `sis_worker_tasks_wait` returns, every task that was added before the call has ended — if
`wnums` is read before `rnums`. -/
theorem C120_wait_partial {h h1 h2 : List (Ev × Out)} {s : W} {o : Out} {e : Ev} (H : Hist false (h ++ [(e, .returned (waitings h1))]) s)
    (hh : h = h1 ++ (.wait, o) :: h2) (hp : Plain h) (he : e ≠ .destroy) : added h1 <+: ended h := by
  generalize hg : h ++ [(e, .returned (waitings h1))] = g at H
  cases H with
  | nil => simp at hg
  | @snoc h0 s0 _ e0 o0 H0 he0 hs0 =>
    obtain ⟨rfl, hx⟩ := List.append_inj' hg rfl
    simp only [List.cons.injEq, Prod.mk.injEq, and_true] at hx
    obtain ⟨rfl, rfl⟩ := hx
    rcases hist_ok H0 hp with ⟨rfl, -⟩ | ⟨d, m, v⟩
    · simp at hh
    · have hr : e ≠ .ready := by
        rintro rfl
        simp only [enabled, v.inv.ready] at he0
        cases he0
      obtain ⟨s1, o1, d1, m1, e1, v1, hret⟩ := step_ok v e he0 he hr
      rw [e1] at hs0
      cases hs0
      obtain ⟨rfl, hdone⟩ := hret _ rfl
      have hc : (calls (h ++ [(.look (waitings h1), .returned (waitings h1))]))[waitings h1]? = some (added h1).length := by
        have h3 : calls (h1 ++ [(.wait, o)]) <+: calls (h ++ [(.look (waitings h1), .returned (waitings h1))]) := by
          have := calls_prefix (h1 ++ [(.wait, o)]) (h2 ++ [(.look (waitings h1), .returned (waitings h1))])
          rw [hh]
          simpa using this
        obtain ⟨w, hw⟩ := h3
        rw [← hw, calls_snoc, if_pos rfl, ← calls_len h1]
        simp
      have hok := v1.waits.ok _ _ _ hc hdone rfl
      have hend : ended h = ended (h ++ [(.look (waitings h1), .returned (waitings h1))]) := by
        rw [ended_snoc]; simp [ends]
      rw [hend, v1.ended]
      have hpre : added h1 <+: added (h ++ [(.look (waitings h1), .returned (waitings h1))]) := by
        rw [hh]
        refine ⟨added ((.wait, o) :: h2 ++ [(.look (waitings h1), .returned (waitings h1))]), ?_⟩
        simp [added]
      rw [List.prefix_iff_eq_take.1 hpre]
      exact List.take_prefix_take_left hok

private theorem drains {rf : Bool} : ∀ (k : Nat) {h : List (Ev × Out)} {s : W} {d m : Nat}, Ok rf h s d m →
    8 * ((added h).length - d) + rank s.pc ≤ k → ∃ n s' h', run rf s (List.replicate n .work) = some (s', h') ∧
    ended h ++ ended h' = added h := by
  intro k
  induction k with
  | zero =>
    intro h s d m v hk
    have := v.inv.dm
    have := v.inv.mn
    refine ⟨0, s, [], rfl, ?_⟩
    rw [v.ended, List.take_of_length_le (by omega)]
    simp [ended]
  | succ k ih =>
    intro h s d m v hk
    by_cases hd : d < (added h).length
    · obtain ⟨s1, o1, d1, m1, e1, i1, hm, hd1, e2, e3, w1, nr, hlt⟩ := work_inv v.inv
      have he : enabled s .work = true := by
        simp only [enabled]
        have := v.inv.pc
        unfold PcOk at this
        cases hpc : s.pc <;> rw [hpc] at this <;> first | rfl | exact this.elim
      have hadd : added (h ++ [(.work, o1)]) = added h := by rw [added_snoc]; simp [adds]
      have v1 : Ok rf (h ++ [(.work, o1)]) s1 d1 m1 := by
        obtain ⟨s2, o2, d2, m2, f1, f2, -⟩ := step_ok v .work he nofun nofun
        refine ⟨by rw [hadd]; exact i1, ?_, ?_, ?_⟩
        · rw [hadd, ended_snoc, v.ended, e2]
        · rw [hadd, began_snoc, v.began, e3]
        · rw [hadd, calls_snoc, w1]
          simp only [reduceCtorEq, if_false, List.append_nil]
          exact waits_mono v.waits (Nat.le_refl _) hm hd1
      obtain ⟨n, s', h', r1, r2⟩ := ih v1 (by rw [hadd]; have := hlt hd; omega)
      refine ⟨n + 1, s', (.work, o1) :: h', ?_, ?_⟩
      · have : List.replicate (n + 1) Ev.work = .work :: List.replicate n .work := rfl
        rw [this]
        have hs : step rf s .work = some (s1, o1) := e1
        simp only [run, he, if_true, hs, Option.bind_some, r1, Option.map_some]
      · rw [hadd, ended_snoc] at r2
        rw [← r2]
        simp [ended]
    · refine ⟨0, s, [], rfl, ?_⟩
      rw [v.ended, List.take_of_length_le (by omega)]
      simp [ended]

/-- C120: nothing stays behind: from wherever the thread and the callers are, the thread alone runs every task that was
added and has not ended yet, in the order they were added. -/
theorem C120_drains_partial {rf : Bool} {h : List (Ev × Out)} {s : W} (H : Hist rf h s) (hp : Plain h) :
    ∃ n s' h', run rf s (List.replicate n .work) = some (s', h') ∧ ended h ++ ended h' = added h := by
  rcases hist_ok H hp with ⟨rfl, rfl⟩ | ⟨d, m, v⟩
  · exact ⟨0, create, [], rfl, rfl⟩
  · exact drains _ v (Nat.le_refl _)

/-- C120: a list whose tasks have all ended and whose thread sleeps can be destroyed, if the thread does not wake up
before it is told to end: nothing is used that was freed, no task is dropped and none stays in memory. -/
theorem C120_destroy_partial {rf : Bool} {h : List (Ev × Out)} {s : W} (H : Hist rf h s) (hp : Plain h) (hn : h ≠ [])
    (hs : s.pc = .asleep) (he : ended h = added h) : ∃ s' h', run rf s
      [.destroy, .destroy, .destroy, .destroy, .destroy, .work, .work, .destroy] = some (s', h') ∧
    h'.map Prod.snd = [.unit, .unit, .unit, .dropped [], .unit, .unit, .unit, .destroyed] ∧
    (∀ a, load s'.heap a = none) ∧ s'.pc = .stopped := by
  rcases hist_ok H hp with ⟨rfl, -⟩ | ⟨d, m, v⟩
  · exact absurd rfl hn
  · obtain ⟨iv, ve, -, -⟩ := v
    have hpc := iv.pc
    unfold PcOk at hpc
    rw [hs] at hpc
    obtain ⟨h1, h2, h3⟩ := hpc
    have hd : d = (added h).length := by
      have hl := congrArg List.length (ve.symm.trans he)
      have := iv.dm
      have := iv.mn
      simp only [List.length_take] at hl
      omega
    have hw : s.wnums = 0 := by rw [iv.wnums]; omega
    have hwh : s.whead = none := by rw [iv.whead, if_neg (by omega)]
    have hheld : s.held = false := by
      cases hh : s.held with
      | false => rfl
      | true => have := iv.held hh; rw [hs] at this; cases this
    have hall : ∀ a, load s.heap a = none := by
      intro a
      by_cases ha : a < d
      · exact iv.low a ha
      · have := iv.len
        simp [load, List.getElem?_eq_none (show s.heap.length ≤ a by omega)]
    have hst := iv.status
    have hdst := iv.dst
    have hrd := iv.ready
    obtain ⟨heap, ready, held, status, wnums, rnums, whead, wtail, rhead, pc, waits, dst⟩ := s
    simp only at *
    subst hs h2 h3 hw hwh hheld hst hdst hrd
    have hf : ∀ k l, freeAll k l none = some (l, []) := by
      intro k l
      cases k <;> rfl
    refine ⟨⟨heap, true, false, .none, 0, 0, none, wtail, none, .stopped, waits, .gone⟩,
      [(.destroy, .unit), (.destroy, .unit), (.destroy, .unit), (.destroy, .dropped []), (.destroy, .unit), (.work, .unit),
       (.work, .unit), (.destroy, .destroyed)], ?_, rfl, hall, rfl⟩
    cases rf <;> simp [run, enabled, step, destroy, work, look, hf]

/-! ### Where it fails -/

/-- C120 fails: with `rnums` read first, `sis_worker_tasks_wait` returns although a task that was added before has not
even begun. -/
theorem C120_violated_wait : ∃ h h1 h2 o e s, Hist true (h ++ [(e, .returned (waitings h1))]) s ∧
    h = h1 ++ (.wait, o) :: h2 ∧ Plain h ∧ e ≠ .destroy ∧ added h1 = [7] ∧ began h = [] := by
  refine ⟨[(.ready, .unit), (.add 7, .unit), (.wait, .unit), (.work, .unit), (.look 0, .unit), (.work, .unit), (.work, .unit)],
    [(.ready, .unit), (.add 7, .unit)], [(.work, .unit), (.look 0, .unit), (.work, .unit), (.work, .unit)], .unit, .look 0, _,
    run_of (es := [.ready, .add 7, .wait, .work, .look 0, .work, .work, .look 0]) (by rfl), rfl, ⟨?_, ?_⟩, nofun, rfl, rfl⟩
  · rintro x h' hx; cases hx; rfl
  · decide

/-- C120 fails: destroying the list when the last task has ended, but before the thread has taken note of it, uses the
task that was freed. -/
theorem C120_violated_walk : ∃ h s, Hist false h s ∧ ended h = added h ∧ added h = [7] ∧ enabled s .destroy = true ∧
    step false s .destroy = none := by
  refine ⟨_, _, run_of (es := [.ready, .add 7, .work, .work, .work, .work, .work, .destroy, .destroy, .destroy]) rfl, ?_⟩
  decide +kernel

/-- C120 fails: a thread that wakes up while the list is destroyed takes the lock that is gone. -/
theorem C120_violated_lock : ∃ h s, Hist false h s ∧ added h = [] ∧ enabled s .work = true ∧
    step false s .work = none := by
  refine ⟨_, _, run_of (es := [.ready, .work, .work, .work, .destroy, .destroy, .destroy, .destroy, .work, .work]) rfl, ?_⟩
  decide +kernel

/-- C120 fails: with `rnums` read first, a list is destroyed under a task that runs: the task is dropped although it has
begun, and freed twice. -/
theorem C120_violated_busy : ∃ h s, Hist true h s ∧ began h = [7] ∧ (∃ e, (e, .dropped [7]) ∈ h) ∧
    enabled s .work = true ∧ step true s .work = none := by
  refine ⟨_, _, run_of (es := [.ready, .add 7, .work, .destroy, .destroy, .work, .work, .destroy, .work, .destroy]) rfl, ?_⟩
  refine ⟨by decide +kernel, ⟨.destroy, ?_⟩, by decide +kernel, by decide +kernel⟩
  decide +kernel

/-- C120 fails: the thread of a new list may take the lock before it is made. -/
theorem C120_violated_create : ∃ h s, Hist false h s ∧ h.map Prod.fst = [.work] ∧ enabled s .work = true ∧
    step false s .work = none := by
  refine ⟨_, _, run_of (es := [.work]) rfl, ?_⟩
  decide +kernel

/-! ### The hypotheses hold in cases that matter -/

/-- Two tasks, a caller that waits, a third task added meanwhile; the call returns when the first two have ended. -/
example : ∃ h h1 h2 o e s, Hist false (h ++ [(e, .returned (waitings h1))]) s ∧ h = h1 ++ (.wait, o) :: h2 ∧ Plain h ∧
    e ≠ .destroy ∧ added h1 = [7, 8] ∧ added h = [7, 8, 9] ∧ ended h = [7, 8, 9] := by
  refine ⟨[(.ready, .unit), (.add 7, .unit), (.add 8, .unit), (.wait, .unit), (.work, .unit), (.work, .unit), (.work, .unit),
      (.work, .began 7), (.add 9, .unit), (.work, .ended 7), (.work, .began 8), (.work, .ended 8), (.work, .unit), (.work, .unit),
      (.work, .unit), (.look 0, .unit), (.work, .began 9), (.work, .ended 9)],
    [(.ready, .unit), (.add 7, .unit), (.add 8, .unit)], [(.work, .unit), (.work, .unit), (.work, .unit),
      (.work, .began 7), (.add 9, .unit), (.work, .ended 7), (.work, .began 8), (.work, .ended 8), (.work, .unit), (.work, .unit),
      (.work, .unit), (.look 0, .unit), (.work, .began 9), (.work, .ended 9)], .unit, .look 0, _,
    run_of (es := [.ready, .add 7, .add 8, .wait, .work, .work, .work, .work, .add 9, .work, .work, .work, .work, .work, .work,
      .look 0, .work, .work, .look 0]) (by rfl), rfl, ⟨?_, ?_⟩, nofun, rfl, rfl, rfl⟩
  · rintro x h' hx; cases hx; rfl
  · decide

/-- A list that ran a task and sleeps again. -/
example : ∃ h s, Hist true h s ∧ Plain h ∧ h ≠ [] ∧ s.pc = .asleep ∧ ended h = added h ∧ added h = [7] := by
  refine ⟨_, _, run_of (es := [.ready, .add 7, .work, .work, .work, .work, .work, .work, .work, .work]) rfl, ⟨?_, ?_⟩,
    ?_, ?_, ?_, ?_⟩
  · rintro x h' hx; cases hx; rfl
  · decide +kernel
  · exact nofun
  · decide +kernel
  · decide +kernel
  · decide +kernel

end Sis.Wt
