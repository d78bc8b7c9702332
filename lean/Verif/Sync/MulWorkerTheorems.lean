import Verif.Sync.MulWorkerLemmas
/-
C121: tasks of one name run one after another, each once and in the order they were added, whatever the other threads
do; waiting for the group returns when all are done; destroying it loses nothing.
-/
namespace Sis.Mw

private theorem run_hist {nums : Int} {fails : Nat → Bool} {es : List Ev} : ∀ {h h' : List (Ev × Out)} {s s' : M},
    Hist nums fails h s → run s es = some (s', h') → Hist nums fails (h ++ h') s' := by
  induction es with
  | nil => intro h h' s s' H hr; simp only [run, Option.some.injEq, Prod.mk.injEq] at hr; obtain ⟨rfl, rfl⟩ := hr; simpa using H
  | cons e es ih =>
    intro h h' s s' H hr
    simp only [run] at hr
    split at hr
    · next he =>
      cases hs : step s e with
      | none => rw [hs] at hr; cases hr
      | some x =>
        obtain ⟨s1, o⟩ := x
        rw [hs] at hr
        simp only [Option.bind_some] at hr
        cases h2 : run s1 es with
        | none => rw [h2] at hr; cases hr
        | some y =>
          obtain ⟨s2, h2'⟩ := y
          rw [h2] at hr
          simp only [Option.map_some, Option.some.injEq, Prod.mk.injEq] at hr
          obtain ⟨rfl, rfl⟩ := hr
          have := ih (Hist.snoc H he hs) h2
          simpa using this
    · cases hr

private theorem run_of {nums : Int} {fails : Nat → Bool} {es : List Ev} {s' : M} {h' : List (Ev × Out)}
    (hr : run (create nums fails) es = some (s', h')) : Hist nums fails h' s' := by
  have := run_hist (h := []) .nil hr
  simpa using this

private theorem sum_le {c : Nat} : ∀ {l : List Nat}, (∀ x ∈ l, x ≤ c) → l.sum ≤ c * l.length
  | [], _ => by simp
  | a :: l, h => by
    have := sum_le (l := l) fun x hx => h x (List.mem_cons_of_mem _ hx)
    have := h a List.mem_cons_self
    simp only [List.sum_cons, List.length_cons, Nat.mul_add, Nat.mul_one]
    omega

private theorem between_le (nums : Int) : (between nums 1 64).toNat ≤ 64 ∧ 0 < (between nums 1 64).toNat := by
  unfold between
  split
  · omega
  · split <;> omega

/-- C121: whatever the callers and the threads do, with names of fewer than 2^25 bytes, nothing is used that is not there
and no number overflows. -/
theorem C121_defined_partial {nums : Int} {fails : Nat → Bool} {h : List (Ev × Out)} {s : M} (H : Hist nums fails h s) {e : Ev}
    (he : enabled s e = true) (hk : ∀ n o, e = .add ⟨.name n, o⟩ → n.length < 2 ^ 25) : (step s e).isSome := by
  refine step_def (hist_ok H) he ?_
  rintro ⟨k, o⟩ rfl
  cases k with
  | index i => rfl
  | name n =>
    have h1 := hk n o rfl
    obtain ⟨h2, h3⟩ := between_le nums
    simp only [place, hash]
    rw [if_pos]
    · rfl
    · refine Nat.lt_of_le_of_lt (sum_le (c := 63) ?_) ?_
      · intro x hx
        obtain ⟨b, -, rfl⟩ := List.mem_map.1 hx
        have := Nat.mod_lt b.toNat h3
        omega
      · rw [List.length_map]
        have : (n.takeWhile (· ≠ 0)).length ≤ n.length := List.Sublist.length_le (List.takeWhile_sublist _)
        simp only [Nat.reducePow] at h1 ⊢
        omega

private theorem of_prefix (k : Key) {a b : List Task} (h : a <+: b) : of k a <+: of k b := by
  obtain ⟨r, rfl⟩ := h
  simp [of]

private theorem of_none {n : Nat} {h : List (Ev × Out)} {s : M} (v : Ok n h s) {k : Key} (hk : place n k = none) :
    of k (added h) = [] := by
  refine List.filter_eq_nil_iff.2 fun t ht => ?_
  obtain ⟨i, -, hi⟩ := v.far t ht
  intro hc
  simp only [decide_eq_true_eq] at hc
  rw [hc, hk] at hi
  cases hi

private theorem of_sub {a b : List Task} (h : ∀ t ∈ a, t ∈ b) {k : Key} (hb : of k b = []) : of k a = [] := by
  refine List.filter_eq_nil_iff.2 fun t ht => ?_
  exact List.filter_eq_nil_iff.1 hb t (h t ht)

private theorem ended_began {nums : Int} {fails : Nat → Bool} {h : List (Ev × Out)} {s : M} (H : Hist nums fails h s) :
    ∀ t ∈ ended h, t ∈ began h := by
  induction H with
  | nil => exact nofun
  | @snoc h s s' e o H he hs ih =>
    intro t ht
    rw [ended_snoc] at ht
    rw [began_snoc]
    rcases List.mem_append.1 ht with ht | ht
    · exact List.mem_append_left _ (ih t ht)
    · have v := hist_ok H
      cases o <;> simp only [ends, List.mem_singleton] at ht <;> try exact absurd ht List.not_mem_nil
      subst ht
      cases e with
      | work i =>
        simp only [step] at hs
        cases hth : s.thrs[i]? with
        | none => rw [hth] at hs; cases hs
        | some w =>
          cases w with
          | none => rw [hth] at hs; cases hs
          | some w =>
            rw [hth] at hs
            simp only [Option.map_eq_some_iff] at hs
            obtain ⟨⟨w', o'⟩, hw, hs⟩ := hs
            simp only [Prod.mk.injEq] at hs
            obtain ⟨rfl, rfl⟩ := hs
            obtain ⟨-, f2, -⟩ := (v.thr i _ hth).some_ w rfl
            have hr : t ∈ running w := by
              unfold work at hw
              unfold running
              cases hpc : w.pc with
              | busy x => simp only [hpc] at hw ⊢; cases hw; exact List.mem_singleton.2 rfl
              | top => simp only [hpc] at hw; cases hst : w.status <;> simp only [hst] at hw <;> cases hw
              | check =>
                simp only [hpc] at hw
                cases ht : w.tasks <;> simp only [ht] at hw <;> cases hw
              | got x => simp only [hpc] at hw; cases hw
              | del => simp only [hpc] at hw; cases hw
              | asleep => simp only [hpc] at hw; cases hw
              | stopped => simp only [hpc] at hw; cases hw
            have : t ∈ forThr (between nums 1 64).toNat i (began h) := by rw [f2]; exact List.mem_append_right _ hr
            exact List.mem_append_left _ (List.mem_filter.1 this).1
      | add x =>
        simp only [step, add] at hs
        cases hp : place s.wnums x.key with
        | none => rw [hp] at hs; cases hs
        | some i =>
          rw [hp] at hs
          simp only [Option.bind_some] at hs
          cases hth : s.thrs[i]? with
          | none => rw [hth] at hs; cases hs
          | some w => rw [hth] at hs; cases w <;> cases hs
      | wait => simp only [step] at hs; cases hs
      | look i =>
        simp only [step] at hs
        cases hl : s.waits[i]? with
        | none => rw [hl] at hs; cases hs
        | some l =>
          rw [hl] at hs
          simp only [Option.some.injEq, Prod.mk.injEq] at hs
          have := hs.2
          split at this <;> cases this
      | destroy =>
        simp only [step, destroy] at hs
        cases hd : s.dst with
        | none => rw [hd] at hs; cases hs
        | gone => rw [hd] at hs; cases hs
        | at_ i =>
          rw [hd] at hs
          simp only at hs
          cases hth : s.thrs[i]? with
          | none => rw [hth] at hs; cases hs
          | some w => rw [hth] at hs; cases w <;> cases hs
        | join i =>
          rw [hd] at hs
          simp only at hs
          cases hth : s.thrs[i]? with
          | none => rw [hth] at hs; cases hs
          | some w => rw [hth] at hs; cases w <;> cases hs

private theorem dropped_added {nums : Int} {fails : Nat → Bool} {h : List (Ev × Out)} {s : M} (H : Hist nums fails h s) :
    ∀ t ∈ dropped h, t ∈ added h := by
  induction H with
  | nil => exact nofun
  | @snoc h s s' e o H he hs ih =>
    intro t ht
    rw [dropped_snoc] at ht
    rw [added_snoc]
    refine List.mem_append_left _ ?_
    rcases List.mem_append.1 ht with ht | ht
    · exact ih t ht
    · have v := hist_ok H
      cases o <;> simp only [drops] at ht <;> try exact absurd ht List.not_mem_nil
      rename_i ts
      cases e with
      | work i =>
        simp only [step] at hs
        cases hth : s.thrs[i]? with
        | none => rw [hth] at hs; cases hs
        | some w =>
          cases w with
          | none => rw [hth] at hs; cases hs
          | some w =>
            rw [hth] at hs
            simp only [Option.map_eq_some_iff] at hs
            obtain ⟨⟨w', o'⟩, hw, hs⟩ := hs
            simp only [Prod.mk.injEq] at hs
            obtain ⟨rfl, rfl⟩ := hs
            have hd0 := (v.thr i _ hth).some_ w rfl
            have tv := v.thr i _ hth
            rw [hd0.2.2.2.1] at tv
            have := (work_ok tv hw).2.1
            simp only [drops] at this
            rw [this] at ht
            exact absurd ht List.not_mem_nil
      | add x =>
        simp only [step, add] at hs
        cases hp : place s.wnums x.key with
        | none => rw [hp] at hs; cases hs
        | some i =>
          rw [hp] at hs
          simp only [Option.bind_some] at hs
          cases hth : s.thrs[i]? with
          | none => rw [hth] at hs; cases hs
          | some w => rw [hth] at hs; cases w <;> cases hs
      | wait => simp only [step] at hs; cases hs
      | look i =>
        simp only [step] at hs
        cases hl : s.waits[i]? with
        | none => rw [hl] at hs; cases hs
        | some l =>
          rw [hl] at hs
          simp only [Option.some.injEq, Prod.mk.injEq] at hs
          have := hs.2
          split at this <;> cases this
      | destroy =>
        simp only [step, destroy] at hs
        cases hd : s.dst with
        | none => rw [hd] at hs; cases hs
        | gone => rw [hd] at hs; cases hs
        | at_ i =>
          rw [hd] at hs
          simp only at hs
          cases hth : s.thrs[i]? with
          | none => rw [hth] at hs; cases hs
          | some w => rw [hth] at hs; cases w <;> cases hs
        | join i =>
          obtain ⟨w, hth⟩ := v.join i hd
          rw [hd] at hs
          simp only [hth] at hs
          cases hs
          obtain ⟨f1, f2, f3, f4, f5, f6⟩ := (v.thr i _ hth).some_ w rfl
          simp only [enabled, hd, hth, beq_iff_eq] at he
          have hl : left w = w.tasks := by simp [left, f6 he]
          have : t ∈ forThr (between nums 1 64).toNat i (added h) := by rw [f1, hl]; exact List.mem_append_right _ ht
          exact (List.mem_filter.1 this).1

/-- C121: for every name, under every schedule: the tasks of the name begin in the order they were added, each once, and
each ends before the next of that name begins. -/
theorem C121_order {nums : Int} {fails : Nat → Bool} {h : List (Ev × Out)} {s : M} (H : Hist nums fails h s) (k : Key) :
    of k (began h) <+: of k (added h) ∧ of k (ended h) <+: of k (began h) ∧
    (of k (began h)).length ≤ (of k (ended h)).length + 1 := by
  have v := hist_ok H
  cases hp : place (between nums 1 64).toNat k with
  | none =>
    have h1 := of_none v hp
    have h2 := of_sub v.farb h1
    have h3 := of_sub (ended_began H) h2
    rw [h1, h2, h3]
    exact ⟨⟨[], rfl⟩, ⟨[], rfl⟩, Nat.zero_le _⟩
  | some i =>
    have hi : i < s.thrs.length := by rw [v.len]; exact place_lt v.pos hp
    have tv := v.thr i _ (List.getElem?_eq_getElem hi)
    rw [← forThr_of _ i k (began h) hp, ← forThr_of _ i k (added h) hp, ← forThr_of _ i k (ended h) hp]
    cases hw : s.thrs[i] with
    | none =>
      obtain ⟨f1, f2⟩ := tv.none_ hw
      rw [f2]
      refine ⟨of_prefix k (by rw [f1]; exact List.prefix_append _ _), List.prefix_rfl, Nat.le_succ _⟩
    | some w =>
      obtain ⟨f1, f2, f3, -⟩ := tv.some_ w hw
      refine ⟨of_prefix k ?_, of_prefix k (by rw [f2]; exact List.prefix_append _ _), ?_⟩
      · rw [f1, f2]
        refine (List.prefix_append_right_inj _).2 ?_
        unfold running left
        unfold PcOk at f3
        cases hpc : w.pc with
        | busy t =>
          simp only [hpc] at f3 ⊢
          cases ht : w.tasks with
          | nil => rw [ht] at f3; cases f3
          | cons a l => rw [ht] at f3; cases f3; exact ⟨l, rfl⟩
        | _ => exact List.nil_prefix
      · rw [f2]
        simp only [of, List.filter_append, List.length_append]
        have : (running w).length ≤ 1 := by unfold running; cases w.pc <;> simp
        have := List.length_filter_le (fun t => decide (t.key = k)) (running w)
        omega

private theorem calls_len (h : List (Ev × Out)) : (calls h).length = waitings h := by
  induction h using List.reverseRecOn with
  | nil => rfl
  | append_singleton l x ih =>
    obtain ⟨e, o⟩ := x
    rw [calls_snoc]
    simp only [List.length_append, ih, waitings, List.filter_append]
    by_cases hw : e = .wait
    · simp [hw]
    · simp [hw]

private theorem calls_prefix (h g : List (Ev × Out)) : calls h <+: calls (h ++ g) := by
  induction g using List.reverseRecOn with
  | nil => simp
  | append_singleton l x ih =>
    rw [← List.append_assoc, calls_snoc]
    exact ih.trans (List.prefix_append _ _)

/-- C121: when a call of `sis_mul_worker_cxt_wait` returns, every task that was taken in before the call has ended. -/
theorem C121_wait_partial {nums : Int} {fails : Nat → Bool} {h h1 h2 : List (Ev × Out)} {s : M} {o : Out} {e : Ev}
    (H : Hist nums fails (h ++ [(e, .returned (waitings h1))]) s) (hh : h = h1 ++ (.wait, o) :: h2) (k : Key) :
    of k (added h1) <+: of k (ended h) := by
  generalize hg : h ++ [(e, .returned (waitings h1))] = g at H
  cases H with
  | nil => simp at hg
  | @snoc h0 s0 _ e0 o0 H0 he0 hs0 =>
    obtain ⟨rfl, hx⟩ := List.append_inj' hg rfl
    simp only [List.cons.injEq, Prod.mk.injEq, and_true] at hx
    obtain ⟨rfl, rfl⟩ := hx
    have v := hist_ok H0
    obtain ⟨v1, hret⟩ := ok_step v he0 hs0
    obtain ⟨rfl, hdone⟩ := hret _ rfl
    have hc : (calls (h ++ [(.look (waitings h1), .returned (waitings h1))]))[waitings h1]? = some (added h1) := by
      have h3 : calls (h1 ++ [(.wait, o)]) <+: calls (h ++ [(.look (waitings h1), .returned (waitings h1))]) := by
        have := calls_prefix (h1 ++ [(.wait, o)]) (h2 ++ [(.look (waitings h1), .returned (waitings h1))])
        rw [hh]
        simpa using this
      obtain ⟨w, hw⟩ := h3
      rw [← hw, calls_snoc, if_pos rfl, ← calls_len h1]
      simp
    have hok := v1.look _ _ _ hc hdone
    have hend : ended (h ++ [(.look (waitings h1), .returned (waitings h1))]) = ended h := by
      rw [ended_snoc]; simp [ends]
    rw [hend] at hok
    cases hp : place (between nums 1 64).toNat k with
    | none =>
      have h0 := of_none v hp
      have : of k (added h1) <+: of k (added h) := by
        refine of_prefix k ?_
        rw [hh]
        exact ⟨added ((.wait, o) :: h2), by simp [added]⟩
      rw [h0] at this
      rw [List.prefix_nil.1 this]
      exact List.nil_prefix
    | some i =>
      have := hok i (place_lt v.pos hp)
      rw [← forThr_of _ i k (added h1) hp, ← forThr_of _ i k (ended h) hp]
      exact of_prefix k this

/-- C121: when the group has been destroyed, every task that was taken in has either ended or was dropped, and those of
a name that were dropped are those added last. -/
theorem C121_accounts {nums : Int} {fails : Nat → Bool} {h : List (Ev × Out)} {s : M} {e : Ev}
    (H : Hist nums fails (h ++ [(e, .destroyed)]) s) (k : Key) : of k (added h) = of k (ended h) ++ of k (dropped h) := by
  have v' := hist_ok H
  have hg : s.dst = .gone := by
    generalize hgg : h ++ [(e, Out.destroyed)] = g at H
    cases H with
    | nil => simp at hgg
    | @snoc h0 s0 _ e0 o0 H0 he0 hs0 =>
      obtain ⟨rfl, hx⟩ := List.append_inj' hgg rfl
      simp only [List.cons.injEq, Prod.mk.injEq, and_true] at hx
      obtain ⟨rfl, rfl⟩ := hx
      cases e with
      | work i =>
        simp only [step] at hs0
        cases hth : s0.thrs[i]? with
        | none => rw [hth] at hs0; cases hs0
        | some w =>
          cases w with
          | none => rw [hth] at hs0; cases hs0
          | some w =>
            rw [hth] at hs0
            simp only [Option.map_eq_some_iff] at hs0
            obtain ⟨⟨w', o'⟩, hw, hs⟩ := hs0
            simp only [Prod.mk.injEq] at hs
            obtain ⟨rfl, rfl⟩ := hs
            unfold work at hw
            cases hpc : w.pc with
            | top => simp only [hpc] at hw; cases hst : w.status <;> simp only [hst] at hw <;> cases hw
            | check => simp only [hpc] at hw; cases ht : w.tasks <;> simp only [ht] at hw <;> cases hw
            | busy x => simp only [hpc] at hw; cases hw
            | got x => simp only [hpc] at hw; cases hw
            | del => simp only [hpc] at hw; cases hw
            | asleep => simp only [hpc] at hw; cases hw
            | stopped => simp only [hpc] at hw; cases hw
      | add x =>
        simp only [step, add] at hs0
        cases hp : place s0.wnums x.key with
        | none => rw [hp] at hs0; cases hs0
        | some i =>
          rw [hp] at hs0
          simp only [Option.bind_some] at hs0
          cases hth : s0.thrs[i]? with
          | none => rw [hth] at hs0; cases hs0
          | some w => rw [hth] at hs0; cases w <;> cases hs0
      | wait => simp only [step] at hs0; cases hs0
      | look i =>
        simp only [step] at hs0
        cases hl : s0.waits[i]? with
        | none => rw [hl] at hs0; cases hs0
        | some l =>
          rw [hl] at hs0
          simp only [Option.some.injEq, Prod.mk.injEq] at hs0
          have := hs0.2
          split at this <;> cases this
      | destroy =>
        simp only [step, destroy] at hs0
        cases hd : s0.dst with
        | none => rw [hd] at hs0; cases hs0
        | gone => rw [hd] at hs0; cases hs0
        | at_ i =>
          rw [hd] at hs0
          simp only at hs0
          cases hth : s0.thrs[i]? with
          | none => rw [hth] at hs0; cases hs0; rfl
          | some w => rw [hth] at hs0; cases w <;> cases hs0
        | join i =>
          rw [hd] at hs0
          simp only at hs0
          cases hth : s0.thrs[i]? with
          | none => rw [hth] at hs0; cases hs0
          | some w => rw [hth] at hs0; cases w <;> cases hs0
  have ea : added (h ++ [(e, .destroyed)]) = added h := by
    rw [added_snoc]
    have : takes (e, .destroyed) = [] := by cases e <;> rfl
    rw [this, List.append_nil]
  have ee : ended (h ++ [(e, .destroyed)]) = ended h := by rw [ended_snoc]; simp [ends]
  have ed : dropped (h ++ [(e, .destroyed)]) = dropped h := by rw [dropped_snoc]; simp [drops]
  have key : ∀ i, i < (between nums 1 64).toNat → forThr (between nums 1 64).toNat i (added h) =
      forThr (between nums 1 64).toNat i (ended h) ++ forThr (between nums 1 64).toNat i (dropped h) := by
    intro i hi
    have := (v'.thr i none (v'.whole hg i hi)).none_ rfl
    rw [ea, ee, ed] at this
    exact this.1
  cases hp : place (between nums 1 64).toNat k with
  | some i =>
    have := key i (place_lt v'.pos hp)
    rw [← forThr_of _ i k (added h) hp, this]
    have e1 := forThr_of _ i k (ended h) hp
    have e2 := forThr_of _ i k (dropped h) hp
    rw [← e1, ← e2]
    simp [of]
  | none =>
    have h1 := of_none v' hp
    have h2 := of_sub v'.farb h1
    have h3 := of_sub (ended_began H) h2
    have h4 := of_sub (dropped_added H) h1
    rw [ea] at h1
    rw [ee] at h3
    rw [ed] at h4
    rw [h1, h3, h4]
    rfl

/-- C121: destroying a group whose tasks have all ended drops nothing. -/
theorem C121_kept_partial {nums : Int} {fails : Nat → Bool} {h1 h2 : List (Ev × Out)} {s : M} {e : Ev}
    (H : Hist nums fails (h1 ++ h2 ++ [(e, .destroyed)]) s) (hw : ∀ k, of k (ended h1) = of k (added h1))
    (hn : added h2 = []) : dropped (h1 ++ h2) = [] := by
  refine List.eq_nil_iff_forall_not_mem.2 fun t ht => ?_
  have hacc := C121_accounts H t.key
  have e1 : added (h1 ++ h2) = added h1 := by
    have : added (h1 ++ h2) = added h1 ++ added h2 := by simp [added]
    rw [this, hn, List.append_nil]
  have e2 : ended (h1 ++ h2) = ended h1 ++ ended h2 := by simp [ended]
  rw [e1, e2] at hacc
  have e3 : of t.key (ended h1 ++ ended h2) = of t.key (ended h1) ++ of t.key (ended h2) := by simp [of]
  rw [e3, hw] at hacc
  have hl := congrArg List.length hacc
  simp only [List.length_append] at hl
  have h0 : (of t.key (dropped (h1 ++ h2))).length = 0 := by omega
  have : t ∈ of t.key (dropped (h1 ++ h2)) := List.mem_filter.2 ⟨ht, by simp⟩
  rw [List.length_eq_zero_iff.1 h0] at this
  exact absurd this List.not_mem_nil

private theorem working {nums : Int} {fails : Nat → Bool} {h : List (Ev × Out)} {s : M} (H : Hist nums fails h s) :
    (∀ x ∈ h, x.1 ≠ .destroy) → ∀ (i : Nat) w, s.thrs[i]? = some (some w) → w.status = .work := by
  induction H with
  | nil =>
    intro _ i w hw
    simp only [create, List.getElem?_map, Option.map_eq_some_iff] at hw
    obtain ⟨j, -, hw⟩ := hw
    split at hw
    · cases hw
    · cases hw; rfl
  | @snoc h s s' e o H he hs ih =>
    intro hn
    have ih := ih fun x hx => hn x (List.mem_append_left _ hx)
    have v := hist_ok H
    cases e with
    | destroy => exact absurd rfl (hn _ (List.mem_append_right _ (List.mem_singleton.2 rfl)))
    | wait => simp only [step] at hs; cases hs; exact ih
    | look i =>
      simp only [step] at hs
      cases hl : s.waits[i]? with
      | none => rw [hl] at hs; cases hs; exact ih
      | some l =>
        rw [hl] at hs
        simp only [Option.some.injEq, Prod.mk.injEq] at hs
        obtain ⟨rfl, -⟩ := hs
        exact ih
    | add x =>
      simp only [step, add] at hs
      cases hp : place s.wnums x.key with
      | none => rw [hp] at hs; cases hs
      | some i =>
        rw [hp] at hs
        simp only [Option.bind_some] at hs
        cases hth : s.thrs[i]? with
        | none => rw [hth] at hs; cases hs
        | some w =>
          rw [hth] at hs
          cases w with
          | none => cases hs; exact ih
          | some w =>
            cases hs
            intro j w' hj
            simp only [List.getElem?_set] at hj
            split at hj
            · split at hj
              · cases hj; exact ih i w hth
              · cases hj
            · exact ih j w' hj
    | work i =>
      simp only [step] at hs
      cases hth : s.thrs[i]? with
      | none => rw [hth] at hs; cases hs
      | some w =>
        cases w with
        | none => rw [hth] at hs; cases hs
        | some w =>
          rw [hth] at hs
          simp only [Option.map_eq_some_iff] at hs
          obtain ⟨⟨w', o'⟩, hw, hs⟩ := hs
          simp only [Prod.mk.injEq] at hs
          obtain ⟨rfl, rfl⟩ := hs
          have tv := v.thr i _ hth
          rw [(tv.some_ w rfl).2.2.2.1] at tv
          have hkeep := (work_ok tv hw).2.2.2.2.2.2 (ih i w hth)
          intro j x hj
          simp only [List.getElem?_set] at hj
          split at hj
          · split at hj
            · cases hj; exact hkeep
            · cases hj
          · exact ih j x hj

private def rank : Pc → Nat
  | .busy _ => 0
  | .got _ => 1
  | .check => 2
  | .top => 3
  | .asleep => 4
  | .del => 3
  | .stopped => 0

private theorem drains {nums : Int} {fails : Nat → Bool} (i : Nat) : ∀ (b : Nat) {h : List (Ev × Out)} {s : M} {w : Thr},
    Hist nums fails h s → (∀ x ∈ h, x.1 ≠ .destroy) → s.thrs[i]? = some (some w) → 8 * (left w).length + rank w.pc ≤ b →
    ∃ n s' h', run s (List.replicate n (.work i)) = some (s', h') ∧
      forThr (between nums 1 64).toNat i (ended (h ++ h')) = forThr (between nums 1 64).toNat i (added h) := by
  intro b
  induction b with
  | zero =>
    intro h s w H hn hth hb
    refine ⟨0, s, [], rfl, ?_⟩
    obtain ⟨f1, -⟩ := ((hist_ok H).thr i _ hth).some_ w rfl
    have : left w = [] := List.length_eq_zero_iff.1 (by omega)
    rw [List.append_nil, f1, this, List.append_nil]
  | succ b ih =>
    intro h s w H hn hth hb
    have v := hist_ok H
    have hst := working H hn i w hth
    have tv := v.thr i _ hth
    obtain ⟨f1, f2, f3, f4, f5, f6⟩ := tv.some_ w rfl
    by_cases hl : left w = []
    · refine ⟨0, s, [], rfl, ?_⟩
      rw [List.append_nil, f1, hl, List.append_nil]
    · have hpc : w.pc ≠ .stopped := by
        intro hc
        have := f3
        unfold PcOk at this
        rw [hc] at this
        rw [hst] at this
        cases this
      have he : enabled s (.work i) = true := by simp [enabled, hth, hpc]
      obtain ⟨⟨w', o⟩, hw⟩ := Option.isSome_iff_exists.1 (work_def (w := w))
      have hs : step s (.work i) = some ({ s with thrs := s.thrs.set i (some w') }, o) := by
        simp only [step, hth, hw, Option.map_some]
      have hi : i < s.thrs.length := (List.getElem?_eq_some_iff.1 hth).1
      have hlt : 8 * (left w').length + rank w'.pc < 8 * (left w).length + rank w.pc := by
        obtain ⟨ts, st, pc⟩ := w
        simp only at hst hpc hw f3 ⊢
        unfold work at hw
        cases pc with
        | top => subst hst; cases hw; simp [left, rank]
        | check =>
          simp only at hw
          cases ts with
          | nil => exact absurd rfl hl
          | cons a l => simp at hw; obtain ⟨rfl, -⟩ := hw; simp [left, rank]
        | got t => cases hw; simp [left, rank]
        | busy t =>
          cases hw
          simp only [PcOk] at f3
          cases ts with
          | nil => cases f3
          | cons a l => simp [left, rank]; omega
        | del => cases hw; simp [left, rank]
        | asleep => cases hw; simp [left, rank]
        | stopped => exact absurd rfl hpc
      have hadd : added (h ++ [(.work i, o)]) = added h := by
        rw [added_snoc]
        rw [f4] at tv
        rw [(work_ok tv hw).2.2.2.1, List.append_nil]
      obtain ⟨n, s', h', r1, r2⟩ := ih (w := w') (Hist.snoc H he hs)
        (fun x hx => by
          rcases List.mem_append.1 hx with hx | hx
          · exact hn x hx
          · simp at hx; subst hx; exact nofun)
        (by simp [hi]) (by omega)
      refine ⟨n + 1, s', (.work i, o) :: h', ?_, ?_⟩
      · have : List.replicate (n + 1) (Ev.work i) = .work i :: List.replicate n (.work i) := rfl
        rw [this]
        simp only [run, he, if_true, hs, Option.bind_some, r1, Option.map_some]
      · rw [hadd] at r2
        rw [← r2]
        simp

/-- C121: nothing stays behind: from wherever the threads and the callers are, as long as the group is not being destroyed,
one thread alone runs every task of a name that was taken in and has not ended yet. -/
theorem C121_drains_partial {nums : Int} {fails : Nat → Bool} {h : List (Ev × Out)} {s : M} (H : Hist nums fails h s)
    (hn : ∀ x ∈ h, x.1 ≠ .destroy) (k : Key) : ∃ i n s' h', run s (List.replicate n (.work i)) = some (s', h') ∧
    of k (ended (h ++ h')) = of k (added h) := by
  have v := hist_ok H
  cases hp : place (between nums 1 64).toNat k with
  | none =>
    have h1 := of_none v hp
    have h2 := of_sub v.farb h1
    have h3 := of_sub (ended_began H) h2
    exact ⟨0, 0, s, [], rfl, by rw [List.append_nil, h1, h3]⟩
  | some i =>
    have hi : i < s.thrs.length := by rw [v.len]; exact place_lt v.pos hp
    have hth := List.getElem?_eq_getElem hi
    cases hw : s.thrs[i] with
    | none =>
      rw [hw] at hth
      obtain ⟨f1, -⟩ := (v.thr i _ hth).none_ rfl
      have hdst : s.dst = .none := by
        clear hth hw f1 hi hp v
        induction H with
        | nil => rfl
        | @snoc h s s' e o H he hs ih =>
          have ih := ih fun x hx => hn x (List.mem_append_left _ hx)
          have hne := hn _ (List.mem_append_right _ (List.mem_singleton.2 rfl))
          simp only at hne
          cases e with
          | destroy => exact absurd rfl hne
          | wait => simp only [step] at hs; cases hs; exact ih
          | look i =>
            simp only [step] at hs
            cases hl : s.waits[i]? with
            | none => rw [hl] at hs; cases hs; exact ih
            | some l =>
              rw [hl] at hs
              simp only [Option.some.injEq, Prod.mk.injEq] at hs
              obtain ⟨rfl, -⟩ := hs
              exact ih
          | add x =>
            simp only [step, add] at hs
            cases hp : place s.wnums x.key with
            | none => rw [hp] at hs; cases hs
            | some i =>
              rw [hp] at hs
              simp only [Option.bind_some] at hs
              cases hth : s.thrs[i]? with
              | none => rw [hth] at hs; cases hs
              | some w => rw [hth] at hs; cases w <;> cases hs <;> exact ih
          | work i =>
            simp only [step] at hs
            cases hth : s.thrs[i]? with
            | none => rw [hth] at hs; cases hs
            | some w =>
              cases w with
              | none => rw [hth] at hs; cases hs
              | some w =>
                rw [hth] at hs
                simp only [Option.map_eq_some_iff] at hs
                obtain ⟨⟨w', o'⟩, hw, hs⟩ := hs
                simp only [Prod.mk.injEq] at hs
                obtain ⟨rfl, rfl⟩ := hs
                exact ih
      rw [v.none_ hdst, forThr_nil, List.append_nil] at f1
      refine ⟨0, 0, s, [], rfl, ?_⟩
      rw [List.append_nil, ← forThr_of _ i k (ended h) hp, ← forThr_of _ i k (added h) hp, f1]
    | some w =>
      rw [hw] at hth
      obtain ⟨n, s', h', r1, r2⟩ := drains i _ H hn hth (Nat.le_refl _)
      refine ⟨i, n, s', h', r1, ?_⟩
      rw [← forThr_of _ i k _ hp, r2, forThr_of _ i k _ hp]

/-! ### Where it fails -/

/-- C121 fails: a task that was taken in is dropped, unrun, when the group is destroyed before its thread got to it. -/
theorem C121_violated_destroy : ∃ h s e, Hist 1 (fun _ => false) (h ++ [(e, .destroyed)]) s ∧
    added h = [⟨.name [97], 7⟩] ∧ began h = [] ∧ dropped h = [⟨.name [97], 7⟩] := by
  refine ⟨[(.add ⟨.name [97], 7⟩, .taken), (.destroy, .unit), (.destroy, .unit), (.work 0, .unit),
    (.destroy, .dropped [⟨.name [97], 7⟩])], _, .destroy,
    run_of (es := [.add ⟨.name [97], 7⟩, .destroy, .destroy, .work 0, .destroy, .destroy]) (by rfl), rfl, rfl, rfl⟩

/-- C121 fails: a task for a thread that could not be started is refused without a word to the caller: the caller's wait
returns and the task has not run. -/
theorem C121_violated_start : ∃ h s, Hist 1 (fun _ => true) h s ∧
    h = [(.add ⟨.name [97], 7⟩, .refused), (.wait, .unit), (.look 0, .unit), (.look 0, .returned 0)] ∧ began h = [] :=
  ⟨_, _, run_of (es := [.add ⟨.name [97], 7⟩, .wait, .look 0, .look 0]) (by rfl), rfl, rfl⟩

/-- C121 fails: `sis_mul_worker_cxt_wait` returns although a task that was added by a running task while it waited has not
begun, so that at no time since the call all tasks were done. -/
theorem C121_violated_follow : ∃ h s, Hist 2 (fun _ => false) (h ++ [(.look 0, .returned 0)]) s ∧
    added h = [⟨.index 1, 7⟩, ⟨.index 0, 8⟩] ∧ began h = [⟨.index 1, 7⟩] ∧
    (∀ h1 h2, h = h1 ++ h2 → h1 ≠ [] → (ended h1).length < (added h1).length) := by
  refine ⟨[(.add ⟨.index 1, 7⟩, .taken), (.wait, .unit), (.look 0, .unit), (.work 1, .unit), (.work 1, .unit),
      (.work 1, .began ⟨.index 1, 7⟩), (.add ⟨.index 0, 8⟩, .taken), (.work 1, .ended ⟨.index 1, 7⟩), (.work 1, .unit),
      (.look 0, .unit)], _, run_of (es := [.add ⟨.index 1, 7⟩, .wait, .look 0, .work 1, .work 1, .work 1, .add ⟨.index 0, 8⟩,
      .work 1, .work 1, .look 0, .look 0]) (by rfl), rfl, rfl, ?_⟩
  intro h1 h2 hh hne
  have : h1 = ([(.add ⟨.index 1, 7⟩, .taken), (.wait, .unit), (.look 0, .unit), (.work 1, .unit), (.work 1, .unit),
      (.work 1, .began ⟨.index 1, 7⟩), (.add ⟨.index 0, 8⟩, .taken), (.work 1, .ended ⟨.index 1, 7⟩), (.work 1, .unit),
      (.look 0, .unit)] : List (Ev × Out)).take h1.length := by rw [hh]; simp
  have hl : h1.length ≤ 10 := by
    have := congrArg List.length hh
    simp at this
    omega
  rw [this]
  have h0 : h1.length ≠ 0 := fun hc => hne (List.length_eq_zero_iff.1 hc)
  generalize h1.length = n at hl h0
  have : ∀ n ≤ 10, n ≠ 0 → (ended (([(.add ⟨.index 1, 7⟩, .taken), (.wait, .unit), (.look 0, .unit), (.work 1, .unit),
      (.work 1, .unit), (.work 1, .began ⟨.index 1, 7⟩), (.add ⟨.index 0, 8⟩, .taken), (.work 1, .ended ⟨.index 1, 7⟩),
      (.work 1, .unit), (.look 0, .unit)] : List (Ev × Out)).take n)).length <
    (added (([(.add ⟨.index 1, 7⟩, .taken), (.wait, .unit), (.look 0, .unit), (.work 1, .unit),
      (.work 1, .unit), (.work 1, .began ⟨.index 1, 7⟩), (.add ⟨.index 0, 8⟩, .taken), (.work 1, .ended ⟨.index 1, 7⟩),
      (.work 1, .unit), (.look 0, .unit)] : List (Ev × Out)).take n)).length := by decide
  exact this n hl h0

/-- C121 fails: a name of 2^26 bytes overflows the sum the thread is chosen by. -/
theorem C121_violated_long : ∃ n : List UInt8, n.length = 2 ^ 26 ∧ enabled (create 64 fun _ => false) (.add ⟨.name n, 7⟩) = true ∧
    step (create 64 fun _ => false) (.add ⟨.name n, 7⟩) = none := by
  refine ⟨List.replicate (2 ^ 26) 63, List.length_replicate, rfl, ?_⟩
  have h1 : ∀ k : Nat, (List.replicate k (63 : UInt8)).takeWhile (· ≠ 0) = List.replicate k 63 := by
    intro k
    induction k with
    | zero => rfl
    | succ k ih => rw [List.replicate_succ, List.takeWhile_cons, ih]; rfl
  have h2 : place 64 (.name (List.replicate (2 ^ 26) 63)) = none := by
    have h0 : ∀ k c : Nat, (List.replicate k c).sum = k * c := by
      intro k c
      induction k with
      | zero => simp
      | succ k ih => rw [List.replicate_succ, List.sum_cons, ih, Nat.succ_mul, Nat.add_comm]
    simp only [place, hash, h1, List.map_replicate, h0]
    rfl
  have h3 : (create 64 fun _ => false).wnums = 64 := rfl
  simp only [step, add, h3, h2, Option.bind_none]

/-! ### The hypotheses hold in cases that matter -/

/-- Two names on two threads; the call returns when the tasks added before have ended, and the group is then destroyed. -/
example : ∃ h h1 h2 o e s, Hist 2 (fun _ => false) (h ++ [(e, .returned (waitings h1))]) s ∧ h = h1 ++ (.wait, o) :: h2 ∧
    added h1 = [⟨.name [97], 7⟩, ⟨.name [98], 8⟩, ⟨.name [97], 9⟩] ∧
    ended h = [⟨.name [97], 7⟩, ⟨.name [98], 8⟩, ⟨.name [97], 9⟩] := by
  refine ⟨[(.add ⟨.name [97], 7⟩, .taken), (.add ⟨.name [98], 8⟩, .taken), (.add ⟨.name [97], 9⟩, .taken), (.wait, .unit),
      (.look 0, .unit), (.work 1, .unit), (.work 1, .unit), (.work 1, .began ⟨.name [97], 7⟩), (.work 0, .unit), (.work 0, .unit),
      (.work 0, .began ⟨.name [98], 8⟩), (.work 1, .ended ⟨.name [97], 7⟩), (.work 1, .unit), (.work 0, .ended ⟨.name [98], 8⟩),
      (.work 0, .unit), (.look 0, .unit), (.look 0, .unit), (.work 1, .unit), (.work 1, .began ⟨.name [97], 9⟩),
      (.work 1, .ended ⟨.name [97], 9⟩), (.work 1, .unit), (.look 0, .unit), (.look 0, .unit)],
    [(.add ⟨.name [97], 7⟩, .taken), (.add ⟨.name [98], 8⟩, .taken), (.add ⟨.name [97], 9⟩, .taken)],
    [(.look 0, .unit), (.work 1, .unit), (.work 1, .unit), (.work 1, .began ⟨.name [97], 7⟩), (.work 0, .unit), (.work 0, .unit),
      (.work 0, .began ⟨.name [98], 8⟩), (.work 1, .ended ⟨.name [97], 7⟩), (.work 1, .unit), (.work 0, .ended ⟨.name [98], 8⟩),
      (.work 0, .unit), (.look 0, .unit), (.look 0, .unit), (.work 1, .unit), (.work 1, .began ⟨.name [97], 9⟩),
      (.work 1, .ended ⟨.name [97], 9⟩), (.work 1, .unit), (.look 0, .unit), (.look 0, .unit)], .unit, .look 0, _,
    run_of (es := [.add ⟨.name [97], 7⟩, .add ⟨.name [98], 8⟩, .add ⟨.name [97], 9⟩, .wait, .look 0, .work 1, .work 1, .work 1,
      .work 0, .work 0, .work 0, .work 1, .work 1, .work 0, .work 0, .look 0, .look 0, .work 1, .work 1, .work 1, .work 1,
      .look 0, .look 0, .look 0]) (by rfl), rfl, rfl, rfl⟩

/-- A group that ran a task and is destroyed. -/
example : ∃ h1 h2 e s, Hist 1 (fun _ => false) (h1 ++ h2 ++ [(e, .destroyed)]) s ∧ added h1 = [⟨.index 5, 7⟩] ∧
    ended h1 = added h1 ∧ added h2 = [] := by
  refine ⟨[(.add ⟨.index 5, 7⟩, .taken), (.work 0, .unit), (.work 0, .unit), (.work 0, .began ⟨.index 5, 7⟩),
      (.work 0, .ended ⟨.index 5, 7⟩)], [(.work 0, .unit), (.work 0, .unit), (.destroy, .unit), (.destroy, .unit), (.work 0, .unit),
      (.work 0, .unit), (.destroy, .dropped [])], .destroy, _,
    run_of (es := [.add ⟨.index 5, 7⟩, .work 0, .work 0, .work 0, .work 0, .work 0, .work 0, .destroy, .destroy, .work 0, .work 0,
      .destroy, .destroy]) (by rfl), rfl, rfl, rfl⟩

end Sis.Mw
