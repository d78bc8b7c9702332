import Verif.Sync.MulWorkerSpec
import Mathlib.Data.List.Induction
/-
Lemmas about the group of threads that run tasks by name.
-/
namespace Sis.Mw

theorem added_snoc (h : List (Ev × Out)) (x : Ev × Out) : added (h ++ [x]) = added h ++ takes x := by simp [added]
theorem began_snoc (h : List (Ev × Out)) (x : Ev × Out) : began (h ++ [x]) = began h ++ begins x.2 := by simp [began]
theorem ended_snoc (h : List (Ev × Out)) (x : Ev × Out) : ended (h ++ [x]) = ended h ++ ends x.2 := by simp [ended]
theorem dropped_snoc (h : List (Ev × Out)) (x : Ev × Out) : dropped (h ++ [x]) = dropped h ++ drops x.2 := by simp [dropped]

/-- The tasks for a thread. -/
def forThr (n i : Nat) (ts : List Task) : List Task := ts.filter fun t => place n t.key = some i

theorem forThr_append (n i : Nat) (a b : List Task) : forThr n i (a ++ b) = forThr n i a ++ forThr n i b := by simp [forThr]

theorem forThr_nil (n i : Nat) : forThr n i [] = [] := rfl

theorem forThr_mine {n i : Nat} {ts : List Task} (h : ∀ t ∈ ts, place n t.key = some i) : forThr n i ts = ts := by
  unfold forThr
  exact List.filter_eq_self.2 fun t ht => by simp [h t ht]

theorem forThr_other {n i j : Nat} {ts : List Task} (h : ∀ t ∈ ts, place n t.key = some i) (hj : i ≠ j) : forThr n j ts = [] := by
  unfold forThr
  refine List.filter_eq_nil_iff.2 fun t ht => ?_
  rw [h t ht]
  simpa using hj

/-- What a thread still has to run. -/
def left (w : Thr) : List Task := match w.pc with
  | .del => w.tasks.tail
  | _ => w.tasks

def running (w : Thr) : List Task := match w.pc with
  | .busy t => [t]
  | _ => []

def PcOk (w : Thr) : Prop := match w.pc with
  | .got t => w.tasks.head? = some t
  | .busy t => w.tasks.head? = some t
  | .del => w.tasks ≠ []
  | .stopped => w.status = .none
  | _ => True

/-- What is known of a thread `i` that was given `a`, began `b`, ended `e` and of which `d` was dropped. -/
structure TOk (n i : Nat) (a b e d : List Task) (w : Option Thr) : Prop where
  some_ : ∀ x, w = some x → a = e ++ left x ∧ b = e ++ running x ∧ PcOk x ∧ d = [] ∧ (∀ t ∈ x.tasks, place n t.key = some i) ∧
    (x.status = .none → x.pc = .stopped)
  none_ : w = none → a = e ++ d ∧ b = e

/-- For each call of `sis_mul_worker_cxt_wait` in order, the tasks that had been taken in before. -/
def calls (h : List (Ev × Out)) : List (List Task) := (h.foldl (fun (a : List Task × List (List Task)) x =>
  (a.1 ++ takes x, if x.1 = .wait then a.2 ++ [a.1] else a.2)) ([], [])).2

theorem calls_fst (h : List (Ev × Out)) : (h.foldl (fun (a : List Task × List (List Task)) x =>
  (a.1 ++ takes x, if x.1 = .wait then a.2 ++ [a.1] else a.2)) ([], [])).1 = added h := by
  induction h using List.reverseRecOn with
  | nil => rfl
  | append_singleton l x ih => rw [List.foldl_append, added_snoc, ← ih]; rfl

theorem calls_snoc (h : List (Ev × Out)) (x : Ev × Out) : calls (h ++ [x]) = calls h ++ (if x.1 = .wait then [added h] else []) := by
  have := calls_fst h
  unfold calls
  rw [List.foldl_append]
  simp only [List.foldl_cons, List.foldl_nil, this]
  split <;> simp

/-- What is known of a call of `sis_mul_worker_cxt_wait` before which `c` had been taken in. -/
def LookOk (n : Nat) (c e : List Task) : Look → Prop
  | .at_ i => ∀ j, j < i → forThr n j c <+: forThr n j e
  | .done => ∀ j, j < n → forThr n j c <+: forThr n j e

structure Ok (n : Nat) (h : List (Ev × Out)) (s : M) : Prop where
  wnums : s.wnums = n
  len : s.thrs.length = n
  pos : 0 < n
  thr : ∀ (i : Nat) (w : Option Thr), s.thrs[i]? = some w → TOk n i (forThr n i (added h)) (forThr n i (began h)) (forThr n i (ended h))
    (forThr n i (dropped h)) w
  far : ∀ t ∈ added h, ∃ i, i < n ∧ place n t.key = some i
  farb : ∀ t ∈ began h, t ∈ added h
  ws : s.waits.length = (calls h).length
  pre : ∀ c ∈ calls h, c <+: added h
  look : ∀ (i : Nat) (c : List Task) (l : Look), (calls h)[i]? = some c → s.waits[i]? = some l → LookOk n c (ended h) l
  none_ : s.dst = .none → dropped h = []
  join : ∀ i, s.dst = .join i → ∃ w, s.thrs[i]? = some (some w)
  whole : s.dst = .gone → ∀ i, i < n → s.thrs[i]? = some none
  upto : ∀ i, (s.dst = .at_ i ∨ s.dst = .join i) → ∀ j, j < i → s.thrs[j]? = some none

theorem place_lt {n : Nat} (hn : 0 < n) {k : Key} {i : Nat} (h : place n k = some i) : i < n := by
  cases k with
  | name s =>
    simp only [place, hash] at h
    split at h
    · cases h; exact Nat.mod_lt _ hn
    · cases h
  | index x =>
    simp only [place, Option.some.injEq] at h
    subst h
    unfold between
    split
    · simpa using hn
    · split <;> omega

theorem lookOk_mono {n : Nat} {c e : List Task} (f : List Task) {l : Look} (v : LookOk n c e l) : LookOk n c (e ++ f) l := by
  have : ∀ j, forThr n j e <+: forThr n j (e ++ f) := fun j => by rw [forThr_append]; exact List.prefix_append _ _
  cases l with
  | at_ i => exact fun j hj => (v j hj).trans (this j)
  | done => exact fun j hj => (v j hj).trans (this j)

theorem ok_create (nums : Int) (fails : Nat → Bool) : Ok (between nums 1 64).toNat [] (create nums fails) := by
  refine ⟨rfl, by simp [create], ?_, ?_, nofun, nofun, rfl, nofun, nofun, fun _ => rfl, nofun, nofun, ?_⟩
  · unfold between; split <;> (try split) <;> omega
  · intro i w hw
    simp only [create, List.getElem?_map, Option.map_eq_some_iff] at hw
    obtain ⟨j, -, hw⟩ := hw
    subst hw
    constructor
    · intro x hx
      split at hx
      · cases hx
      · cases hx
        exact ⟨rfl, rfl, trivial, rfl, nofun, nofun⟩
    · exact fun _ => ⟨rfl, rfl⟩
  · rintro i (h | h) <;> cases h

theorem work_def {w : Thr} : (work w).isSome := by
  unfold work
  cases w.pc with
  | top => cases w.status <;> rfl
  | check =>
    simp only
    split
    · next h =>
      cases ht : w.tasks with
      | nil => rw [ht] at h; simp at h
      | cons t l => rfl
    · rfl
  | _ => rfl

theorem work_ok {n i : Nat} {a b e : List Task} {w w' : Thr} {o : Out} (v : TOk n i a b e [] (some w)) (hw : work w = some (w', o)) :
    TOk n i a (b ++ begins o) (e ++ ends o) [] (some w') ∧ drops o = [] ∧ (∀ t ∈ begins o ++ ends o, place n t.key = some i) ∧
    (∀ ev, takes (ev, o) = []) ∧ (∀ j, o ≠ .returned j) ∧ (∀ t ∈ begins o, t ∈ a) ∧
    (w.status = .work → w'.status = .work) := by
  obtain ⟨h1, h2, h3, -, h5, h6⟩ := v.some_ w rfl
  have tk : ∀ (o : Out), o ≠ .taken → ∀ ev, takes (ev, o) = [] := by
    intro o ho ev
    cases ev <;> cases o <;> first | rfl | exact absurd rfl ho
  unfold work at hw
  cases hpc : w.pc with
  | top =>
    simp only [hpc] at hw
    have l1 : left w = w.tasks := by simp [left, hpc]
    have r1 : running w = [] := by simp [running, hpc]
    cases hst : w.status with
    | work =>
      simp only [hst] at hw
      cases hw
      refine ⟨⟨?_, nofun⟩, rfl, nofun, tk _ nofun, nofun, nofun, fun _ => rfl⟩
      intro x hx; cases hx
      exact ⟨by rw [l1] at h1; simpa [ends, left] using h1, by rw [r1] at h2; simpa [ends, begins, running] using h2, trivial, rfl, h5, nofun⟩
    | exit =>
      simp only [hst] at hw
      cases hw
      refine ⟨⟨?_, nofun⟩, rfl, nofun, tk _ nofun, nofun, nofun, (by intro h; cases h)⟩
      intro x hx; cases hx
      exact ⟨by rw [l1] at h1; simpa [ends, left] using h1, by rw [r1] at h2; simpa [ends, begins, running] using h2, rfl, rfl, h5, fun _ => rfl⟩
    | none =>
      simp only [hst] at hw
      cases hw
      refine ⟨⟨?_, nofun⟩, rfl, nofun, tk _ nofun, nofun, nofun, (by intro h; cases h)⟩
      intro x hx; cases hx
      exact ⟨by rw [l1] at h1; simpa [ends, left] using h1, by rw [r1] at h2; simpa [ends, begins, running] using h2, rfl, rfl, h5, fun _ => rfl⟩
  | check =>
    simp only [hpc] at hw
    have l1 : left w = w.tasks := by simp [left, hpc]
    have r1 : running w = [] := by simp [running, hpc]
    have hst : ¬ w.status = .none := fun hc => by have := h6 hc; rw [hpc] at this; cases this
    cases ht : w.tasks with
    | nil =>
      simp only [ht] at hw
      cases hw
      refine ⟨⟨?_, nofun⟩, rfl, nofun, tk _ nofun, nofun, nofun, id⟩
      intro x hx; cases hx
      exact ⟨by rw [l1, ht] at h1; simpa [ends, left] using h1, by rw [r1] at h2; simpa [ends, begins, running] using h2, trivial, rfl, by rw [ht] at h5; exact h5,
        fun hc => absurd hc hst⟩
    | cons t l =>
      simp only [ht] at hw
      cases hw
      refine ⟨⟨?_, nofun⟩, rfl, nofun, tk _ nofun, nofun, nofun, id⟩
      intro x hx; cases hx
      exact ⟨by rw [l1, ht] at h1; simpa [ends, left] using h1, by rw [r1] at h2; simpa [ends, begins, running] using h2, by simp [PcOk, ht], rfl, by rw [ht] at h5; exact h5,
        fun hc => absurd hc hst⟩
  | got t =>
    simp only [hpc] at hw
    cases hw
    have l1 : left w = w.tasks := by simp [left, hpc]
    have r1 : running w = [] := by simp [running, hpc]
    have hst : ¬ w.status = .none := fun hc => by have := h6 hc; rw [hpc] at this; cases this
    have h3' : w.tasks.head? = some t := by simpa [PcOk, hpc] using h3
    have hm : t ∈ w.tasks := List.mem_of_mem_head? (by rw [h3']; rfl)
    refine ⟨⟨?_, nofun⟩, rfl, ?_, tk _ nofun, nofun, ?_, id⟩
    · intro x hx; cases hx
      exact ⟨by rw [l1] at h1; simpa [ends, left] using h1, by rw [r1] at h2; simpa [ends, begins, running] using h2, h3', rfl, h5,
        fun hc => absurd hc hst⟩
    · intro x hx
      simp [begins, ends] at hx
      subst hx
      exact h5 _ hm
    · intro x hx
      simp [begins] at hx
      subst hx
      rw [h1, l1]
      exact List.mem_append_right _ hm
  | busy t =>
    simp only [hpc] at hw
    cases hw
    have l1 : left w = w.tasks := by simp [left, hpc]
    have r1 : running w = [t] := by simp [running, hpc]
    have hst : ¬ w.status = .none := fun hc => by have := h6 hc; rw [hpc] at this; cases this
    have h3' : w.tasks.head? = some t := by simpa [PcOk, hpc] using h3
    obtain ⟨l, hl⟩ : ∃ l, w.tasks = t :: l := by
      cases ht : w.tasks with
      | nil => rw [ht] at h3'; cases h3'
      | cons x l => rw [ht] at h3'; cases h3'; exact ⟨l, rfl⟩
    refine ⟨⟨?_, nofun⟩, rfl, ?_, tk _ nofun, nofun, nofun, id⟩
    · intro x hx; cases hx
      refine ⟨?_, ?_, ?_, rfl, h5, fun hc => absurd hc hst⟩
      · rw [h1, l1]; simp [ends, left, hl]
      · rw [h2, r1]; simp [ends, begins, running]
      · simp [PcOk, hl]
    · intro x hx
      simp [begins, ends] at hx
      subst hx
      exact h5 _ (by rw [hl]; exact List.mem_cons_self)
  | del =>
    simp only [hpc] at hw
    cases hw
    have l1 : left w = w.tasks.tail := by simp [left, hpc]
    have r1 : running w = [] := by simp [running, hpc]
    have hst : ¬ w.status = .none := fun hc => by have := h6 hc; rw [hpc] at this; cases this
    refine ⟨⟨?_, nofun⟩, rfl, nofun, tk _ nofun, nofun, nofun, id⟩
    intro x hx; cases hx
    exact ⟨by rw [l1] at h1; simpa [ends, left] using h1, by rw [r1] at h2; simpa [ends, begins, running] using h2, trivial, rfl,
      fun t ht => h5 t (List.mem_of_mem_tail ht), fun hc => absurd hc hst⟩
  | asleep =>
    simp only [hpc] at hw
    cases hw
    have l1 : left w = w.tasks := by simp [left, hpc]
    have r1 : running w = [] := by simp [running, hpc]
    have hst : ¬ w.status = .none := fun hc => by have := h6 hc; rw [hpc] at this; cases this
    refine ⟨⟨?_, nofun⟩, rfl, nofun, tk _ nofun, nofun, nofun, id⟩
    intro x hx; cases hx
    exact ⟨by rw [l1] at h1; simpa [ends, left] using h1, by rw [r1] at h2; simpa [ends, begins, running] using h2, trivial, rfl, h5,
      fun hc => absurd hc hst⟩
  | stopped =>
    simp only [hpc] at hw
    cases hw
    refine ⟨⟨?_, nofun⟩, rfl, nofun, tk _ nofun, nofun, nofun, id⟩
    intro x hx; cases hx
    exact ⟨by simpa [ends] using h1, by simpa [ends, begins] using h2, h3, rfl, h5, h6⟩

theorem forThr_of (n i : Nat) (k : Key) (ts : List Task) (h : place n k = some i) : of k (forThr n i ts) = of k ts := by
  unfold of forThr
  rw [List.filter_filter]
  congr 1
  funext t
  by_cases hk : t.key = k
  · simp [hk, h]
  · simp [hk]

/-- A step that changes no thread and of which nothing is seen of a task. -/
theorem ok_same {n : Nat} {h : List (Ev × Out)} {s s' : M} {e : Ev} {o : Out} (v : Ok n h s) (hw : s'.wnums = s.wnums)
    (ht : s'.thrs = s.thrs) (h1 : takes (e, o) = []) (h2 : begins o = []) (h3 : ends o = []) (h4 : drops o = [])
    (hl : s'.waits.length = (calls (h ++ [(e, o)])).length) (hp : ∀ c ∈ calls (h ++ [(e, o)]), c <+: added h)
    (hk : ∀ (i : Nat) (c : List Task) (l : Look), (calls (h ++ [(e, o)]))[i]? = some c → s'.waits[i]? = some l → LookOk n c (ended h) l)
    (hn : s'.dst = .none → s.dst = .none) (hj : ∀ i, s'.dst = .join i → ∃ w, s.thrs[i]? = some (some w)) (hg : s'.dst = .gone → ∀ i, i < n → s.thrs[i]? = some none)
    (hu : ∀ i, (s'.dst = .at_ i ∨ s'.dst = .join i) → ∀ j, j < i → s.thrs[j]? = some none) :
    Ok n (h ++ [(e, o)]) s' := by
  have ea : added (h ++ [(e, o)]) = added h := by rw [added_snoc, h1, List.append_nil]
  have eb : began (h ++ [(e, o)]) = began h := by rw [began_snoc, h2, List.append_nil]
  have ee : ended (h ++ [(e, o)]) = ended h := by rw [ended_snoc, h3, List.append_nil]
  have ed : dropped (h ++ [(e, o)]) = dropped h := by rw [dropped_snoc, h4, List.append_nil]
  refine ⟨hw.trans v.wnums, by rw [ht]; exact v.len, v.pos, ?_, ?_, ?_, hl, ?_, ?_, ?_, ?_, ?_, ?_⟩
  · rw [ht, ea, eb, ee, ed]; exact v.thr
  · rw [ea]; exact v.far
  · rw [ea, eb]; exact v.farb
  · rw [ea]; exact hp
  · rw [ee]; exact hk
  · rw [ed]; exact fun hc => v.none_ (hn hc)
  · rw [ht]; exact hj
  · rw [ht]; exact hg
  · rw [ht]; exact hu

theorem calls_same (h : List (Ev × Out)) {e : Ev} (o : Out) (he : e ≠ .wait) : calls (h ++ [(e, o)]) = calls h := by
  rw [calls_snoc, if_neg he, List.append_nil]

theorem ok_step {n : Nat} {h : List (Ev × Out)} {s s' : M} {e : Ev} {o : Out} (v : Ok n h s) (he : enabled s e = true)
    (hs : step s e = some (s', o)) : Ok n (h ++ [(e, o)]) s' ∧ (∀ i, o = .returned i → e = .look i ∧ s'.waits[i]? = some .done) := by
  cases e with
  | add t =>
    have hcs : ∀ o, calls (h ++ [(.add t, o)]) = calls h := fun o => calls_same h o nofun
    simp only [step, add, v.wnums] at hs
    simp only [enabled, beq_iff_eq] at he
    cases hp : place n t.key with
    | none => rw [hp] at hs; cases hs
    | some i =>
      rw [hp] at hs
      simp only [Option.bind_some] at hs
      have hi : i < n := place_lt v.pos hp
      cases hth : s.thrs[i]? with
      | none => rw [hth] at hs; cases hs
      | some w =>
        rw [hth] at hs
        cases w with
        | none =>
          cases hs
          refine ⟨ok_same v rfl rfl rfl rfl rfl rfl ?_ ?_ ?_ id v.join v.whole v.upto, nofun⟩
          · rw [hcs]; exact v.ws
          · rw [hcs]; exact v.pre
          · rw [hcs]; exact v.look
        | some w =>
          cases hs
          have ea : added (h ++ [(.add t, .taken)]) = added h ++ [t] := by rw [added_snoc]; rfl
          have eb : began (h ++ [(.add t, .taken)]) = began h := by rw [began_snoc]; simp [begins]
          have ee : ended (h ++ [(.add t, .taken)]) = ended h := by rw [ended_snoc]; simp [ends]
          have ed : dropped (h ++ [(.add t, .taken)]) = dropped h := by rw [dropped_snoc]; simp [drops]
          have mine : ∀ x ∈ [t], place n x.key = some i := fun x hx => by simp at hx; rw [hx]; exact hp
          refine ⟨⟨rfl, by simp [v.len], v.pos, ?_, ?_, ?_, ?_, ?_, ?_, ?_, ?_, ?_, ?_⟩, nofun⟩
          · intro j w' hj
            rw [ea, eb, ee, ed]
            simp only [List.getElem?_set] at hj
            by_cases hij : i = j
            · subst hij
              rw [if_pos rfl, if_pos (by rw [v.len]; exact hi)] at hj
              cases hj
              obtain ⟨f1, f2, f3, f4, f5, f6⟩ := (v.thr i _ hth).some_ w rfl
              refine ⟨?_, nofun⟩
              intro x hx; cases hx
              refine ⟨?_, f2, ?_, f4, ?_, f6⟩
              · rw [forThr_append, f1, forThr_mine mine, List.append_assoc]
                congr 1
                unfold left
                cases hpc : w.pc with
                | del =>
                  simp only
                  have : w.tasks ≠ [] := by simpa [PcOk, hpc] using f3
                  cases htt : w.tasks with
                  | nil => exact absurd htt this
                  | cons a l => rfl
                | _ => rfl
              · unfold PcOk at f3 ⊢
                cases hpc : w.pc with
                | got x => simp only [hpc] at f3 ⊢; simp [f3]
                | busy x => simp only [hpc] at f3 ⊢; simp [f3]
                | del => simp
                | stopped => simp only [hpc] at f3 ⊢; exact f3
                | _ => trivial
              · intro x hx
                rcases List.mem_append.1 hx with hx | hx
                · exact f5 x hx
                · exact mine x hx
            · rw [if_neg hij] at hj
              rw [forThr_append, forThr_other mine hij, List.append_nil]
              exact v.thr j w' hj
          · rw [ea]
            intro x hx
            rcases List.mem_append.1 hx with hx | hx
            · exact v.far x hx
            · exact ⟨i, hi, mine x hx⟩
          · rw [ea, eb]
            intro x hx
            exact List.mem_append_left _ (v.farb x hx)
          · rw [hcs]; exact v.ws
          · rw [hcs, ea]
            exact fun c hc => (v.pre c hc).trans (List.prefix_append _ _)
          · rw [hcs, ee]; exact v.look
          · rw [ed]; exact v.none_
          · intro j hj; rw [he] at hj; cases hj
          · intro hj; rw [he] at hj; cases hj
          · intro j hj; rw [he] at hj; rcases hj with hj | hj <;> cases hj
  | wait =>
    simp only [step] at hs
    cases hs
    refine ⟨ok_same v rfl rfl rfl rfl rfl rfl ?_ ?_ ?_ id v.join v.whole v.upto, nofun⟩
    · rw [calls_snoc]; simp [v.ws]
    · rw [calls_snoc, if_pos rfl]
      intro c hc
      rcases List.mem_append.1 hc with hc | hc
      · exact v.pre c hc
      · simp at hc; subst hc; exact List.prefix_rfl
    · rw [calls_snoc, if_pos rfl]
      intro i c l h1 h2
      by_cases hi : i < (calls h).length
      · rw [List.getElem?_append_left hi] at h1
        rw [List.getElem?_append_left (by rw [v.ws]; exact hi)] at h2
        exact v.look i c l h1 h2
      · rw [List.getElem?_append_right (by rw [v.ws]; omega)] at h2
        have : l = .at_ 0 := by
          rcases hk : i - s.waits.length with _ | k
          · rw [hk] at h2; simpa using h2.symm
          · rw [hk] at h2; simp at h2
        subst this
        exact fun j hj => absurd hj (Nat.not_lt_zero _)
  | look i =>
    have hcs : ∀ o, calls (h ++ [(.look i, o)]) = calls h := fun o => calls_same h o nofun
    simp only [step] at hs
    cases hl : s.waits[i]? with
    | none =>
      simp only [enabled, hl, Bool.and_false] at he
      cases he
    | some l =>
      rw [hl] at hs
      have hi : i < s.waits.length := (List.getElem?_eq_some_iff.1 hl).1
      simp only [Option.some.injEq, Prod.mk.injEq] at hs
      obtain ⟨rfl, ho⟩ := hs
      have ho' : o = .unit ∨ o = .returned i ∧ look s l = .done := by
        subst ho
        split
        · next hr => exact .inr ⟨rfl, hr⟩
        · exact .inl rfl
      refine ⟨ok_same v rfl rfl ?_ ?_ ?_ ?_ ?_ ?_ ?_ id v.join v.whole v.upto, ?_⟩
      · rcases ho' with rfl | ⟨rfl, -⟩ <;> rfl
      · rcases ho' with rfl | ⟨rfl, -⟩ <;> rfl
      · rcases ho' with rfl | ⟨rfl, -⟩ <;> rfl
      · rcases ho' with rfl | ⟨rfl, -⟩ <;> rfl
      · rw [hcs]; simp [v.ws]
      · rw [hcs]; exact v.pre
      · rw [hcs]
        intro j c l' h1 h2
        rw [List.getElem?_set] at h2
        by_cases hij : i = j
        · subst hij
          rw [if_pos rfl, if_pos hi] at h2
          have h2 : look s l = l' := by simpa using h2
          subst h2
          have h0 := v.look i c l h1 hl
          have hc := v.pre c (List.mem_of_getElem? h1)
          cases l with
          | done => exact h0
          | at_ k =>
            simp only [Mw.look]
            cases hth : s.thrs[k]? with
            | none =>
              have : n ≤ k := by
                rw [← v.len]; exact List.getElem?_eq_none_iff.1 hth
              exact fun j hj => h0 j (by omega)
            | some w =>
              have key : forThr n k c <+: forThr n k (ended h) ∨ ∃ x, w = some x ∧ x.tasks.length > 0 := by
                have hck : forThr n k c <+: forThr n k (added h) := by
                  obtain ⟨r, hr⟩ := hc
                  rw [← hr, forThr_append]; exact List.prefix_append _ _
                cases w with
                | none =>
                  left
                  obtain ⟨f1, -⟩ := (v.thr k _ hth).none_ rfl
                  simp only [enabled, Bool.and_eq_true, beq_iff_eq] at he
                  rw [v.none_ he.1, forThr_nil, List.append_nil] at f1
                  rw [← f1]; exact hck
                | some x =>
                  by_cases hx : x.tasks.length > 0
                  · exact .inr ⟨x, rfl, hx⟩
                  · left
                    have hx0 : x.tasks = [] := by
                      cases htt : x.tasks with
                      | nil => rfl
                      | cons a b => rw [htt] at hx; simp at hx
                    obtain ⟨f1, -⟩ := (v.thr k _ hth).some_ x rfl
                    have : left x = [] := by
                      unfold left
                      cases x.pc <;> simp [hx0]
                    rw [this, List.append_nil] at f1
                    rw [← f1]; exact hck
              have key2 : forThr n k c <+: forThr n k (ended h) → ∀ j, j < k + 1 → forThr n j c <+: forThr n j (ended h) := by
                intro hk j hj
                by_cases e : j = k
                · subst e; exact hk
                · exact h0 j (by omega)
              cases w with
              | none =>
                simp only
                rcases key with hk | ⟨x, hx, -⟩
                · exact key2 hk
                · cases hx
              | some x =>
                simp only
                by_cases hx : x.tasks.length > 0
                · rw [if_pos hx]
                  exact fun j hj => absurd hj (Nat.not_lt_zero _)
                · rw [if_neg hx]
                  rcases key with hk | ⟨x', hx', hp'⟩
                  · exact key2 hk
                  · cases hx'; exact absurd hp' hx
        · rw [if_neg hij] at h2
          exact v.look j c l' h1 h2
      · intro j hj
        rcases ho' with rfl | ⟨rfl, hr⟩
        · cases hj
        · cases hj
          exact ⟨rfl, by simp [hi, hr]⟩
  | work i =>
    have hcs : ∀ o, calls (h ++ [(.work i, o)]) = calls h := fun o => calls_same h o nofun
    simp only [step] at hs
    cases hth : s.thrs[i]? with
    | none => rw [hth] at hs; cases hs
    | some w =>
      cases w with
      | none => rw [hth] at hs; cases hs
      | some w =>
        rw [hth] at hs
        simp only [Option.map_eq_some_iff] at hs
        obtain ⟨⟨w', o'⟩, hw, hs⟩ := hs
        simp only [Prod.mk.injEq] at hs
        obtain ⟨rfl, rfl⟩ := hs
        have hi : i < s.thrs.length := (List.getElem?_eq_some_iff.1 hth).1
        have tv := v.thr i _ hth
        have hd0 : forThr n i (dropped h) = [] := (tv.some_ w rfl).2.2.2.1
        rw [hd0] at tv
        obtain ⟨g1, g2, g3, g4, g5, g6, g7⟩ := work_ok tv hw
        have mb : ∀ x ∈ begins o', place n x.key = some i := fun x hx => g3 x (List.mem_append_left _ hx)
        have me : ∀ x ∈ ends o', place n x.key = some i := fun x hx => g3 x (List.mem_append_right _ hx)
        have ea : added (h ++ [(.work i, o')]) = added h := by rw [added_snoc, g4, List.append_nil]
        have ed : dropped (h ++ [(.work i, o')]) = dropped h := by rw [dropped_snoc, g2, List.append_nil]
        refine ⟨⟨v.wnums, by simp [v.len], v.pos, ?_, ?_, ?_, ?_, ?_, ?_, ?_, ?_, ?_, ?_⟩, fun j hj => absurd hj (g5 j)⟩
        · intro j x hj
          rw [ea, ed, began_snoc, ended_snoc, forThr_append, forThr_append]
          simp only [List.getElem?_set] at hj
          by_cases hij : i = j
          · subst hij
            rw [if_pos rfl, if_pos hi] at hj
            cases hj
            rw [forThr_mine mb, forThr_mine me, hd0]
            exact g1
          · rw [if_neg hij] at hj
            rw [forThr_other mb hij, forThr_other me hij, List.append_nil, List.append_nil]
            exact v.thr j x hj
        · rw [ea]; exact v.far
        · rw [ea, began_snoc]
          intro x hx
          rcases List.mem_append.1 hx with hx | hx
          · exact v.farb x hx
          · have := g6 x hx
            exact (List.mem_filter.1 this).1
        · rw [hcs]; exact v.ws
        · rw [hcs, ea]; exact v.pre
        · rw [hcs, ended_snoc]
          exact fun j c l h1 h2 => lookOk_mono _ (v.look j c l h1 h2)
        · rw [ed]; exact v.none_
        · intro j hj
          obtain ⟨x, hx⟩ := v.join j hj
          simp only [List.getElem?_set]
          by_cases hij : i = j
          · subst hij; rw [if_pos rfl, if_pos hi]; exact ⟨_, rfl⟩
          · rw [if_neg hij]; exact ⟨x, hx⟩
        · intro hj k hk
          have := v.whole hj k hk
          simp only [List.getElem?_set]
          by_cases hij : i = k
          · subst hij; rw [hth] at this; cases this
          · rw [if_neg hij]; exact this
        · intro k hk j hj
          have := v.upto k hk j hj
          simp only [List.getElem?_set]
          by_cases hij : i = j
          · subst hij; rw [hth] at this; cases this
          · rw [if_neg hij]; exact this
  | destroy =>
    have hcs : ∀ o, calls (h ++ [(.destroy, o)]) = calls h := fun o => calls_same h o nofun
    simp only [step, destroy] at hs
    cases hd : s.dst with
    | gone => rw [hd] at hs; cases hs
    | none =>
      rw [hd] at hs
      cases hs
      refine ⟨ok_same v rfl rfl rfl rfl rfl rfl ?_ ?_ ?_ nofun nofun nofun ?_, nofun⟩
      · rw [hcs]; exact v.ws
      · rw [hcs]; exact v.pre
      · rw [hcs]; exact v.look
      · rintro i (hi | hi) j hj
        · cases hi; omega
        · cases hi
    | at_ i =>
      rw [hd] at hs
      simp only at hs
      have hup := v.upto i (.inl hd)
      cases hth : s.thrs[i]? with
      | none =>
        rw [hth] at hs
        cases hs
        refine ⟨ok_same v rfl rfl rfl rfl rfl rfl ?_ ?_ ?_ nofun nofun ?_ ?_, nofun⟩
        · rw [hcs]; exact v.ws
        · rw [hcs]; exact v.pre
        · rw [hcs]; exact v.look
        · intro _ j hj
          refine hup j ?_
          have := List.getElem?_eq_none_iff.1 hth
          rw [v.len] at this
          omega
        · rintro j (hj | hj) <;> cases hj
      | some w =>
        cases w with
        | none =>
          rw [hth] at hs
          cases hs
          refine ⟨ok_same v rfl rfl rfl rfl rfl rfl ?_ ?_ ?_ nofun nofun nofun ?_, nofun⟩
          · rw [hcs]; exact v.ws
          · rw [hcs]; exact v.pre
          · rw [hcs]; exact v.look
          · rintro j (hj | hj) k hk
            · cases hj
              by_cases e : k = i
              · subst e; exact hth
              · exact hup k (by omega)
            · cases hj
        | some w =>
          rw [hth] at hs
          cases hs
          have hi : i < s.thrs.length := (List.getElem?_eq_some_iff.1 hth).1
          have ea : added (h ++ [(.destroy, .unit)]) = added h := by rw [added_snoc]; simp [takes]
          have eb : began (h ++ [(.destroy, .unit)]) = began h := by rw [began_snoc]; simp [begins]
          have ee : ended (h ++ [(.destroy, .unit)]) = ended h := by rw [ended_snoc]; simp [ends]
          have ed : dropped (h ++ [(.destroy, .unit)]) = dropped h := by rw [dropped_snoc]; simp [drops]
          refine ⟨⟨v.wnums, by simp [v.len], v.pos, ?_, ?_, ?_, ?_, ?_, ?_, ?_, ?_, ?_, ?_⟩, nofun⟩
          · intro j x hj
            rw [ea, eb, ee, ed]
            simp only [List.getElem?_set] at hj
            by_cases hij : i = j
            · subst hij
              rw [if_pos rfl, if_pos hi] at hj
              cases hj
              obtain ⟨f1, f2, f3, f4, f5, f6⟩ := (v.thr i _ hth).some_ w rfl
              refine ⟨?_, nofun⟩
              intro x hx; cases hx
              refine ⟨f1, f2, ?_, f4, f5, ?_⟩
              · unfold PcOk at f3 ⊢
                cases hpc : w.pc with
                | stopped =>
                  simp only [hpc] at f3 ⊢
                  rw [f3, if_neg nofun]
                | got x => simp only [hpc] at f3 ⊢; exact f3
                | busy x => simp only [hpc] at f3 ⊢; exact f3
                | del => simp only [hpc] at f3 ⊢; exact f3
                | _ => trivial
              · intro hc
                simp only at hc
                split at hc
                · cases hc
                · exact f6 hc
            · rw [if_neg hij] at hj
              exact v.thr j x hj
          · rw [ea]; exact v.far
          · rw [ea, eb]; exact v.farb
          · rw [hcs]; exact v.ws
          · rw [hcs, ea]; exact v.pre
          · rw [hcs, ee]; exact v.look
          · exact nofun
          · intro j hj
            cases hj
            simp [hi]
          · exact nofun
          · rintro j (hj | hj) k hk
            · cases hj
            · cases hj
              simp only [List.getElem?_set]
              rw [if_neg (by omega)]
              exact hup k hk
    | join i =>
      rw [hd] at hs
      simp only at hs
      obtain ⟨w, hth⟩ := v.join i hd
      rw [hth] at hs
      cases hs
      have hup := v.upto i (.inr hd)
      have hi : i < s.thrs.length := (List.getElem?_eq_some_iff.1 hth).1
      obtain ⟨f1, f2, f3, f4, f5, f6⟩ := (v.thr i _ hth).some_ w rfl
      simp only [enabled, hd, hth, beq_iff_eq] at he
      have hpc := f6 he
      have ea : added (h ++ [(.destroy, .dropped w.tasks)]) = added h := by rw [added_snoc]; simp [takes]
      have eb : began (h ++ [(.destroy, .dropped w.tasks)]) = began h := by rw [began_snoc]; simp [begins]
      have ee : ended (h ++ [(.destroy, .dropped w.tasks)]) = ended h := by rw [ended_snoc]; simp [ends]
      have ed : dropped (h ++ [(.destroy, .dropped w.tasks)]) = dropped h ++ w.tasks := by rw [dropped_snoc]; rfl
      refine ⟨⟨v.wnums, by simp [v.len], v.pos, ?_, ?_, ?_, ?_, ?_, ?_, ?_, ?_, ?_, ?_⟩, nofun⟩
      · intro j x hj
        rw [ea, eb, ee, ed, forThr_append]
        simp only [List.getElem?_set] at hj
        by_cases hij : i = j
        · subst hij
          rw [if_pos rfl, if_pos hi] at hj
          cases hj
          refine ⟨nofun, fun _ => ⟨?_, ?_⟩⟩
          · rw [f1, f4, forThr_mine f5]
            simp [left, hpc]
          · rw [f2]
            simp [running, hpc]
        · rw [if_neg hij] at hj
          rw [forThr_other f5 hij, List.append_nil]
          exact v.thr j x hj
      · rw [ea]; exact v.far
      · rw [ea, eb]; exact v.farb
      · rw [hcs]; exact v.ws
      · rw [hcs, ea]; exact v.pre
      · rw [hcs, ee]; exact v.look
      · exact nofun
      · exact nofun
      · exact nofun
      · rintro j (hj | hj) k hk
        · cases hj
          simp only [List.getElem?_set]
          by_cases e : i = k
          · rw [if_pos e, if_pos hi]
          · rw [if_neg e]; exact hup k (by omega)
        · cases hj

theorem hist_ok {nums : Int} {fails : Nat → Bool} {h : List (Ev × Out)} {s : M} (H : Hist nums fails h s) :
    Ok (between nums 1 64).toNat h s := by
  induction H with
  | nil => exact ok_create _ _
  | snoc H he hs ih => exact (ok_step ih he hs).1

theorem step_def {n : Nat} {h : List (Ev × Out)} {s : M} {e : Ev} (v : Ok n h s) (he : enabled s e = true)
    (hk : ∀ t, e = .add t → (place n t.key).isSome) : (step s e).isSome := by
  cases e with
  | add t =>
    obtain ⟨i, hi⟩ := Option.isSome_iff_exists.1 (hk t rfl)
    have : i < s.thrs.length := by rw [v.len]; exact place_lt v.pos hi
    simp only [step, add, v.wnums, hi, Option.bind_some, List.getElem?_eq_getElem this]
    cases s.thrs[i] <;> rfl
  | wait => rfl
  | look i =>
    simp only [step]
    cases s.waits[i]? <;> rfl
  | work i =>
    simp only [enabled] at he
    simp only [step]
    cases hth : s.thrs[i]? with
    | none => rw [hth] at he; cases he
    | some w =>
      cases w with
      | none => rw [hth] at he; cases he
      | some w =>
        simp only [Option.isSome_map]
        exact work_def
  | destroy =>
    simp only [enabled] at he
    simp only [step, destroy]
    cases hd : s.dst with
    | none => rfl
    | at_ i =>
      simp only
      cases hth : s.thrs[i]? with
      | none => rfl
      | some w => cases w <;> rfl
    | join i =>
      obtain ⟨w, hth⟩ := v.join i hd
      simp only [hth]
      rfl
    | gone => rw [hd] at he; cases he

end Sis.Mw
