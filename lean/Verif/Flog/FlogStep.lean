import Verif.Flog.FlogLemmas
/- The worker that keeps the log of requests, step by step against its specification. -/
namespace Sis.Flog
open Sis Disk Msg Json

theorem rel_put {k : Nat} {w w' : W} {s s' : Sp} (h : Rel k w s) {f c : Bytes} {ms : List Msg} (h1 : w'.conf = s'.conf)
    (h2 : w'.can = s'.can) (h3 : w'.today = s'.today) (h4 : w'.date = s'.date) (h5 : w'.st ≠ .broken) (h6 : stFile w'.st = s'.cur)
    (hw : ∀ g pos, w'.st = .writing g pos → g = f ∧ pos = c.length ∧ Exact k c ms) (hf : w'.files = setFile w.files f (some c))
    (hl : s'.logs = fun g => if g = f then some ms else s.logs g) (hr : FileRel k c ms) : Rel k w' s' := by
  refine ⟨h1, h2, h3, h4, h5, h6, ?_, ?_, ?_⟩
  · intro g pos hg
    obtain ⟨e1, e2, e3⟩ := hw g pos hg
    subst e1
    exact ⟨c, ms, by rw [hf]; simp [setFile], by rw [hl]; simp, e2, e3⟩
  · intro g hg
    rw [hl] at hg; rw [hf]
    by_cases e : g = f
    · simp [e] at hg
    · simp only [if_neg e] at hg
      simp only [setFile, if_neg e]; exact h.none g hg
  · intro g l hg
    rw [hl] at hg; rw [hf]
    by_cases e : g = f
    · subst e
      simp only [if_true, Option.some.injEq] at hg
      subst hg
      exact ⟨c, by simp [setFile], hr⟩
    · simp only [if_neg e] at hg
      simp only [setFile, if_neg e]; exact h.some g l hg

/-- Only fields outside the files changed, and nothing is open. -/
theorem rel_same {k : Nat} {w w' : W} {s s' : Sp} (h : Rel k w s) (h1 : w'.conf = s'.conf) (h2 : w'.can = s'.can) (h3 : w'.today = s'.today)
    (h4 : w'.date = s'.date) (h5 : w'.st = .idle) (h6 : s'.cur = none) (hf : w'.files = w.files) (hl : s'.logs = s.logs) : Rel k w' s' :=
  ⟨h1, h2, h3, h4, by rw [h5]; simp, by rw [h5, h6]; rfl, fun f pos hx => absurd (h5.symm.trans hx) (by simp),
    fun f hx => by rw [hf]; exact h.none f (by rw [hl] at hx; exact hx), fun f ms hx => by rw [hf]; exact h.some f ms (by rw [hl] at hx; exact hx)⟩

theorem openFile_none (k date : Nat) : openFile k true date none = some (some (headBytes date, mainHead)) := rfl

theorem exact_nil (k d : Nat) : Exact k (headBytes d) [] := ⟨d, by simp [encLog], Or.inl (by simp), by simp⟩

theorem step_rel {k : Nat} (hk : k + 1 < 2 ^ 64) {w : W} {s s' : Sp} {op : Op} {v : List View} (h : Rel k w s) (hs : SpStep k s op v s') :
    ∃ w' evs, step k w op = some (w', evs) ∧ evs.map View.of = v ∧ Rel k w' s' := by
  cases hs with
  | openLog a hc hcan =>
    have hst := rel_idle h hc
    obtain ⟨e1, e2⟩ := target_eq h a
    have e1' : target a (setDate a w) = s.log a := e1
    cases hl : s.logs (s.log a) with
    | none =>
      have hf := h.none _ hl
      refine ⟨{ setDate a w with st := .writing (s.log a) mainHead, files := setFile w.files (s.log a) (some (headBytes (s.day a))) }, [.ret true], ?_, rfl, ?_⟩
      · simp only [step, cmdOpen, hst, e1]
        rw [show (setDate a w).can = s.can from h.can, show (setDate a w).files = w.files from rfl, hcan, hf,
          show (setDate a w).today = w.today from rfl, e2, openFile_none]
        rfl
      · refine rel_put h (f := s.log a) (c := headBytes (s.day a)) (ms := []) h.conf h.can h.today ?_ (by simp) rfl ?_ rfl rfl (exact_nil k _).rel
        · show (setDate a w).date = a.date.getD s.date
          simp [setDate, h.date]
        · intro g pos hg
          injection hg with g1 g2
          exact ⟨g1.symm, by rw [headBytes_length]; exact g2.symm, exact_nil k _⟩
    | some ms =>
      obtain ⟨c, hf, hr⟩ := h.some _ _ hl
      obtain ⟨d, o1, o2⟩ := openFile_rel hk hr (s.day a)
      have hlen : (headBytes d ++ encLog (ms.map wire)).length = mainHead + (encLog (ms.map wire)).length := by
        rw [List.length_append, headBytes_length]
      refine ⟨{ setDate a w with st := .writing (s.log a) (mainHead + (encLog (ms.map wire)).length), files := setFile w.files (s.log a) (some (headBytes d ++ encLog (ms.map wire))) }, [.ret true], ?_, rfl, ?_⟩
      · simp only [step, cmdOpen, hst, e1]
        rw [show (setDate a w).can = s.can from h.can, show (setDate a w).files = w.files from rfl, hcan, hf,
          show (setDate a w).today = w.today from rfl, e2, o1]
        rfl
      · refine rel_put h (f := s.log a) (c := headBytes d ++ encLog (ms.map wire)) (ms := ms) h.conf h.can h.today ?_ (by simp) rfl ?_ rfl rfl o2.rel
        · show (setDate a w).date = a.date.getD s.date
          simp [setDate, h.date]
        · intro g pos hg
          injection hg with g1 g2
          exact ⟨g1.symm, by rw [hlen]; exact g2.symm, o2⟩
  | write m f ms hc hl hp hroom =>
    obtain ⟨pos, hst⟩ := rel_writing h hc
    obtain ⟨c, ms', hf, hl', hpos, he⟩ := h.wr f pos hst
    rw [hl] at hl'
    injection hl' with hl'
    subst hl'
    obtain ⟨d, x1, x2, x3⟩ := he
    have henc := (plain_wire hp).1
    have hex : Exact k (c ++ encRec logHead (wire m)) (ms ++ [m]) := by
      refine ⟨d, ?_, hroom, ?_⟩
      · rw [x1, List.map_append, encLog_append, List.append_assoc]; simp [encLog]
      · intro y hy
        rcases List.mem_append.1 hy with hy | hy
        · exact x3 y hy
        · rw [List.mem_singleton.1 hy]; exact hp
    refine ⟨{ w with st := .writing f (pos + (encRec logHead (wire m)).length), files := setFile w.files f (some (c ++ encRec logHead (wire m))) }, [.ret true], ?_, rfl, ?_⟩
    · simp only [step, cmdWrite, hst, henc, hf, Option.map_some, hpos, overlay_end]
    · refine rel_put h (f := f) (c := c ++ encRec logHead (wire m)) (ms := ms ++ [m]) h.conf h.can h.today h.date (by simp) (by rw [show (s.put f (some (ms ++ [m]))).cur = s.cur from rfl, hc]; rfl) ?_ rfl rfl hex.rel
      intro g p hg
      injection hg with g1 g2
      exact ⟨g1.symm, by rw [List.length_append, ← hpos]; exact g2.symm, hex⟩
  | close => exact ⟨_, _, rfl, rfl, rel_same h h.conf h.can h.today h.date rfl rfl rfl rfl⟩
  | sub a ms hc hl =>
    have hst := rel_idle h hc
    obtain ⟨e1, e2⟩ := target_eq h a
    obtain ⟨c, hf, hr⟩ := h.some _ _ hl
    obtain ⟨r1, r2, r3⟩ := replay_rel hk hr
    obtain ⟨l, l1, l2⟩ := deliverAll_plain r3
    refine ⟨setDate a w, ([.start (s.day a)] ++ l.map .msg ++ [.stop (s.day a)]) ++ [.ret true], ?_, ?_, ?_⟩
    · simp only [step, cmdSub, hst, e1]
      rw [show (setDate a w).files = w.files from rfl, hf, show (setDate a w).today = w.today from rfl, e2]
      simp only [subFile, r1, if_true, r2, Option.bind_some, l1, Option.map_some]
    · simp only [List.map_append, l2, List.map_cons, List.map_nil, View.of, List.append_assoc, List.cons_append, List.nil_append]
    · exact rel_same h h.conf h.can h.today (by simp [setDate, h.date]) hst hc rfl rfl
  | unsub a ms j hc hl hj =>
    have hst := rel_idle h hc
    obtain ⟨e1, e2⟩ := target_eq h a
    obtain ⟨c, hf, hr⟩ := h.some _ _ hl
    obtain ⟨r1, r2, r3⟩ := replay_rel hk hr
    obtain ⟨l, l1, l2⟩ := deliverAll_plain (ms := ms.take j) fun m hm => r3 m (List.mem_of_mem_take hm)
    refine ⟨setDate a w, ([.start (s.day a)] ++ l.map .msg ++ [.stop 0]) ++ [.ret true], ?_, ?_, ?_⟩
    · simp only [step, cmdSub, hst, e1]
      rw [show (setDate a w).files = w.files from rfl, hf, show (setDate a w).today = w.today from rfl, e2]
      simp only [subFile, r1, if_true, r2, Option.bind_some]
      rw [Nat.max_eq_right (show 1 ≤ j by omega), ← List.map_take, l1]
      rfl
    · simp only [List.map_append, l2, List.map_cons, List.map_nil, View.of, List.append_assoc, List.cons_append, List.nil_append]
    · exact rel_same h h.conf h.can h.today (by simp [setDate, h.date]) hst hc rfl rfl
  | subNone a brk hc hl =>
    have hst := rel_idle h hc
    obtain ⟨e1, e2⟩ := target_eq h a
    refine ⟨setDate a w, [.ret true], ?_, rfl, rel_same h h.conf h.can h.today (by simp [setDate, h.date]) hst hc rfl rfl⟩
    simp only [step, cmdSub, hst, e1]
    rw [show (setDate a w).files = w.files from rfl, h.none _ hl]
    simp [subFile]
  | remove a hc hp hn h1 h2 h3 =>
    have hst := rel_idle h hc
    obtain ⟨e1, e2⟩ := target_eq h a
    obtain ⟨p, hp'⟩ := Option.ne_none_iff_exists'.1 h1
    obtain ⟨n, hn'⟩ := Option.ne_none_iff_exists'.1 h2
    obtain ⟨d, hd'⟩ := Option.ne_none_iff_exists'.1 h3
    have ht : fileName p n (openDate w.today d) = s.log a := by
      rw [← e1]
      unfold target
      rw [show (setDate a w).conf = w.conf from rfl, h.conf, hp, hn, hp', hn']
      simp only [saveGet, setDate, hd', Option.getD_some]
    refine ⟨{ w with files := setFile w.files (s.log a) none }, [.ret true], ?_, rfl, ?_⟩
    · simp only [step, cmdRemove, hst, hp', hn', hd', ht]
    · refine ⟨h.conf, h.can, h.today, h.date, h.nb, h.cur, ?_, ?_, ?_⟩
      · intro f pos hx
        have hx' : w.st = .writing f pos := hx
        rw [hst] at hx'; cases hx'
      · intro f hf
        by_cases e : f = s.log a
        · simp [setFile, e]
        · simp only [Sp.put, if_neg e] at hf
          simp only [setFile, if_neg e]; exact h.none f hf
      · intro f ms hf
        by_cases e : f = s.log a
        · simp [Sp.put, e] at hf
        · simp only [Sp.put, if_neg e] at hf
          simp only [setFile, if_neg e]; exact h.some f ms hf
  | busyOpen a hc =>
    obtain ⟨f, hf⟩ := Option.ne_none_iff_exists'.1 hc
    obtain ⟨p, hst⟩ := rel_writing h hf
    exact ⟨w, [.ret false], by simp only [step, cmdOpen, hst], rfl, h⟩
  | busySub a brk hc =>
    obtain ⟨f, hf⟩ := Option.ne_none_iff_exists'.1 hc
    obtain ⟨p, hst⟩ := rel_writing h hf
    exact ⟨w, [.ret false], by simp only [step, cmdSub, hst], rfl, h⟩
  | busyRemove a hc =>
    obtain ⟨f, hf⟩ := Option.ne_none_iff_exists'.1 hc
    obtain ⟨p, hst⟩ := rel_writing h hf
    exact ⟨w, [.ret false], by simp only [step, cmdRemove, hst], rfl, h⟩
  | crash f ms cut conf today n hc hl hcut hn hsz =>
    obtain ⟨pos, hst⟩ := rel_writing h hc
    obtain ⟨c, ms', hf, hl', hpos, he⟩ := h.wr f pos hst
    rw [hl] at hl'
    injection hl' with hl'
    subst hl'
    refine ⟨_, _, rfl, rfl, ?_⟩
    refine rel_put h (f := f) (c := c.take cut) (ms := ms.take n) rfl h.can rfl rfl (by simp [init]) rfl ?_ ?_ rfl (cut_rel he hcut hn hsz)
    · intro g p hg; simp [init] at hg
    · simp only [init, cutFiles, hst, hf, Option.map_some]
  | crashIdle cut conf today hc =>
    have hst := rel_idle h hc
    exact ⟨_, _, rfl, rfl, rel_same h rfl h.can rfl rfl rfl hc (by simp only [init, cutFiles, hst]) rfl⟩
  | restart conf today => exact ⟨_, _, rfl, rfl, rel_same h rfl h.can rfl rfl rfl rfl rfl rfl⟩
  | midnight today => exact ⟨_, _, rfl, rfl, h.conf, h.can, rfl, h.date, h.nb, h.cur, h.wr, h.none, h.some⟩

theorem run_rel {k : Nat} (hk : k + 1 < 2 ^ 64) {s s' : Sp} {ops : List Op} {v : List View} (hs : SpRun k s ops v s') :
    ∀ w, Rel k w s → ∃ w' evs, run k w ops = some (w', evs) ∧ evs.map View.of = v ∧ Rel k w' s' := by
  induction hs with
  | nil s => intro w h; exact ⟨w, [], rfl, rfl, h⟩
  | cons s op v s' ops vs s'' h1 _ ih =>
    intro w h
    obtain ⟨w1, e1, a1, a2, a3⟩ := step_rel hk h h1
    obtain ⟨w2, e2, b1, b2, b3⟩ := ih w1 a3
    exact ⟨w2, e1 ++ e2, by simp only [run, a1, Option.bind_some, b1, Option.map_some], by rw [List.map_append, a2, b2], b3⟩

/-! ### Which histories are covered -/

theorem completeCount_exists (recs : List Bytes) (n : Nat) : ∃ c, CompleteCount recs n c := by
  induction recs generalizing n with
  | nil => exact ⟨0, by simp, by simp [encLog], fun h => absurd h (by simp)⟩
  | cons r t ih =>
    by_cases h : (encRec logHead r).length ≤ n
    · obtain ⟨c, h1, h2, h3⟩ := ih (n - (encRec logHead r).length)
      refine ⟨c + 1, by simp; omega, ?_, ?_⟩
      · rw [List.take_succ_cons, encLog_cons, List.length_append]; omega
      · intro hc
        rw [List.take_succ_cons, encLog_cons, List.length_append]
        have := h3 (by simp at hc; omega)
        omega
    · exact ⟨0, by simp, by simp [encLog], fun _ => by simp [encLog]; omega⟩

/-- Covered: the open log is there, all logs hold short messages, nothing is configured. -/
structure Fit (s : Sp) (o : Bool) : Prop where
  can : ∀ f, s.can f = true
  path : s.conf.path = none
  name : s.conf.name = none
  cur : s.cur.isSome = o
  log : ∀ f, s.cur = some f → ∃ ms, s.logs f = some ms
  small : ∀ f ms, s.logs f = some ms → ∀ m ∈ ms, 4 ≤ (wire m).length ∧ (wire m).length ≤ 250

theorem small_put {s : Sp} (h : ∀ f ms, s.logs f = some ms → ∀ m ∈ ms, 4 ≤ (wire m).length ∧ (wire m).length ≤ 250) (g : Bytes)
    (l : Option (List Msg)) (hl : ∀ ms, l = some ms → ∀ m ∈ ms, 4 ≤ (wire m).length ∧ (wire m).length ≤ 250) :
    ∀ f ms, (if f = g then l else s.logs f) = some ms → ∀ m ∈ ms, 4 ≤ (wire m).length ∧ (wire m).length ≤ 250 := by
  intro f ms hf
  by_cases e : f = g
  · rw [if_pos e] at hf; exact hl ms hf
  · rw [if_neg e] at hf; exact h f ms hf

theorem usual_run (k : Nat) (ops : List Op) : ∀ (s : Sp) (o : Bool), Fit s o → Usual o ops → ∃ v s', SpRun k s ops v s' := by
  induction ops with
  | nil => intro s o _ _; exact ⟨_, _, .nil s⟩
  | cons op ops ih =>
    intro s o h hu
    have go : ∀ {v s1 o1}, SpStep k s op v s1 → Fit s1 o1 → Usual o1 ops → ∃ v s', SpRun k s (op :: ops) v s' := by
      intro v s1 o1 h1 h2 h3
      obtain ⟨v', s', h4⟩ := ih s1 o1 h2 h3
      exact ⟨_, _, .cons _ _ _ _ _ _ _ h1 h4⟩
    have same : ∀ s1 : Sp, s1.can = s.can → s1.conf = s.conf → s1.cur = s.cur → s1.logs = s.logs → Fit s1 o := by
      intro s1 a b c d
      exact ⟨fun f => by rw [a]; exact h.can f, by rw [b]; exact h.path, by rw [b]; exact h.name, by rw [c]; exact h.cur,
        fun f hf => by rw [d]; exact h.log f (by rw [c] at hf; exact hf), fun f ms hf => h.small f ms (by rw [d] at hf; exact hf)⟩
    have hnone : s.cur = none ∨ s.cur ≠ none ∧ o = true := by
      cases hc : s.cur with
      | none => exact Or.inl rfl
      | some f => exact Or.inr ⟨by simp, by have := h.cur; rw [hc] at this; exact this.symm⟩
    cases op with
    | openLog a =>
      rcases hnone with hc | ⟨hc, ho⟩
      · refine go (.openLog s a hc (h.can _)) ⟨h.can, h.path, h.name, rfl, ?_, ?_⟩ hu
        · intro f hf
          have hf' : s.log a = f := by simpa [Sp.put] using hf
          exact ⟨(s.logs (s.log a)).getD [], by simp [Sp.put, hf']⟩
        · refine small_put h.small _ _ ?_
          intro ms hms m hm
          injection hms with hms
          cases hl : s.logs (s.log a) with
          | none => rw [hl] at hms; rw [← hms] at hm; simp at hm
          | some l => rw [hl] at hms; rw [← hms] at hm; exact h.small _ _ hl m (by simpa using hm)
      · exact go (.busyOpen s a hc) (ho ▸ h) hu
    | write m =>
      obtain ⟨ho, h1, h2, h3, hu⟩ := hu
      obtain ⟨f, hf⟩ := Option.isSome_iff_exists.1 (h.cur.trans ho)
      obtain ⟨ms, hl⟩ := h.log f hf
      have hnew : ∀ x ∈ ms ++ [m], 4 ≤ (wire x).length ∧ (wire x).length ≤ 250 := by
        intro x hx
        rcases List.mem_append.1 hx with hx | hx
        · exact h.small f ms hl x hx
        · rw [List.mem_singleton.1 hx]; exact ⟨h2, h3⟩
      refine go (.write s m f ms hf hl h1 (Or.inl hnew)) ⟨h.can, h.path, h.name, h.cur, ?_, small_put h.small _ _ ?_⟩ hu
      · intro g hg
        by_cases e : g = f
        · exact ⟨ms ++ [m], by simp [Sp.put, e]⟩
        · obtain ⟨l, hl'⟩ := h.log g hg
          exact ⟨l, by simp only [Sp.put, if_neg e]; exact hl'⟩
      · intro l e; injection e with e; rw [← e]; exact hnew
    | close =>
      refine go (.close s) ⟨h.can, h.path, h.name, rfl, fun f hf => absurd hf (by simp), h.small⟩ hu
    | sub a brk =>
      rcases hnone with hc | ⟨hc, ho⟩
      · cases hl : s.logs (s.log a) with
        | none => 
          refine go (.subNone s a brk hc hl) (same _ rfl rfl rfl rfl) ?_
          cases brk with
          | none => exact hu
          | some j => exact hu.2
        | some ms =>
          cases brk with
          | none => exact go (.sub s a ms hc hl) (same _ rfl rfl rfl rfl) hu
          | some j => exact go (.unsub s a ms j hc hl hu.1) (same _ rfl rfl rfl rfl) hu.2
      · refine go (.busySub s a brk hc) h ?_
        cases brk with
        | none => exact hu
        | some j => exact hu.2
    | remove a =>
      obtain ⟨h3, h4, h5, hu⟩ := hu
      rcases hnone with hc | ⟨hc, ho⟩
      · refine go (.remove s a hc h.path h.name h3 h4 h5) ⟨h.can, h.path, h.name, h.cur, ?_, small_put h.small _ _ (fun ms e => absurd e (by simp))⟩ hu
        intro f hf
        have : s.cur = some f := hf
        rw [hc] at this; cases this
      · exact go (.busyRemove s a hc) h hu
    | crash cut conf today =>
      obtain ⟨h1, h2, h3, hu⟩ := hu
      cases hc : s.cur with
      | none =>
        exact go (.crashIdle s cut conf today hc) ⟨h.can, h2, h3, congrArg Option.isSome hc,
          fun f hf => absurd (hc.symm.trans hf) (by simp), h.small⟩ hu
      | some f =>
        obtain ⟨ms, hl⟩ := h.log f hc
        have hms := h.small f ms hl
        obtain ⟨c, hcc⟩ := completeCount_exists (ms.map wire) (cut - 16)
        refine go (.crash s f ms cut conf today c hc hl h1 hcc (not_inSize_short _ _ fun r hr => by
          obtain ⟨m, hm, rfl⟩ := List.mem_map.1 hr; exact (hms m hm).2)) ⟨h.can, h2, h3, rfl, fun f hf => absurd hf (by simp), small_put h.small _ _ ?_⟩ hu
        intro l e; injection e with e; rw [← e]
        exact fun m hm => hms m (List.mem_of_mem_take hm)
    | restart conf today =>
      obtain ⟨h2, h3, hu⟩ := hu
      exact go (.restart s conf today) ⟨h.can, h2, h3, rfl, fun f hf => absurd hf (by simp), h.small⟩ hu
    | midnight today => exact go (.midnight s today) (same _ rfl rfl rfl rfl) hu

end Sis.Flog
