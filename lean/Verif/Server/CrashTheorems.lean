import Verif.Disk.LogTheorems
import Verif.Server.Crash
/- Property theorems on crashes of the server: C22. -/
namespace Sis.Server
open Disk

/-! ### Specification: what a crash may cost -/

/-- The abstract server: the requests acknowledged and still in effect, how many of them are in the saved data, and how many
bytes of the log of the others the operating system has. -/
structure Spec where
  hist : List Bytes
  saved : Nat
  out : Nat

/-- The log files for which no undefined behaviour occurs: either the file fits the read buffer, messages have two bytes or
more, and the file does not end inside a size field, or all messages have 4 to 250 bytes. -/
def SafeCut (k : Nat) (msgs : List Bytes) (out : Nat) : Prop :=
  (out ≤ k + 1 ∧ (∀ m ∈ msgs, 2 ≤ m.length ∧ m.length < 2 ^ 64) ∧ ¬ InSizeField 2 msgs out) ∨ (∀ m ∈ msgs, 4 ≤ m.length ∧ m.length ≤ 250)

/-- A crash keeps the saved requests and those whose record is completely with the operating system; the restart is on the
same day. -/
inductive SpecStep (k : Nat) : Nat × Spec → Ev → Nat × Spec → Prop where
  | write (day sp d) : SpecStep k (day, sp) (.write d) (day, { sp with hist := sp.hist ++ [d] })
  | flush (day sp n) : SpecStep k (day, sp) (.flush n) (day, { sp with out := min (sp.out + n) (encLog (sp.hist.drop sp.saved)).length })
  | save (day sp) : SpecStep k (day, sp) .save (day, ⟨sp.hist, sp.hist.length, 0⟩)
  | newDay (day sp day') : day < day' → SpecStep k (day, sp) (.newDay day') (day', ⟨sp.hist, sp.hist.length, 0⟩)
  | crash (day sp c) : SafeCut k (sp.hist.drop sp.saved) sp.out → CompleteCount (sp.hist.drop sp.saved) sp.out c →
      SpecStep k (day, sp) (.crash day)
        (day, ⟨sp.hist.take (sp.saved + c), sp.saved, (encLog ((sp.hist.drop sp.saved).take c)).length⟩)

inductive SpecRun (k : Nat) : Nat × Spec → List Ev → Nat × Spec → Prop where
  | nil (x) : SpecRun k x [] x
  | cons (x e y es z) : SpecStep k x e y → SpecRun k y es z → SpecRun k x (e :: es) z

/-! ### Helper lemmas -/

variable {S : Type} (exec : S → Bytes → S)

structure Inv (init : S) (s : Srv S) (sp : Spec) : Prop where
  mem : s.mem = sp.hist.foldl exec init
  data : s.data = (sp.hist.take sp.saved).foldl exec init
  le : sp.saved ≤ sp.hist.length
  log : s.log s.date ++ s.buf = encLog (sp.hist.drop sp.saved)
  out : (s.log s.date).length = sp.out
  later : ∀ j, s.date < j → s.log j = []

theorem setFile_same (f : Nat → Bytes) (i : Nat) (b : Bytes) : setFile f i b i = b := by simp [setFile]
theorem setFile_other (f : Nat → Bytes) {i j : Nat} (b : Bytes) (h : j ≠ i) : setFile f i b j = f j := by simp [setFile, h]

theorem safeCut_recover {k : Nat} {msgs : List Bytes} {out c : Nat} (h : SafeCut k msgs out) (hc : CompleteCount msgs out c) (p : Bytes)
    (hp : p <+: encLog msgs) (ho : p.length = out) :
    replayLog (chunksOf k p) = some (msgs.take c) ∧ reopenLog k p = some (encLog (msgs.take c)) := by
  subst ho
  rcases h with ⟨h1, h2, h3⟩ | h
  · constructor
    · have h4 : ¬ InSizeField 4 msgs p.length := by
        rintro ⟨a, r, b, x, y, z⟩
        exact h3 ⟨a, r, b, x, by omega, z⟩
      obtain ⟨n, hn, hr⟩ := C20_replay_partial msgs h2 p hp k h1 h4
      rw [completeCount_unique hc hn]; exact hr
    · by_cases hkp : k + 1 ≤ p.length
      · have he : p.length = k + 1 := by omega
        obtain ⟨n, hn, hr, _⟩ := C19_reopen_keeps_complete_records_partial msgs (fun r hr => (h2 r hr).2) p hp k h3 (by
          intro j hj
          rcases j with _ | j
          · rintro ⟨a, r, b, x, y, z⟩; omega
          · have : j = 0 := by
              rcases j with _ | j
              · rfl
              · exfalso
                have : (j + 1 + 1) * (k + 1) = j * (k + 1) + 2 * (k + 1) := by rw [show j + 1 + 1 = j + 2 by omega, Nat.add_mul]
                omega
            subst this
            rw [show (0 + 1) * (k + 1) = p.length by omega]; exact h3) (.inl h1)
        rw [completeCount_unique hc hn]; exact hr
      · obtain ⟨n, hn, hr, _⟩ := C19_reopen_keeps_complete_records_partial msgs (fun r hr => (h2 r hr).2) p hp k h3 (by
          intro j hj
          rcases j with _ | j
          · rintro ⟨a, r, b, x, y, z⟩; omega
          · exfalso
            have : (j + 1) * (k + 1) = j * (k + 1) + (k + 1) := by rw [Nat.add_mul]; omega
            omega) (.inl h1)
        rw [completeCount_unique hc hn]; exact hr
  · constructor
    · obtain ⟨n, hn, hr⟩ := C21_replay_any_buffer_partial msgs (fun r hr => by have := h r hr; omega) p hp
      rw [completeCount_unique hc hn]; exact hr k
    · obtain ⟨n, hn, hr, _⟩ := C19_short_messages_partial msgs (fun r hr => by have := h r hr; omega) p hp k
      rw [completeCount_unique hc hn]; exact hr

theorem drop_append_le {α} {l m : List α} {n : Nat} (h : n ≤ l.length) : (l ++ m).drop n = l.drop n ++ m := by
  rw [List.drop_append, show n - l.length = 0 by omega]; rfl

/-- Every step of the server follows the specification. -/
theorem step_inv (init : S) (k : Nat) {s : Srv S} {sp : Spec} {e : Ev} {day' : Nat} {sp' : Spec} (hi : Inv exec init s sp)
    (h : SpecStep k (s.date, sp) e (day', sp')) : ∃ s', step exec k s e = some s' ∧ s'.date = day' ∧ Inv exec init s' sp' := by
  cases h with
  | write _ _ d =>
    refine ⟨_, rfl, rfl, ?_⟩
    constructor
    · simp [write, hi.mem]
    · show s.data = _
      rw [hi.data, List.take_append_of_le_length hi.le]
    · show sp.saved ≤ _
      have := hi.le
      simp; omega
    · show s.log s.date ++ (s.buf ++ encRec logHead d) = _
      rw [← List.append_assoc, hi.log, drop_append_le hi.le, encLog_append]
      simp [encLog]
    · exact hi.out
    · exact hi.later
  | flush _ _ n =>
    refine ⟨_, rfl, rfl, ?_⟩
    constructor
    · exact hi.mem
    · exact hi.data
    · exact hi.le
    · show setFile s.log s.date _ s.date ++ s.buf.drop n = _
      rw [setFile_same, List.append_assoc, List.take_append_drop, hi.log]
    · show (setFile s.log s.date _ s.date).length = _
      rw [setFile_same, List.length_append, hi.out, List.length_take]
      have h1 := congrArg List.length hi.log
      rw [List.length_append, hi.out] at h1
      show sp.out + min n s.buf.length = min (sp.out + n) _
      omega
    · intro j hj
      show setFile s.log s.date _ j = []
      rw [setFile_other _ _ (by have : s.date < j := hj; omega)]
      exact hi.later j hj
  | save =>
    refine ⟨_, rfl, rfl, ?_⟩
    constructor
    · exact hi.mem
    · show s.mem = _
      rw [hi.mem, List.take_length]
    · exact Nat.le_refl _
    · show setFile _ s.date [] s.date ++ s.buf.drop s.buf.length = _
      rw [setFile_same]; simp [encLog]
    · show (setFile _ s.date [] s.date).length = 0
      rw [setFile_same]; rfl
    · intro j hj
      show setFile (setFile s.log s.date _) s.date _ j = []
      have hj : s.date < j := hj
      rw [setFile_other _ _ (by omega), setFile_other _ _ (by omega)]
      exact hi.later j hj
  | newDay _ _ day' hlt =>
    refine ⟨_, rfl, rfl, ?_⟩
    have hl : setFile (setFile s.log s.date (s.log s.date ++ s.buf.take s.buf.length)) s.date [] day' = [] := by
      rw [setFile_other _ _ (by omega), setFile_other _ _ (by omega)]
      exact hi.later day' hlt
    constructor
    · exact hi.mem
    · show s.mem = _
      rw [hi.mem, List.take_length]
    · exact Nat.le_refl _
    · show setFile (setFile s.log s.date (s.log s.date ++ s.buf.take s.buf.length)) s.date [] day' ++ s.buf.drop s.buf.length = _
      rw [hl]; simp [encLog]
    · show (setFile (setFile s.log s.date (s.log s.date ++ s.buf.take s.buf.length)) s.date [] day').length = 0
      rw [hl]; rfl
    · intro j hj
      have hj : day' < j := hj
      show setFile (setFile s.log s.date (s.log s.date ++ s.buf.take s.buf.length)) s.date [] j = []
      rw [setFile_other _ _ (by omega), setFile_other _ _ (by omega)]
      exact hi.later j (by omega)
  | crash _ _ c hs hc =>
    have hr := safeCut_recover hs hc (s.log s.date) ⟨s.buf, hi.log⟩ hi.out
    have hcl : c ≤ (sp.hist.drop sp.saved).length := hc.1
    have hle := hi.le
    have hst : restart exec k s.date s = some { s with
        date := s.date, mem := ((sp.hist.drop sp.saved).take c).foldl exec s.data,
        log := setFile s.log s.date (encLog ((sp.hist.drop sp.saved).take c)), buf := [], phase := .idle } := by
      unfold restart
      rw [hr.1, hr.2]
    refine ⟨_, hst, rfl, ?_⟩
    constructor
    · show ((sp.hist.drop sp.saved).take c).foldl exec s.data = _
      rw [hi.data, ← List.foldl_append]
      congr 1
      rw [List.take_add]
    · show s.data = _
      rw [hi.data]
      show _ = ((sp.hist.take (sp.saved + c)).take sp.saved).foldl exec init
      rw [List.take_take, Nat.min_eq_left (by omega)]
    · show sp.saved ≤ (sp.hist.take (sp.saved + c)).length
      rw [List.length_drop] at hcl
      rw [List.length_take]; omega
    · show setFile s.log s.date _ s.date ++ [] = _
      rw [setFile_same, List.append_nil]
      congr 1
      show _ = (sp.hist.take (sp.saved + c)).drop sp.saved
      rw [List.drop_take, Nat.add_sub_cancel_left]
    · show (setFile s.log s.date _ s.date).length = _
      rw [setFile_same]
    · intro j hj
      have hj : s.date < j := hj
      show setFile s.log s.date _ j = []
      rw [setFile_other _ _ (by omega)]
      exact hi.later j hj

/-! ### C22 -/

/-- C22 (partial). Any history of requests, flushes of the stdio layer, saves, changes of day and crashes, each crash outside
a save and followed by a restart on the same day: the data of the server is at every moment the result of the requests the
specification keeps, which are all acknowledged ones except those after the last save whose log record was not completely
handed to the operating system at a crash. Missing: requests whose record is still in the stdio buffer
(`C22_violated_buffer`), crashes inside a save (`C22_violated_save`), a restart on a later day
(`C22_violated_next_day`). -/
theorem C22_crash_keeps_flushed_requests_partial (init : S) (day k : Nat) (evs : List Ev) (day' : Nat) (sp : Spec)
    (h : SpecRun k (day, ⟨[], 0, 0⟩) evs (day', sp)) :
    ∃ s, run exec k { date := day, mem := init, data := init } evs = some s ∧ s.date = day' ∧ s.mem = sp.hist.foldl exec init := by
  have gen : ∀ (x : Nat × Spec) (evs : List Ev) (z : Nat × Spec), SpecRun k x evs z → ∀ s : Srv S, s.date = x.1 → Inv exec init s x.2 →
      ∃ s', run exec k s evs = some s' ∧ s'.date = z.1 ∧ Inv exec init s' z.2 := by
    intro x evs z h
    induction h with
    | nil x => intro s hd hi; exact ⟨s, rfl, hd, hi⟩
    | cons x e y es z hstep _ ih =>
      intro s hd hi
      obtain ⟨xd, xs⟩ := x
      obtain ⟨yd, ys⟩ := y
      simp only at hd; subst hd
      obtain ⟨s1, h1, h2, h3⟩ := step_inv exec init k hi hstep
      obtain ⟨s2, h4, h5⟩ := ih s1 h2 h3
      exact ⟨s2, by rw [run, h1]; exact h4, h5⟩
  obtain ⟨s, h1, h2, h3⟩ := gen _ _ _ h { date := day, mem := init, data := init } rfl
    ⟨rfl, rfl, by simp, by simp [encLog], rfl, fun _ _ => rfl⟩
  exact ⟨s, h1, h2, h3.mem⟩

/-- A crash directly after a flush of everything, or after a save, costs nothing. -/
theorem C22_flushed_means_kept_partial (k day : Nat) (sp sp' : Spec) (h : SpecStep k (day, sp) (.crash day) (day, sp'))
    (hall : sp.out = (encLog (sp.hist.drop sp.saved)).length) : sp'.hist = sp.hist := by
  cases h with
  | crash _ _ c hs hc =>
    have h1 : c = (sp.hist.drop sp.saved).length := by
      apply completeCount_unique hc
      refine ⟨Nat.le_refl _, by rw [List.take_length]; omega, fun h => by omega⟩
    show sp.hist.take (sp.saved + c) = sp.hist
    apply List.take_of_length_le
    rw [h1, List.length_drop]; omega

/-- Whatever the crash, what remains is a prefix of the acknowledged requests that contains all saved ones. -/
theorem C22_crash_keeps_a_prefix (k day day' : Nat) (sp sp' : Spec) (h : SpecStep k (day, sp) (.crash day) (day', sp')) :
    sp'.hist <+: sp.hist ∧ sp'.saved = sp.saved := by
  cases h with
  | crash _ _ c hs hc => exact ⟨List.take_prefix _ _, rfl⟩

/-- For messages of 4 to 250 bytes the specification has a step for every event, whatever was flushed. -/
theorem C22_every_history_is_covered (k day : Nat) (sp : Spec) (e : Ev) (hm : ∀ m ∈ sp.hist, 4 ≤ m.length ∧ m.length ≤ 250)
    (he : match e with | .newDay d => day < d | .crash d => d = day | _ => True) :
    ∃ y, SpecStep k (day, sp) e y := by
  cases e with
  | write d => exact ⟨_, .write day sp d⟩
  | flush n => exact ⟨_, .flush day sp n⟩
  | save => exact ⟨_, .save day sp⟩
  | newDay d => exact ⟨_, .newDay day sp d he⟩
  | crash d =>
    simp only at he; subst he
    have hex : ∀ (msgs : List Bytes) (n : Nat), ∃ c, CompleteCount msgs n c := by
      intro msgs
      induction msgs with
      | nil => intro n; exact ⟨0, by simp, by simp [encLog], by simp⟩
      | cons m t ih =>
        intro n
        by_cases h : n < recLen m
        · refine ⟨0, by simp, by simp [encLog], fun _ => ?_⟩
          simp [encLog, encRec_length]; exact h
        · obtain ⟨c, h1, h2, h3⟩ := ih (n - recLen m)
          refine ⟨c + 1, by simp; omega, ?_, ?_⟩
          · rw [List.take_succ_cons, encLog_cons, List.length_append, encRec_length]; omega
          · intro hlt
            have := h3 (by simpa using hlt)
            rw [List.take_succ_cons, encLog_cons, List.length_append, encRec_length]; omega
    obtain ⟨c, hc⟩ := hex (sp.hist.drop sp.saved) sp.out
    exact ⟨_, .crash d sp c (.inr fun m hmem => hm m (List.mem_of_mem_drop hmem)) hc⟩

/-! The three ways in which an acknowledged request is lost. The data is the list of executed requests. -/

def execLog (l : List Bytes) (d : Bytes) : List Bytes := l ++ [d]

/-- C22 (violated). A request is executed and answered, the process dies: the record was in the stdio buffer and is gone. -/
theorem C22_violated_buffer : ∃ s : Srv (List Bytes), run execLog 99 { date := 1, mem := [], data := [] } [.write [1, 2, 3, 4]] = some s ∧
    s.mem = [[1, 2, 3, 4]] ∧ (restart execLog 99 1 s).map (·.mem) = some [] := by
  exact ⟨_, rfl, rfl, by decide +kernel⟩

/-- C22 (violated). The process dies inside a save, after the log has been moved and before the data is stored: everything
since the last save is lost although the log had been flushed. -/
theorem C22_violated_save : ∃ s : Srv (List Bytes),
    run execLog 99 { date := 1, mem := [], data := [] } [.write [1, 2, 3, 4], .flush 100] = some s ∧ s.mem = [[1, 2, 3, 4]] ∧
      (restart execLog 99 1 (saveMove (saveClose s))).map (·.mem) = some [] := by
  exact ⟨_, rfl, rfl, by decide +kernel⟩

/-- C22 (violated). The process dies after midnight, before the daily save; the new process looks only at the log of the new
day. -/
theorem C22_violated_next_day : ∃ s : Srv (List Bytes),
    run execLog 99 { date := 1, mem := [], data := [] } [.write [1, 2, 3, 4], .flush 100] = some s ∧ s.mem = [[1, 2, 3, 4]] ∧
      (restart execLog 99 2 s).map (·.mem) = some [] := by
  exact ⟨_, rfl, rfl, by decide +kernel⟩

/-- Beside C22: two requests, only the first flushed together with a part of the second, crash, restart, another request. -/
example : SpecRun 99 (1, ⟨[], 0, 0⟩) [.write [1, 2, 3, 4], .write [5, 6, 7, 8], .flush 8, .crash 1, .write [9, 9, 9, 9]]
    (1, ⟨[[1, 2, 3, 4], [9, 9, 9, 9]], 0, 6⟩) := by
  refine .cons _ _ _ _ _ (.write _ _ _) <| .cons _ _ _ _ _ (.write _ _ _) <| .cons _ _ _ _ _ (.flush _ _ _) <|
    .cons _ _ _ _ _ (.crash _ _ 1 (.inr (by simp)) ⟨by simp, by decide, fun _ => by decide⟩) <| .cons _ _ _ _ _ (.write _ _ _) <| ?_
  exact .nil _
example : (run execLog 99 { date := 1, mem := [], data := [] } [.write [1, 2, 3, 4], .write [5, 6, 7, 8], .flush 8, .crash 1, .write [9, 9, 9, 9]]).map
    (·.mem) = some [[1, 2, 3, 4], [9, 9, 9, 9]] := by decide +kernel

end Sis.Server
