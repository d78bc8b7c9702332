import Verif.Snodb.WlogDay
import Verif.Snodb.SnodbTheorems
/-
C118: what of a day is in its log and in its file.
-/
namespace Sis.Snodb
open Sis

/-- No logs, or no files. -/
def nothing : Nat → Option (List Rec) := fun _ => none

/-- Tables are written as they come, unless they begin with 0. -/
private def wl (keep : Bool) : Env := ⟨keep, fun b => if b.head? = some 0 then none else some b, fun _ b => b, fun _ b => b⟩

/-- The process begins with an empty disk. -/
def empty0 (keep : Bool) : Option W := boot (wl keep) nothing nothing 1

/-- C118, in part.  The process starts with any logs and files, and any whole days have been since; then comes a whole day `d` that was not yet: keys, tables and the
start, then packets, readers and whatever else comes, in any order with the thread of the log; that thread has time for all packets; the day is stopped.  Then its
file has what its log had when the process started, then the keys, the tables and all packets of the day from the first that begins a block, in their order; the log is removed;
and the logs and files of other days are as they were.

Missing: a thread that has no time, a day that starts twice or is not stopped, and who subscribes after midnight (the violations below). -/
theorem C118_day_partial {e : Env} {logs files : Nat → Option (List Rec)} {today d : Nat} {ds : List Nat} {w w' : W} {K T : Bytes} {ps : List Bytes}
    (h : Since e logs files today ds w) (hd : d ∉ ds) (hday : WholeDay e w d K T ps w') :
    w'.files d = (if w.logs d = none ∧ record K T ps = [] then w.files d else some ((w.logs d).getD [] ++ record K T ps)) ∧ w'.logs d = none ∧
    ∀ x, x ≠ d → w'.logs x = w.logs x ∧ w'.files x = w.files x := by
  obtain ⟨_, g1, g2, g3⟩ := whole_day (since_ready h) hd hday
  exact ⟨g3, g2, g1⟩

/-- C118, in part.  The files of all days: whatever days come after, the file of a day that was is not touched. -/
theorem C118_kept_partial {e : Env} {logs files : Nat → Option (List Rec)} {today d : Nat} {ds : List Nat} {w w' : W} {K T : Bytes} {ps : List Bytes}
    (h : Since e logs files today ds w) (hd : d ∉ ds) (hday : WholeDay e w d K T ps w') {x : Nat} (hx : x ∈ ds) : w'.files x = w.files x :=
  ((C118_day_partial h hd hday).2.2 x (fun h => hd (h ▸ hx))).2

/-- C118, in part.  The process dies during a day, wherever the thread of the log is, when `n` records of the open log are on the disk, and starts again: for some number `j` of packets
the thread has seen, the log of the day has what it had before and the records for these packets, or the first `n` of them all; nothing else on the disk is changed.  With
`C118_day_partial` that is what the file of the day begins with in the end. -/
theorem C118_crash_partial {e : Env} {logs files : Nat → Option (List Rec)} {today d : Nat} {ds : List Nat} {w w1 w2 : W} {K T : Bytes} {ps : List Bytes} {n t : Nat} {o : List Out}
    (h : Since e logs files today ds w) (hd : d ∉ ds) (hday : Running e w d K T ps w1) (hc : actStep e w1 (.crash n t) = some (w2, o)) :
    ∃ j logs2, j ≤ ps.length ∧ boot e logs2 w.files t = some w2 ∧ w2.files = w.files ∧ w2.logs = logs2 ∧ (∀ x, x ≠ d → logs2 x = w.logs x) ∧
      (logs2 d = if record K T (ps.take j) = [] then w.logs d else some (((w.logs d).getD [] ++ record K T (ps.take j)).take n)) := by
  obtain ⟨B, g1, g2, g3⟩ := running_in (since_ready h) hd hday
  obtain ⟨k, hk, hB, hk2, l1, l2, l3, l4⟩ := g1.log
  have hseen : (w1.s.out.take k).drop B = ps.take (k - B) := by rw [← g2, List.drop_take]
  rw [hseen] at l2 l3 l4
  have hrec : fromBlock (ps.take (k - B)) = [] ↔ record K T (ps.take (k - B)) = [] := by
    unfold record
    constructor
    · intro hx; rw [if_pos hx]
    · intro hx
      by_cases hf : fromBlock (ps.take (k - B)) = []
      · exact hf
      · rw [if_neg hf] at hx; cases hx
  simp only [actStep, Option.map_eq_some_iff, Prod.mk.injEq] at hc
  obtain ⟨w3, h3, rfl, _⟩ := hc
  rw [g1.files] at h3
  have hb := boot_facts (e := e) (onDisk w1 n) w.files t
  obtain ⟨w4, b1, b2, b3, _⟩ := hb
  rw [b1] at h3
  cases h3
  have hlen : w1.s.out.length = B + ps.length := by rw [← g2, List.length_drop]; omega
  refine ⟨k - B, _, by omega, b1, b3, b2, ?_, ?_⟩
  · intro x hx
    unfold onDisk
    rw [l3, l4]
    by_cases hf : fromBlock (ps.take (k - B)) = []
    · rw [if_pos hf, if_pos hf]
    · rw [if_neg hf, if_neg hf]
      dsimp only
      rw [setDay_other _ _ hx, setDay_other _ _ hx]
  · unfold onDisk
    rw [l3, l4]
    by_cases hf : fromBlock (ps.take (k - B)) = []
    · rw [if_pos (hrec.1 hf), if_pos hf, if_pos hf]
    · rw [if_neg (fun hx => hf (hrec.2 hx)), if_neg hf, if_neg hf]
      dsimp only
      rw [setDay_same, setDay_same]
      rfl

/-- C118, in part.  The process always starts, whatever the logs hold, and leaves them and the files as they are. -/
theorem C118_boot_partial (e : Env) (logs files : Nat → Option (List Rec)) (today : Nat) :
    ∃ w, boot e logs files today = some w ∧ w.logs = logs ∧ w.files = files := by
  obtain ⟨w, h1, h2, h3, _⟩ := boot_facts (e := e) logs files today
  exact ⟨w, h1, h2, h3⟩

/-! A day, and a day with a crash in the middle. -/

def morning : List Act := [.ev (.keys (some [107])), .ev (.sdbs (some [116]))]

example : ∃ w0 w1 w2 o, empty0 true = some w0 ∧ Since (wl true) nothing nothing 1 [] w1 ∧ actRun (wl true) w0 [.log] = some (w1, o) ∧
    WholeDay (wl true) w1 1 [107] [116] [[1], [129, 7], [2]] w2 ∧ w2.files 1 = some [.keys [107], .sdbs [116], .zpub [129, 7], .zpub [2]] := by
  have hday : ∀ w0 w1 o, empty0 true = some w0 → actRun (wl true) w0 [.log] = some (w1, o) →
      ∃ w2, WholeDay (wl true) w1 1 [107] [116] [[1], [129, 7], [2]] w2 ∧ w2.files 1 = some [.keys [107], .sdbs [116], .zpub [129, 7], .zpub [2]] := by
    intro w0 w1 o h0 h1
    cases h0
    cases h1
    refine ⟨_, ⟨_, 3, _, _, [], 0, _, ⟨morning, [.ev (.zpub [1]), .log, .ev (.zpub [129, 7]), .ev (.zpub [2])], _, _, _, rfl, rfl, by decide, by decide, by decide,
      ⟨[116], by decide, by decide⟩, by decide +kernel⟩, by decide, rfl, rfl, by decide, Or.inl (by decide)⟩, by decide +kernel⟩
  obtain ⟨w2, a, b⟩ := hday _ _ _ rfl rfl
  exact ⟨_, _, w2, _, rfl, .boot rfl rfl, rfl, a, b⟩

example : (empty0 true).bind (fun w0 => (actRun (wl true) w0 ([.log] ++ morning ++ [.ev (.start 1), .ev (.zpub [129, 7]), .log, .crash 9 1, .log] ++ morning ++
      [.ev (.start 1), .ev (.zpub [130]), .log, .ev (.stop [])])).map fun x => (x.1.files 1, x.1.logs 1)) =
    some (some [.keys [107], .sdbs [116], .zpub [129, 7], .keys [107], .sdbs [116], .zpub [130]], none) := by decide +kernel

/-! What fails. -/

/-- What is in files and logs of the first two days after a history, on an empty disk. -/
def ends (keep : Bool) (as : List Act) : Option (Option (List Rec) × Option (List Rec) × Option (List Rec) × Option (List Rec)) :=
  (empty0 keep).bind fun w0 => (actRun (wl keep) w0 as).map fun x => (x.1.files 1, x.1.logs 1, x.1.files 2, x.1.logs 2)

/-- After a crash the packets of the day are read from its log and thrown away: whatever the log holds behind keys and tables, the list is empty, so that whoever subscribes from
the head gets nothing of them. -/
theorem C118_violated_reload (e : Env) (logs files : Nat → Option (List Rec)) (today : Nat) (K T : Bytes) (ps : List Bytes)
    (h : logs today = some (.keys K :: .sdbs T :: ps.map .zpub)) : ∃ w, boot e logs files today = some w ∧ w.s.out = [] := by
  have key : ∀ ps : List Bytes, ∀ s : St, s.status ≠ .none → s.keys = .val K → s.sdbs = .val T → s.readers = [] → s.out = [] →
      ∃ s', loadAll e s (ps.map .zpub) = some s' ∧ s'.out = [] := by
    intro ps
    induction ps with
    | nil => intro s _ _ _ _ h; exact ⟨s, rfl, h⟩
    | cons p ps ih =>
      intro s h1 h2 h3 h4 h5
      have : loadOne e s (.zpub p) = some { s with status := .work } := by
        unfold loadOne writeInit
        simp [h1, h2, h3, h4]
      obtain ⟨s', i1, i2⟩ := ih { s with status := .work } (by simp) h2 h3 h4 h5
      exact ⟨s', by rw [List.map_cons]; unfold loadAll; rw [this]; exact i1, i2⟩
  obtain ⟨a1, a2, a3, a4, a5, a6, a7, a8⟩ := start_init e today today
  obtain ⟨s', h1, h2⟩ := key ps { (start e (init today) today).1 with keys := .val K, sdbs := .val T } (by show (start e (init today) today).1.status ≠ _; rw [a8]; decide) rfl rfl a1 a7
  unfold boot
  rw [h]
  dsimp only
  have : loadAll e (start e (init today) today).1 (.keys K :: .sdbs T :: ps.map .zpub) = some s' := h1
  rw [this]
  exact ⟨_, rfl, h2⟩

/-- A second start of the same day after its stop: the packets are accepted, and they come neither into the log nor into the file. -/
theorem C118_violated_again : ends true ([.log] ++ morning ++ [.ev (.start 1), .ev (.zpub [129]), .log, .ev (.stop []), .ev (.start 1), .ev (.zpub [130]), .log, .ev (.stop [])]) =
    some (some [.keys [107], .sdbs [116], .zpub [129]], none, none, none) := by decide +kernel

/-- The day is stopped before the thread of the log has read all: what it has not read is lost. -/
theorem C118_violated_slow : ends true ([.log] ++ morning ++ [.ev (.start 1), .ev (.zpub [129]), .log, .ev (.zpub [2]), .ev (.stop []), .log, .log]) =
    some (some [.keys [107], .sdbs [116], .zpub [129]], none, none, none) := by decide +kernel

/-- The last packets of the compressor are never in the file, however fast the thread is: they come when closing the log is the next thing the command does. -/
theorem C118_violated_last : ends true ([.log] ++ morning ++ [.ev (.start 1), .ev (.pub 0 0 [1]), .ev (.pack [[129]]), .log, .ev (.stop [[2]]), .log, .log]) =
    some (some [.keys [107], .sdbs [116], .zpub [129]], none, none, none) := by decide +kernel

/-- The first packets come before the thread of the log has begun: they are lost. -/
theorem C118_violated_first : ends true (morning ++ [.ev (.start 1), .ev (.zpub [129]), .log, .ev (.zpub [130]), .log, .ev (.stop [])]) =
    some (some [.keys [107], .sdbs [116], .zpub [130]], none, none, none) := by decide +kernel

/-- The next day starts without a stop: its packets are in the log of the day before, and when it is stopped no day has a file. -/
theorem C118_violated_nostop : ends false ([.log] ++ morning ++ [.ev (.start 1), .ev (.zpub [129]), .log, .ev (.start 2), .ev (.zpub [130]), .log, .ev (.stop [])]) =
    some (none, some [.keys [107], .sdbs [116], .zpub [129], .keys [107], .sdbs [116], .zpub [130]], none, none) := by decide +kernel

/-- The thread reads the first block of a day after the stop: the log of that day is opened again and stays open, and the whole next day goes into it and has no file. -/
theorem C118_violated_late : ends false ([.log] ++ morning ++ [.ev (.start 1), .ev (.zpub [129]), .ev (.stop []), .log, .ev (.start 2), .ev (.zpub [130]), .log, .ev (.stop [])]) =
    some (none, some [.keys [107], .sdbs [116], .zpub [129], .keys [107], .sdbs [116], .zpub [130]], none, none) := by decide +kernel

/-- Somebody subscribes after midnight, before the stop: the day of the stream is the next one, and the day has no file. -/
theorem C118_violated_midnight : ends true ([.log] ++ morning ++ [.ev (.start 1), .ev (.zpub [129]), .log, .ev (.sub ⟨5, none, star, true, false, none, 2, false⟩), .ev (.stop [])]) =
    some (none, some [.keys [107], .sdbs [116], .zpub [129]], none, none) := by decide +kernel

/-- A day starts while the thread of the log is behind, on a list that keeps all: it reads memory that is free. -/
theorem C118_violated_crash : ends true ([.log] ++ morning ++ [.ev (.start 1), .ev (.zpub [129]), .ev (.stop []), .ev (.start 2), .log]) = none := by decide +kernel

end Sis.Snodb
