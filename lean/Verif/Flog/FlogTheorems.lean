import Verif.Flog.FlogStep
/- C112: what is written to the log of requests is heard again. -/
namespace Sis.Flog
open Sis Disk Msg Json

/-! ### C112 -/

/-- C112. Whatever the history of opening, writing, closing, subscribing, unsubscribing, removing, crashes, restarts and days:
the answers and what the subscribers hear are those of the specification, in which a log is a list of messages.  Missing:
messages that C31 does not cover (`C112_violated_message`), logs over 16 MB of messages of more than 250 bytes or less than 4
(C19, C21), crashes that leave a part of the head of the file (`C112_violated_head`) or cut a size field
(`C112_violated_torn_size`), removing a log if directory or name are configured (`C112_violated_remove`), files that cannot be
written (`C112_violated_no_open`), writing without opening (`C112_violated_closed`). -/
theorem C112_history_partial (k : Nat) (hk : k + 1 < 2 ^ 64) (conf : Conf) (today : Nat) (can : Bytes → Bool) (ops : List Op)
    (heard : List View) (s : Sp) (h : SpRun k { conf := conf, can := can, today := today, date := today } ops heard s) :
    ∃ w evs, run k (init conf today can fun _ => none) ops = some (w, evs) ∧ evs.map View.of = heard := by
  obtain ⟨w, evs, h1, h2, -⟩ := run_rel hk h (init conf today can fun _ => none)
    ⟨rfl, rfl, rfl, rfl, by simp [init], rfl, fun f pos hx => absurd hx (by simp [init]), fun f _ => rfl, fun f ms hx => absurd hx (by simp)⟩
  exact ⟨w, evs, h1, h2⟩

/-! ### Cases -/

/-- A binary request `set a.b` with two bytes, and a text request. -/
def reqBin : Msg := { bytes := true, sw := { cmd := true, subject := true, info := true }, cmd := some (str "set"),
                      subject := some (str "a.b"), info := some [1, 0] }
def reqText : Msg := { name := some (str "me"), sw := { cmd := true, info := true }, cmd := some (str "set"), info := some (str "x y") }

def logArgs : Args := { path := some (str "d"), name := some (str "n"), date := some 20240101 }
def logConf : Conf := { key := str "log" }

/-- What is heard in a history that begins without files. -/
def heard (k : Nat) (conf : Conf) (can : Bytes → Bool) (ops : List Op) : Option (List View) :=
  (run k (init conf 20240102 can fun _ => none) ops).map fun r => r.2.map View.of

theorem reqBin_plain : Plain reqBin := by
  refine ⟨⟨by decide, by decide⟩, by decide, by unfold listTag; decide, fun _ => ⟨by decide, ?_, ?_, ?_, ?_⟩, fun h => absurd h (by decide)⟩ <;>
    (unfold short; decide +kernel)

theorem reqText_plain : Plain reqText := by
  refine ⟨⟨by decide +kernel, by decide +kernel⟩, by decide, by unfold listTag; decide, fun h => absurd h (by decide), fun _ => ⟨by decide, ?_, ?_, ?_, ?_⟩⟩
  · intro h; exact absurd h (by decide)
  · intro _; exact ⟨_, rfl, by unfold okStr; decide +kernel⟩
  · intro h; exact absurd h (by decide)
  · intro _; exact ⟨_, rfl, by unfold okStr; decide +kernel⟩

/-- Beside C112: two requests, the process dies with the second one half written, the log is opened again, a third request,
all are heard, the log is removed and nothing is heard. -/
example : ∃ s, SpRun 99 { conf := logConf, can := fun _ => true, today := 20240102, date := 20240102 }
    [.openLog logArgs, .write reqBin, .write reqText, .crash 40 logConf 20240103, .openLog {}, .close, .openLog logArgs, .sub logArgs none, .write reqText,
      .close, .sub logArgs none, .sub logArgs (some 1), .remove logArgs, .sub logArgs none]
    [.ret true, .ret true, .ret true, .ret true, .ret true, .ret true, .ret false, .ret true, .ret true,
      .start 20240101, .ofMsg reqBin, .ofMsg reqText, .stop 20240101, .ret true, .start 20240101, .ofMsg reqBin, .stop 0, .ret true,
      .ret true, .ret true] s := by
  have e1 : encLog ([reqBin, reqText].map wire) = encLog ([reqBin].map wire) ++ encRec logHead (wire reqText) := by simp [encLog]
  have w1 : (wire reqBin).length = 13 := by decide +kernel
  have w2 : (wire reqText).length = 29 := by decide +kernel
  refine ⟨_, .cons _ _ _ _ _ _ _ (.openLog _ _ rfl rfl) <| .cons _ _ _ _ _ _ _ (.write _ _ _ [] rfl (by simp [Sp.put]) reqBin_plain (Or.inl ?_)) <|
    .cons _ _ _ _ _ _ _ (.write _ _ _ [reqBin] rfl (by simp [Sp.put]) reqText_plain (Or.inl ?_)) <|
    .cons _ _ _ _ _ _ _ (.crash _ _ [reqBin, reqText] _ _ _ 1 rfl (by simp [Sp.put]) (by decide) ?_ (not_inSize_short _ _ ?_)) <|
    .cons _ _ _ _ _ _ _ (.openLog _ _ rfl rfl) <| .cons _ _ _ _ _ _ _ (.close _) <| .cons _ _ _ _ _ _ _ (.openLog _ _ rfl rfl) <|
    .cons _ _ _ _ _ _ _ (.busySub _ _ _ (by simp [Sp.put])) <|
    .cons _ _ _ _ _ _ _ (.write _ _ _ [reqBin] rfl ?_ reqText_plain (Or.inl ?_)) <| .cons _ _ _ _ _ _ _ (.close _) <|
    .cons _ _ _ _ _ _ _ (.sub _ _ [reqBin, reqText] rfl ?_) <| .cons _ _ _ _ _ _ _ (.unsub _ _ [reqBin, reqText] 1 rfl ?_ (by decide)) <|
    .cons _ _ _ _ _ _ _ (.remove _ _ rfl rfl rfl (by decide) (by decide) (by decide)) <| .cons _ _ _ _ _ _ _ (.subNone _ _ _ rfl ?_) <| .nil _⟩
  · intro m hm; simp only [List.nil_append, List.mem_singleton] at hm; rw [hm, w1]; decide
  · intro m hm
    simp only [List.cons_append, List.nil_append, List.mem_cons, List.not_mem_nil, or_false] at hm
    rcases hm with hm | hm <;> rw [hm] <;> omega
  · refine ⟨by decide, by decide +kernel, fun _ => by decide +kernel⟩
  · intro r hr
    simp only [List.map_cons, List.map_nil, List.mem_cons, List.not_mem_nil, or_false] at hr
    rcases hr with hr | hr <;> rw [hr] <;> omega
  · decide +kernel
  · intro m hm
    simp only [List.cons_append, List.nil_append, List.mem_cons, List.not_mem_nil, or_false] at hm
    rcases hm with hm | hm <;> rw [hm] <;> omega
  · decide +kernel
  · decide +kernel
  · decide +kernel

/-- C112 (violated). The process dies before the sixteen bytes of the head are on the disk: opening the log again is answered
with success, and so is writing, but the record is written over the head and nothing is ever heard. -/
theorem C112_violated_head : ∀ n < 16, heard 99 logConf (fun _ => true)
    [.openLog logArgs, .crash n logConf 20240103, .openLog logArgs, .write reqText, .close, .sub logArgs none] =
      some [.ret true, .ret true, .ret true, .ret true, .ret true] := by decide +kernel

/-- C112 (violated). A file of another kind under the name of the log is not refused: opening and writing are answered with success,
and the record is written over its first bytes. -/
theorem C112_violated_foreign (k : Nat) (today : Nat) (c : Bytes) (m : Msg) (t : Bytes) (hm : encode m = some t) (h8 : c.getD 8 0 = 0) (h9 : c.getD 9 0 = 0) :
    (run k (init logConf today (fun _ => true) fun f => if f = str "d/n/20240101.log" then some c else none)
      [.openLog logArgs, .write m]).map (fun r => (r.2, r.1.files (str "d/n/20240101.log"))) =
    some ([.ret true, .ret true], some (encRec logHead t ++ c.drop (encRec logHead t).length)) := by
  have hf : fileName (str "d") (str "n") 20240101 = str "d/n/20240101.log" := by decide +kernel
  have hh : headOk c = false := by
    have : styleOf c = 0 := by unfold styleOf; rw [h8, h9]; decide
    simp [headOk, this]
  have ht : target logArgs (setDate logArgs (init logConf today (fun _ => true) fun f => if f = str "d/n/20240101.log" then some c else none)) = str "d/n/20240101.log" := hf
  simp only [run, step, cmdOpen, init] at ht ⊢
  rw [ht]
  simp [openFile, hh, setDate, cmdWrite, hm, setFile, overlay]
/-- Beside it: a message that can be encoded. -/
example : ∃ t, encode reqBin = some t := ⟨_, rfl⟩

/-- C112 (violated). The process dies inside a size field: opening the log again reads bytes that are not there. -/
theorem C112_violated_torn_size : Plain { reqBin with info := some (List.replicate 400 1) } ∧ heard 99 logConf (fun _ => true)
    [.openLog logArgs, .write { reqBin with info := some (List.replicate 400 1) }, .crash 18 logConf 20240102, .openLog logArgs] = none := by
  refine ⟨⟨⟨by decide, by decide⟩, by decide, by unfold listTag; decide, fun _ => ⟨by decide, ?_, ?_, ?_, ?_⟩, fun h => absurd h (by decide)⟩, by decide +kernel⟩ <;>
    (unfold short; decide +kernel)

/-- C112 (violated). With a configured directory a removed log is still there: the removal is answered with success. -/
theorem C112_violated_remove : heard 99 { logConf with path := some (str "c") } (fun _ => true)
    [.openLog logArgs, .write reqBin, .close, .remove logArgs, .sub logArgs none] =
      some [.ret true, .ret true, .ret true, .ret true, .start 20240101, .ofMsg reqBin, .stop 20240101, .ret true] := by decide +kernel

/-- C112 (violated). If the file cannot be created the opening is answered with success and the first record goes through a
null pointer. -/
theorem C112_violated_no_open : heard 99 logConf (fun _ => false) [.openLog logArgs] = some [.ret true] ∧
    heard 99 logConf (fun _ => false) [.openLog logArgs, .write reqBin] = none := by decide +kernel

/-- C112 (violated). A record written while no log is open is answered with success and is gone. -/
theorem C112_violated_closed : heard 99 logConf (fun _ => true) [.write reqBin, .openLog logArgs, .close, .sub logArgs none] =
    some [.ret true, .ret true, .ret true, .start 20240101, .stop 20240101, .ret true] := by decide +kernel

/-- C112 (violated). A list that came with a request is not in the log; a request whose name has a brace is heard as an empty
message, and of a request whose name has a colon and a quote a part of the name. -/
theorem C112_violated_message :
    heard 99 logConf (fun _ => true) [.openLog logArgs,
      .write { reqBin with tag := 7, sw := { reqBin.sw with tag := true }, argvs := some [[1, 2], [3]] }, .close, .sub logArgs none] =
      some [.ret true, .ret true, .ret true, .start 20240101,
        .msg { content reqBin with tag := some 7, info := some [] } true, .stop 20240101, .ret true] ∧
    heard 99 logConf (fun _ => true) [.openLog logArgs, .write { reqText with name := some (str "a{b") }, .close, .sub logArgs none] =
      some [.ret true, .ret true, .ret true, .start 20240101, .msg ⟨[], none, none, none, none, none, none⟩ false, .stop 20240101, .ret true] ∧
    heard 99 logConf (fun _ => true) [.openLog logArgs, .write { reqText with name := some (str "me:\""), sw := {} }, .close, .sub logArgs none] =
      some [.ret true, .ret true, .ret true, .start 20240101, .msg ⟨str "me", none, none, none, none, none, none⟩ false, .stop 20240101, .ret true] := by
  decide +kernel

/-- C112, which histories are covered: every usual one has a run of the specification, so that the worker never runs into
undefined behaviour in it and answers and delivers as the specification says. -/
theorem C112_usual_histories_are_covered_partial (k : Nat) (hk : k + 1 < 2 ^ 64) (conf : Conf) (today : Nat) (can : Bytes → Bool) (ops : List Op)
    (hcan : ∀ f, can f = true) (hp : conf.path = none) (hn : conf.name = none) (h : Usual false ops) :
    ∃ v s w evs, SpRun k { conf := conf, can := can, today := today, date := today } ops v s ∧
      run k (init conf today can fun _ => none) ops = some (w, evs) ∧ evs.map View.of = v := by
  obtain ⟨v, s, hr⟩ := usual_run k ops { conf := conf, can := can, today := today, date := today } false
    ⟨hcan, hp, hn, rfl, fun f hf => absurd hf (by simp), fun f ms hf => absurd hf (by simp)⟩ h
  obtain ⟨w, evs, h1, h2⟩ := C112_history_partial k hk conf today can ops v s hr
  exact ⟨v, s, w, evs, hr, h1, h2⟩

/-- Beside it: a usual history. -/
example : Usual false [.openLog logArgs, .write reqBin, .write reqText, .crash 40 logConf 20240103, .openLog logArgs, .write reqText, .close,
    .sub logArgs (some 1), .remove logArgs] :=
  ⟨rfl, reqBin_plain, by decide +kernel, by decide +kernel, rfl, reqText_plain, by decide +kernel, by decide +kernel, by decide, rfl, rfl,
    rfl, reqText_plain, by decide +kernel, by decide +kernel, by decide, by decide, by decide, by decide, trivial⟩

end Sis.Flog
