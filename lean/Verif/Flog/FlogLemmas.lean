import Verif.Flog.FlogSpec
import Verif.Disk.LogTheorems
/- Lemmas on the worker that keeps the log of requests. -/
namespace Sis.Flog
open Sis Disk Msg Json

/-! ### Messages -/

theorem plain_wire {m : Msg} (h : Plain m) :
    encode m = some (wire m) ∧ 2 ≤ (wire m).length ∧ ∃ m', decode (wire m) = some (some m') ∧ content m' = content m ∧ m'.bytes = m.bytes := by
  obtain ⟨h1, h2, h3, h4, h5⟩ := h
  have key : ∃ t m', encode m = some t ∧ decode t = some (some m') ∧ content m' = content m ∧ m'.bytes = m.bytes := by
    cases hb : m.bytes with
    | true => obtain ⟨a, b, c, d, e⟩ := h4 hb; exact C31_binary_partial m hb h1 a h2 h3 b c d e
    | false => obtain ⟨a, b, c, d, e⟩ := h5 hb; exact C31_text_partial m hb h1 a h2 h3 b c d e
  obtain ⟨t, m', e1, e2, e3, e4⟩ := key
  have hw : wire m = t := by unfold wire; rw [e1]; rfl
  rw [hw]
  refine ⟨e1, ?_, m', e2, e3, e4⟩
  unfold decode at e2
  cases hp : strPos (t.take 128) with
  | none => rw [hp] at e2; simp at e2
  | some cur =>
    rw [hp] at e2
    simp only at e2
    cases hd : t.drop (cur + 1) with
    | nil => rw [hd] at e2; simp at e2
    | cons b r =>
      have := congrArg List.length hd
      simp at this; omega

theorem deliver_plain {m : Msg} (h : Plain m) : ∃ m', deliver (wire m) = some m' ∧ View.of (.msg m') = View.ofMsg m := by
  obtain ⟨-, -, m', h1, h2, h3⟩ := plain_wire h
  exact ⟨m', by simp [deliver, h1], by simp [View.of, View.ofMsg, h2, h3]⟩

theorem deliverAll_plain {ms : List Msg} (h : ∀ m ∈ ms, Plain m) :
    ∃ l, deliverAll (ms.map wire) = some l ∧ (l.map Ev.msg).map View.of = ms.map View.ofMsg := by
  induction ms with
  | nil => exact ⟨[], rfl, rfl⟩
  | cons m r ih =>
    obtain ⟨m', h1, h2⟩ := deliver_plain (h m (by simp))
    obtain ⟨l, h3, h4⟩ := ih fun x hx => h x (by simp [hx])
    refine ⟨m' :: l, by simp [deliverAll, h1, h3], ?_⟩
    simp only [List.map_cons, h2, List.cons.injEq, true_and]; exact h4

/-! ### Records -/

theorem not_inSize_end (recs : List Bytes) (n : Nat) (h : (encLog recs).length ≤ n) : ¬ InSizeField 2 recs n := by
  rintro ⟨a, r, b, h1, -, h3⟩
  rw [h1, encLog_append, encLog_cons, List.length_append, List.length_append, encRec_length] at h
  unfold recLen hdrLen at h
  omega

theorem not_inSize_short (recs : List Bytes) (n : Nat) (h : ∀ r ∈ recs, r.length ≤ 250) : ¬ InSizeField 2 recs n := by
  rintro ⟨a, r, b, h1, h2, h3⟩
  rw [size_small (h r (by rw [h1]; simp))] at h3
  omega

theorem mem_wire_le {ms : List Msg} {m : Msg} (h : m ∈ ms) : (wire m).length ≤ (encLog (ms.map wire)).length := by
  obtain ⟨a, b, rfl⟩ := List.append_of_mem h
  rw [List.map_append, List.map_cons, encLog_append, encLog_cons, List.length_append, List.length_append, encRec_length]
  unfold recLen; omega

theorem completeCount_all (recs : List Bytes) (n : Nat) (h : (encLog recs).length ≤ n) : CompleteCount recs n recs.length :=
  ⟨Nat.le_refl _, by rw [List.take_length]; exact h, fun h => absurd h (Nat.lt_irrefl _)⟩

theorem completeCount_le {recs : List Bytes} {n m c : Nat} (h : CompleteCount recs n c) (hm : (encLog recs).length ≤ m) (hn : m ≤ n) :
    CompleteCount recs m c := by
  have := completeCount_unique h (completeCount_all recs n (by omega))
  rw [this]; exact completeCount_all recs m hm

theorem room_take {k : Nat} {ms : List Msg} (h : Room k ms) (n : Nat) : Room k (ms.take n) := by
  rcases h with h | h
  · exact Or.inl fun m hm => h m (List.mem_of_mem_take hm)
  · refine Or.inr ?_
    have : ms.map wire = (ms.take n).map wire ++ (ms.drop n).map wire := by rw [← List.map_append, List.take_append_drop]
    rw [this, encLog_append, List.length_append] at h
    omega

/-! ### Files -/

/-- A file that holds the messages `ms`, perhaps with a torn record behind them. -/
def FileRel (k : Nat) (c : Bytes) (ms : List Msg) : Prop :=
  ∃ d recs p n, c = headBytes d ++ p ∧ p <+: encLog (recs.map wire) ∧ CompleteCount (recs.map wire) p.length n ∧ ms = recs.take n ∧
    ¬ InSizeField 2 (recs.map wire) p.length ∧ Room k recs ∧ ∀ m ∈ recs, Plain m

/-- A file that holds the messages `ms` and nothing else. -/
def Exact (k : Nat) (c : Bytes) (ms : List Msg) : Prop :=
  ∃ d, c = headBytes d ++ encLog (ms.map wire) ∧ Room k ms ∧ ∀ m ∈ ms, Plain m

theorem Exact.rel {k : Nat} {c : Bytes} {ms : List Msg} (h : Exact k c ms) : FileRel k c ms := by
  obtain ⟨d, h1, h2, h3⟩ := h
  refine ⟨d, ms, encLog (ms.map wire), ms.length, h1, List.prefix_rfl, ?_, by simp, not_inSize_end _ _ (Nat.le_refl _), h2, h3⟩
  have := completeCount_all (ms.map wire) _ (Nat.le_refl _)
  simpa using this

theorem headBytes_length (d : Nat) : (headBytes d).length = mainHead := by simp [headBytes, leBytes, mainHead]

theorem headOk_head (d : Nat) (p : Bytes) : headOk (headBytes d ++ p) = true := by
  have h1 : mainHead ≤ (headBytes d ++ p).length := by rw [List.length_append, headBytes_length]; omega
  have h2 : styleOf (headBytes d ++ p) = 1 := by
    simp only [styleOf, headBytes, leBytes, List.cons_append, List.nil_append, List.append_assoc, List.getD_cons_succ, List.getD_cons_zero]
    decide
  simp only [headOk, h1, h2, decide_true, Bool.and_self]

theorem drop_head (d : Nat) (p : Bytes) : (headBytes d ++ p).drop mainHead = p := by
  rw [← headBytes_length d, List.drop_left]

theorem take_head (d : Nat) (p : Bytes) : (headBytes d ++ p).take mainHead = headBytes d := by
  rw [← headBytes_length d, List.take_left]

theorem recs_len {k : Nat} (hk : k + 1 < 2 ^ 64) {recs : List Msg} (hr : Room k recs) (hp : ∀ m ∈ recs, Plain m) :
    ∀ r ∈ recs.map wire, 2 ≤ r.length ∧ r.length < 2 ^ 64 := by
  intro r h
  obtain ⟨m, hm, rfl⟩ := List.mem_map.1 h
  refine ⟨(plain_wire (hp m hm)).2.1, ?_⟩
  rcases hr with hr | hr
  · have := (hr m hm).2; omega
  · have := mem_wire_le hm; omega

theorem openFile_rel {k : Nat} (hk : k + 1 < 2 ^ 64) {c : Bytes} {ms : List Msg} (h : FileRel k c ms) (date : Nat) :
    ∃ d, openFile k true date (some c) = some (some (headBytes d ++ encLog (ms.map wire), mainHead + (encLog (ms.map wire)).length)) ∧
      Exact k (headBytes d ++ encLog (ms.map wire)) ms := by
  obtain ⟨d, recs, p, n, h1, h2, h3, h4, h5, h6, h7⟩ := h
  have hlen := recs_len hk h6 h7
  have hpl : p.length ≤ (encLog (recs.map wire)).length := h2.length_le
  obtain ⟨n', e1, e2, -⟩ := C19_reopen_keeps_complete_records_partial (recs.map wire) (fun r hr => (hlen r hr).2) p h2 k h5 (by
    rcases h6 with h6 | h6
    · intro j _
      exact not_inSize_short _ _ fun r hr => by obtain ⟨m, hm, rfl⟩ := List.mem_map.1 hr; exact (h6 m hm).2
    · intro j hj
      rcases j with _ | j
      · rintro ⟨a, r, b, -, q, -⟩; omega
      · have hle : k + 1 ≤ (j + 1) * (k + 1) := Nat.le_mul_of_pos_left _ (by omega)
        have : (j + 1) * (k + 1) = p.length := by omega
        rw [this]; exact h5) (Or.inr fun r hr => by have := (hlen r hr).1; omega)
  rw [completeCount_unique e1 h3] at e2
  have hms : (recs.map wire).take n = ms.map wire := by rw [h4, List.map_take]
  rw [hms] at e2
  refine ⟨d, ?_, d, rfl, by rw [h4]; exact room_take h6 n, by rw [h4]; exact fun m hm => h7 m (List.mem_of_mem_take hm)⟩
  simp only [openFile, if_true, h1, headOk_head, drop_head, e2, Option.map_some, take_head]

theorem replay_rel {k : Nat} (hk : k + 1 < 2 ^ 64) {c : Bytes} {ms : List Msg} (h : FileRel k c ms) :
    headOk c = true ∧ replayLog (chunksOf k (c.drop mainHead)) = some (ms.map wire) ∧ ∀ m ∈ ms, Plain m := by
  obtain ⟨d, recs, p, n, h1, h2, h3, h4, h5, h6, h7⟩ := h
  have hlen := recs_len hk h6 h7
  have hms : (recs.map wire).take n = ms.map wire := by rw [h4, List.map_take]
  refine ⟨by rw [h1]; exact headOk_head d p, ?_, by rw [h4]; exact fun m hm => h7 m (List.mem_of_mem_take hm)⟩
  rw [h1, drop_head]
  rcases h6 with h6 | h6
  · obtain ⟨n', e1, e2⟩ := C21_replay_any_buffer_partial (recs.map wire) (by
      intro r hr
      obtain ⟨m, hm, rfl⟩ := List.mem_map.1 hr
      have := h6 m hm; omega) p h2
    rw [e2 k, completeCount_unique e1 h3, hms]
  · obtain ⟨n', e1, e2⟩ := C20_replay_partial (recs.map wire) hlen p h2 k (Nat.le_trans h2.length_le h6) (by
      rintro ⟨a, r, b, q1, q2, q3⟩
      exact h5 ⟨a, r, b, q1, by omega, q3⟩)
    rw [e2, completeCount_unique e1 h3, hms]

theorem cut_rel {k : Nat} {c : Bytes} {ms : List Msg} (h : Exact k c ms) {cut n : Nat} (hc : 16 ≤ cut)
    (hn : CompleteCount (ms.map wire) (cut - 16) n) (hs : ¬ InSizeField 2 (ms.map wire) (cut - 16)) : FileRel k (c.take cut) (ms.take n) := by
  obtain ⟨d, h1, h2, h3⟩ := h
  have hh : (headBytes d).length = 16 := headBytes_length d
  refine ⟨d, ms, (encLog (ms.map wire)).take (cut - 16), n, ?_, List.take_prefix _ _, ?_, rfl, ?_, h2, h3⟩
  · rw [h1, List.take_append, hh, List.take_of_length_le (by omega)]
  · by_cases hl : cut - 16 ≤ (encLog (ms.map wire)).length
    · rw [List.length_take, Nat.min_eq_left hl]; exact hn
    · rw [List.take_of_length_le (by omega)]
      exact completeCount_le hn (Nat.le_refl _) (by omega)
  · by_cases hl : cut - 16 ≤ (encLog (ms.map wire)).length
    · rw [List.length_take, Nat.min_eq_left hl]; exact hs
    · rw [List.take_of_length_le (by omega)]; exact not_inSize_end _ _ (Nat.le_refl _)

theorem overlay_end (r c : Bytes) : overlay c.length r c = c ++ r := by
  unfold overlay
  rw [List.take_length, List.drop_of_length_le (by omega), List.append_nil]

/-! ### The worker against the specification -/

/-- The open file, if any. -/
def stFile : St → Option Bytes
  | .writing f _ => some f
  | _ => none

structure Rel (k : Nat) (w : W) (s : Sp) : Prop where
  conf : w.conf = s.conf
  can : w.can = s.can
  today : w.today = s.today
  date : w.date = s.date
  nb : w.st ≠ .broken
  cur : stFile w.st = s.cur
  wr : ∀ f pos, w.st = .writing f pos → ∃ c ms, w.files f = some c ∧ s.logs f = some ms ∧ pos = c.length ∧ Exact k c ms
  none : ∀ f, s.logs f = none → w.files f = none
  some : ∀ f ms, s.logs f = some ms → ∃ c, w.files f = some c ∧ FileRel k c ms

theorem rel_idle {k : Nat} {w : W} {s : Sp} (h : Rel k w s) (hc : s.cur = none) : w.st = .idle := by
  have h1 := h.cur
  have h2 := h.nb
  cases hs : w.st with
  | idle => rfl
  | broken => exact absurd hs h2
  | writing f p => rw [hs, hc] at h1; simp [stFile] at h1

theorem rel_writing {k : Nat} {w : W} {s : Sp} (h : Rel k w s) {f : Bytes} (hc : s.cur = some f) : ∃ p, w.st = .writing f p := by
  have h1 := h.cur
  cases hs : w.st with
  | idle => rw [hs, hc] at h1; simp [stFile] at h1
  | broken => rw [hs, hc] at h1; simp [stFile] at h1
  | writing g p => rw [hs, hc] at h1; simp [stFile] at h1; exact ⟨p, by rw [h1]⟩

theorem saveGet_or (c a : Option Bytes) (d : Bytes) : saveGet c a d = (c.or a).getD d := by
  cases c <;> cases a <;> rfl

theorem fileName_eq (p n : Bytes) (d : Nat) : fileName p n d = p ++ str "/" ++ n ++ str "/" ++ str (toString d) ++ str ".log" := by
  have h1 : str "/" = [47] := by decide +kernel
  have h2 : str ".log" = [46, 108, 111, 103] := by decide +kernel
  rw [h1, h2]; rfl

theorem target_eq {k : Nat} {w : W} {s : Sp} (h : Rel k w s) (a : Args) :
    target a (setDate a w) = s.log a ∧ openDate w.today (setDate a w).date = s.day a := by
  have hd : openDate w.today (setDate a w).date = s.day a := by
    simp only [openDate, setDate, Sp.day, h.today, h.date]
  refine ⟨?_, hd⟩
  have h1 : str "data" = dataDir := by decide +kernel
  unfold target
  rw [show (setDate a w).today = w.today from rfl, hd, fileName_eq, saveGet_or, saveGet_or, Sp.log, h1]
  rw [show (setDate a w).conf = w.conf from rfl, h.conf]

end Sis.Flog
