import Verif.Disk.LogLemmas
import Verif.Disk.LogSpec
/- Property theorems on the message log: C19, C20, C21. -/
namespace Sis.Disk

theorem cutOk_of_not_in {min : Nat} (hmin : 2 ≤ min) (recs : List Bytes) : ∀ n, ¬ InSizeField min recs n → CutOk min recs n := by
  induction recs with
  | nil => intro _ _; trivial
  | cons r t ih =>
    intro n h
    refine ⟨fun hn => ?_, fun hn => ih _ ?_⟩
    · apply Decidable.byContradiction
      intro hlt
      exact h ⟨[], r, t, rfl, by simpa [encLog] using hn, by simp [encLog, hdrLen] at *; omega⟩
    · rintro ⟨a, r', b, h1, h2, h3⟩
      refine h ⟨r :: a, r', b, by rw [h1]; rfl, ?_, ?_⟩
      · rw [encLog_cons, List.length_append, encRec_length]; omega
      · rw [encLog_cons, List.length_append, encRec_length]; omega

theorem encLog_snoc_length (recs : List Bytes) (done : List Bytes) (r : Bytes) (t : List Bytes) (h : recs = done ++ r :: t) :
    (encLog (recs.take (done.length + 1))).length = (encLog done).length + recLen r := by
  have : recs.take (done.length + 1) = done ++ [r] := by
    rw [h, show done ++ r :: t = (done ++ [r]) ++ t by simp, show done.length + 1 = (done ++ [r]).length by simp, List.take_left]
  rw [this, encLog_append]
  simp [encLog, encRec_length]

/-- What the scan leaves behind is not a complete record. -/
theorem count_of_at {min : Nat} {recs done todo : List Bytes} {s : Scan} {p lost : Bytes} (hrecs : recs = done ++ todo)
    (hp : p ++ lost = encLog recs) (hat : At min s todo lost)
    (hh : ∀ r t, todo = r :: t → s.lineEnd = true → s.mem.length < min → s.mem.length < recLen r)
    (hb : ∀ r t, todo = r :: t → s.lineEnd = false → s.mem.length < r.length) : CompleteCount recs p.length done.length := by
  have hlen : p.length + lost.length = (encLog done).length + (encLog todo).length := by
    have := congrArg List.length hp
    rw [List.length_append, hrecs, encLog_append, List.length_append] at this
    exact this
  have htake : recs.take done.length = done := by rw [hrecs, List.take_left]
  refine ⟨by rw [hrecs]; simp, ?_, ?_⟩
  · rw [htake]
    cases hat with
    | head hl hz hm hlt =>
      have := congrArg List.length hm
      rw [List.length_append] at this
      omega
    | body r t ht hl hz hh2 hn hm hr hlt =>
      have h1 := congrArg List.length hm
      rw [List.length_append, List.length_append] at h1
      have h2 : (encLog todo).length = recLen r + (encLog t).length := by rw [ht, encLog_cons]; simp [encRec_length]
      unfold recLen at h2
      omega
  · intro hk
    cases todo with
    | nil => rw [hrecs] at hk; simp at hk
    | cons r t =>
      rw [encLog_snoc_length recs done r t hrecs]
      have h2 : (encLog (r :: t)).length = recLen r + (encLog t).length := by rw [encLog_cons]; simp [encRec_length]
      cases hat with
      | head hl hz hm hlt =>
        have h1 := congrArg List.length hm
        rw [List.length_append] at h1
        have := hh r t rfl hl hlt
        omega
      | body r' t' ht hl hz hh2 hn hm hr hlt =>
        have h1 := congrArg List.length hm
        rw [List.length_append, List.length_append] at h1
        simp only [List.cons.injEq] at ht
        obtain ⟨rfl, rfl⟩ := ht
        have := hb r t rfl hl
        unfold recLen at h2 ⊢
        omega

theorem init_at (min : Nat) (hmin : 2 ≤ min) (recs : List Bytes) (cs : List Bytes) (lost : Bytes) (h : cs.flatten ++ lost = encLog recs) :
    At min {} recs (cs.flatten ++ lost) := .head rfl rfl h (by show 0 < min; omega)

/-- The scan of a file that is read in one piece. -/
theorem scan_one (c : ScanCfg) (hc : Passes c) (recs : List Bytes) (hlen : ∀ r ∈ recs, r.length < 2 ^ 64) (p lost : Bytes)
    (hp : p ++ lost = encLog recs) (hcut : CutOk c.min recs p.length) :
    ∃ done todo s', recs = done ++ todo ∧ scanChunks c [p] {} = some s' ∧ s'.out = done.map tag ∧ At c.min s' todo lost ∧
      ∀ r t, todo = r :: t → s'.lineEnd = false → s'.mem.length < r.length := by
  obtain ⟨done, todo, s', h1, h2, h3, h4, h5, h6⟩ := scanInner_head c hc recs hlen { ({} : Scan) with mem := p } lost rfl rfl rfl hp hcut
  refine ⟨done, todo, s', h1, ?_, by simpa using h4, h5, h6⟩
  unfold scanChunks
  rw [if_neg (by simp)]
  have he : scanInner c { ({} : Scan) with mem := ({} : Scan).mem ++ p } = some s' := h2
  rw [he]
  simp only [h3, Bool.false_eq_true, if_false]
  unfold scanChunks
  cases h5 with
  | head hl hz hm hlt => rw [if_neg (by omega)]; unfold scanInner; rw [if_neg (by omega)]
  | body r t ht hl hz hh hn hm hr hlt => rw [if_pos (by rw [hz]; exact h6 r t ht hl)]

theorem scan_many (c : ScanCfg) (hc : Passes c) (recs : List Bytes) (hlen : ∀ r ∈ recs, r.length < 2 ^ 64) (cs : List Bytes) (lost : Bytes)
    (hp : cs.flatten ++ lost = encLog recs) (hcut : ∀ a b, cs = a ++ b → CutOk c.min recs a.flatten.length) :
    ∃ done todo s', recs = done ++ todo ∧ scanChunks c cs {} = some s' ∧ s'.out = done.map tag ∧ At c.min s' todo lost := by
  obtain ⟨done, todo, s', h1, h2, _, h4, h5⟩ := scanChunks_spec c hc recs hlen lost cs [] recs {} [] rfl rfl rfl
    (init_at _ hc.min _ _ _ hp) hp (by simpa using hcut)
  exact ⟨done, todo, s', h1, h2, h4, h5⟩

theorem chunksOf_one {k : Nat} {p : Bytes} (h : p.length ≤ k + 1) (h0 : p ≠ []) : chunksOf k p = [p] := by
  unfold chunksOf
  rw [dif_neg h0, List.take_of_length_le h, List.drop_eq_nil_of_le h]
  unfold chunksOf
  simp

/-- The cuts made by reading `k + 1` bytes at a time. -/
theorem chunksOf_cut (k : Nat) (p : Bytes) : ∀ a b, chunksOf k p = a ++ b → (∃ j, a.flatten.length = j * (k + 1) ∧ j * (k + 1) ≤ p.length) ∨ a.flatten.length = p.length := by
  fun_induction chunksOf k p with
  | case1 =>
    intro a b h
    have : a = [] := by
      have := h.symm
      exact (List.append_eq_nil_iff.1 this).1
    left; exact ⟨0, by simp [this], by simp⟩
  | case2 d h ih =>
    intro a b hab
    cases a with
    | nil => left; exact ⟨0, by simp, by simp⟩
    | cons x a =>
      simp only [List.cons_append, List.cons.injEq] at hab
      obtain ⟨hx, hab⟩ := hab
      have h1 := ih a b hab
      rw [List.flatten_cons, List.length_append, ← hx]
      by_cases hle : d.length ≤ k + 1
      · have hd : d.drop (k + 1) = [] := List.drop_eq_nil_of_le hle
        right
        rw [hd] at hab h1
        have : a = [] := by
          unfold chunksOf at hab
          simp at hab
          exact hab.1
        rw [this, List.take_of_length_le hle]; simp
      · have ht : (d.take (k + 1)).length = k + 1 := by simp; omega
        rw [ht]
        rcases h1 with ⟨j, hj, hj2⟩ | h1
        · left
          refine ⟨j + 1, by rw [hj, Nat.succ_mul]; omega, ?_⟩
          rw [Nat.succ_mul]
          rw [List.length_drop] at hj2
          omega
        · right; rw [h1, List.length_drop]; omega

theorem seek_sum (done : List Bytes) : ((done.map tag).map fun r => 1 + r.2.1 + r.2.2.length).sum = (encLog done).length := by
  induction done with
  | nil => rfl
  | cons r t ih => rw [encLog_cons, List.length_append, encRec_length, ← ih]; simp [tag, recLen, hdrLen]

theorem take_encLog {recs done todo : List Bytes} {p lost : Bytes} (hrecs : recs = done ++ todo) (hp : p ++ lost = encLog recs)
    (hle : (encLog done).length ≤ p.length) : p.take (encLog done).length = encLog done := by
  have h1 : (p ++ lost).take (encLog done).length = (encLog recs).take (encLog done).length := by rw [hp]
  rw [List.take_append_of_le_length hle, hrecs, encLog_append, List.take_left] at h1
  exact h1

theorem size_small {n : Nat} (h : n ≤ 250) : (catSsize n).length = 1 := by
  rw [C01_ssize_length]; unfold catSsizeRet
  rw [if_neg (by omega), if_neg (by omega), if_neg (by omega), if_neg (by omega)]

theorem size_mid {n : Nat} (h : n ≤ 65785) : (catSsize n).length ≤ 3 := by
  rw [C01_ssize_length]; unfold catSsizeRet
  rw [if_neg (by omega), if_neg (by omega)]
  repeat' split
  all_goals omega

/-! ### C19 -/

/-- C19 (partial). Messages are appended to a log and the process dies so that the file body is any byte prefix `p` of what
was appended. Reopening the log (reading `k + 1` bytes at a time) keeps exactly the complete records, and records written
then come directly behind them. Conditions: neither the end of the file nor the end of a read buffer lies inside a size
field; no one-byte messages if the file is longer than the read buffer. Missing: cuts inside a size field, see
`C19_violated_torn_size`. -/
theorem C19_reopen_keeps_complete_records_partial (recs : List Bytes) (hlen : ∀ r ∈ recs, r.length < 2 ^ 64) (p : Bytes)
    (hp : p <+: encLog recs) (k : Nat) (hend : ¬ InSizeField 2 recs p.length)
    (hbuf : ∀ j, j * (k + 1) ≤ p.length → ¬ InSizeField 2 recs (j * (k + 1)))
    (hone : p.length ≤ k + 1 ∨ ∀ r ∈ recs, r.length ≠ 1) :
    ∃ n, CompleteCount recs p.length n ∧ reopenLog k p = some (encLog (recs.take n)) ∧
      ∀ more : List Bytes, more.foldl logWrite (encLog (recs.take n)) = encLog (recs.take n ++ more) := by
  obtain ⟨lost, hp⟩ := hp
  have hmore : ∀ (more : List Bytes) (b : List Bytes), more.foldl logWrite (encLog b) = encLog (b ++ more) := by
    intro more
    induction more with
    | nil => intro b; simp
    | cons m ms ih =>
      intro b
      have : logWrite (encLog b) m = encLog (b ++ [m]) := by
        unfold logWrite; rw [encLog_append]; simp [encLog]
      rw [List.foldl_cons, this, ih]
      simp
  have finish : ∀ (done todo : List Bytes) (s' : Scan), recs = done ++ todo → scanChunks seekCfg (chunksOf k p) {} = some s' →
      s'.out = done.map tag → CompleteCount recs p.length done.length →
      ∃ n, CompleteCount recs p.length n ∧ reopenLog k p = some (encLog (recs.take n)) ∧
        ∀ more : List Bytes, more.foldl logWrite (encLog (recs.take n)) = encLog (recs.take n ++ more) := by
    intro done todo s' h1 h2 h3 h4
    have ht : recs.take done.length = done := by rw [h1, List.take_left]
    refine ⟨done.length, h4, ?_, fun more => hmore more _⟩
    unfold reopenLog seekLog
    rw [h2]
    simp only [Option.map_some, h3, seek_sum, Nat.add_sub_cancel_left]
    rw [ht]
    congr 1
    exact take_encLog h1 hp (by have := h4.2.1; rwa [ht] at this)
  have hhead : ∀ (s : Scan) (r : Bytes), s.mem.length < 2 → s.mem.length < recLen r := by
    intro s r h
    have := hdrLen_ge r
    unfold recLen; omega
  by_cases hsz : p.length ≤ k + 1
  · by_cases h0 : p = []
    · obtain ⟨done, todo, s', h1, h2, h3, h4⟩ := scan_many seekCfg seekCfg_passes recs hlen (chunksOf k p) lost
        (by rw [chunksOf_flatten]; exact hp) (by
          intro a b hab
          have : a = [] := by
            rw [h0] at hab; unfold chunksOf at hab; simp at hab; exact hab.1
          subst this
          apply cutOk_of_not_in (Nat.le_refl 2)
          have := hbuf 0 (by simp)
          simpa using this)
      refine finish done todo s' h1 h2 h3 (count_of_at h1 hp h4 (fun r t _ _ h => hhead s' r h) ?_)
      intro r t ht hl
      cases h4 with
      | head hl' => rw [hl] at hl'; cases hl'
      | body r' t' ht' _ hz _ _ hm hr hlt =>
        rw [ht] at ht'
        simp only [List.cons.injEq] at ht'
        obtain ⟨rfl, rfl⟩ := ht'
        rcases hlt with h | h
        · exact h
        · -- nothing was read
          have hs : s' = ({} : Scan) := by
            rw [h0] at h2
            unfold chunksOf at h2
            rw [dif_pos rfl] at h2
            unfold scanChunks at h2
            rw [if_neg (by simp)] at h2
            unfold scanInner at h2
            rw [if_neg (by decide)] at h2
            injection h2 with h2; exact h2.symm
          rw [hs] at hl; cases hl
    · obtain ⟨done, todo, s', h1, h2, h3, h4, h5⟩ := scan_one seekCfg seekCfg_passes recs hlen p lost hp
        (cutOk_of_not_in (Nat.le_refl 2) recs _ hend)
      exact finish done todo s' h1 (by rw [chunksOf_one hsz h0]; exact h2) h3
        (count_of_at h1 hp h4 (fun r t _ _ h => hhead s' r h) h5)
  · obtain ⟨done, todo, s', h1, h2, h3, h4⟩ := scan_many seekCfg seekCfg_passes recs hlen (chunksOf k p) lost
      (by rw [chunksOf_flatten]; exact hp) (by
        intro a b hab
        apply cutOk_of_not_in (Nat.le_refl 2)
        rcases chunksOf_cut k p a b hab with ⟨j, hj, hj2⟩ | h
        · rw [hj]; exact hbuf j hj2
        · rw [h]; exact hend)
    refine finish done todo s' h1 h2 h3 (count_of_at h1 hp h4 (fun r t _ _ h => hhead s' r h) ?_)
    intro r t ht hl
    cases h4 with
    | head hl' => rw [hl] at hl'; cases hl'
    | body r' t' ht' _ hz _ _ hm hr hlt =>
      rw [ht] at ht'
      simp only [List.cons.injEq] at ht'
      obtain ⟨rfl, rfl⟩ := ht'
      have hne := (hone.resolve_left hsz) r (by rw [h1, ht]; simp)
      rcases hlt with h | h
      · exact h
      · have : seekCfg.min = 2 := rfl
        omega

/-- C19 for short messages (partial: messages of 2 to 250 bytes): here every crash byte and every read buffer size is
covered. -/
theorem C19_short_messages_partial (recs : List Bytes) (hlen : ∀ r ∈ recs, 2 ≤ r.length ∧ r.length ≤ 250) (p : Bytes)
    (hp : p <+: encLog recs) (k : Nat) :
    ∃ n, CompleteCount recs p.length n ∧ reopenLog k p = some (encLog (recs.take n)) ∧
      ∀ more : List Bytes, more.foldl logWrite (encLog (recs.take n)) = encLog (recs.take n ++ more) := by
  have hno : ∀ n, ¬ InSizeField 2 recs n := by
    rintro n ⟨a, r, b, h1, h2, h3⟩
    rw [size_small (hlen r (by rw [h1]; simp)).2] at h3
    omega
  exact C19_reopen_keeps_complete_records_partial recs (fun r hr => by have := hlen r hr; omega) p hp k (hno _)
    (fun j _ => hno _) (.inr fun r hr => by have := hlen r hr; omega)

/-- C19 (violated). A crash that leaves the file ending inside a size field (a record of 600 bytes, of which head byte and
one size byte reached the disk) makes the scan read beyond the bytes of the file. -/
theorem C19_violated_torn_size : ∃ (recs : List Bytes) (p : Bytes), p <+: encLog recs ∧ p = [0x21, 252] ∧ ∀ k, 1 ≤ k → reopenLog k p = none := by
  obtain ⟨d, hd⟩ : ∃ d : Bytes, d.length = 600 := ⟨List.replicate _ 0, List.length_replicate⟩
  refine ⟨[d], [0x21, 252], ⟨94 :: 1 :: d, ?_⟩, rfl, ?_⟩
  · simp only [encLog, List.flatMap_cons, List.flatMap_nil, encRec, hd, List.append_nil]
    rw [show catSsize 600 = [252, 94, 1] by decide]
    rfl
  · intro k hk
    unfold reopenLog seekLog
    rw [chunksOf_one (by simp; omega) (by simp)]
    have : scanChunks seekCfg [[0x21, 252]] {} = none := by decide +kernel
    rw [this]; rfl

/-- Beside C19: three messages, the crash cuts the third one. -/
example : reopenLog 1000 ((encLog [[1, 2], [3, 4, 5], [6, 7, 8, 9]]).take 11) = some (encLog [[1, 2], [3, 4, 5]]) := by decide +kernel
example : [0x21, 2, 1, 2, 0x21] <+: encLog [[1, 2], [3, 4, 5]] := by decide

/-! ### C20 -/

/-- C20 (partial). Replay of a log, which may have been cut at any byte, delivers exactly its complete records, each once, in
order and unchanged. Conditions: the log fits the read buffer, the cut is not inside a size field, messages have at least
two bytes. Missing: shorter messages, see `C20_violated_short_last_message`. -/
theorem C20_replay_partial (recs : List Bytes) (hlen : ∀ r ∈ recs, 2 ≤ r.length ∧ r.length < 2 ^ 64) (p : Bytes)
    (hp : p <+: encLog recs) (k : Nat) (hk : p.length ≤ k + 1) (hend : ¬ InSizeField 4 recs p.length) :
    ∃ n, CompleteCount recs p.length n ∧ replayLog (chunksOf k p) = some (recs.take n) := by
  obtain ⟨lost, hp⟩ := hp
  by_cases h0 : p = []
  · refine ⟨0, ⟨by simp, by simp [encLog], ?_⟩, ?_⟩
    · intro h
      rw [h0]
      cases recs with
      | nil => simp at h
      | cons r t => simp [encLog, encRec]
    · rw [h0]
      have : chunksOf k [] = [] := by unfold chunksOf; simp
      rw [this]
      have h2 : replayLog [] = some [] := by decide +kernel
      rw [h2]; rfl
  · obtain ⟨done, todo, s', h1, h2, h3, h4, h5⟩ := scan_one (fullCfg cbLog) logCfg_passes recs (fun r hr => (hlen r hr).2) p lost hp
      (cutOk_of_not_in (by decide) recs _ hend)
    refine ⟨done.length, count_of_at h1 hp h4 ?_ h5, ?_⟩
    · intro r t ht _ hlt
      have hr := (hlen r (by rw [h1, ht]; simp)).1
      have := hdrLen_ge r
      have hm : (fullCfg cbLog).min = 4 := rfl
      unfold recLen; omega
    · unfold replayLog readFull
      rw [chunksOf_one hk h0, h2]
      simp only [Option.map_some, h3, List.map_map]
      rw [h1, List.take_left]
      congr 1
      conv => rhs; rw [← List.map_id done]
      apply List.map_congr_left
      intro x _
      rfl

/-- C20 on an undamaged log: all messages come back, only the last one must have two bytes. -/
theorem C20_replay_all_partial (recs : List Bytes) (last : Bytes) (hlen : ∀ r ∈ recs, r.length < 2 ^ 64) (hl : 2 ≤ last.length)
    (hl2 : last.length < 2 ^ 64) (k : Nat) (hk : (encLog (recs ++ [last])).length ≤ k + 1) :
    replayLog (chunksOf k (encLog (recs ++ [last]))) = some (recs ++ [last]) := by
  have hlen' : ∀ r ∈ recs ++ [last], r.length < 2 ^ 64 := by
    intro r hr
    rw [List.mem_append] at hr
    rcases hr with hr | hr
    · exact hlen r hr
    · simp at hr; rw [hr]; exact hl2
  have hcut : ∀ l : List Bytes, CutOk 4 l (encLog l).length := by
    intro l
    induction l with
    | nil => trivial
    | cons r t ih =>
      rw [encLog_cons, List.length_append, encRec_length]
      refine ⟨fun _ => by unfold recLen; omega, fun _ => ?_⟩
      rw [Nat.add_sub_cancel_left]; exact ih
  obtain ⟨done, todo, s', h1, h2, h3, h4, h5⟩ := scan_one (fullCfg cbLog) logCfg_passes (recs ++ [last]) hlen' (encLog (recs ++ [last])) []
    (by simp) (hcut _)
  have htodo : todo = [] := by
    cases todo with
    | nil => rfl
    | cons r t =>
      exfalso
      have h2t : ∀ t', (encLog t').length = 0 → t' = [] := by
        intro t' h
        cases t' with
        | nil => rfl
        | cons x y => simp [encLog, encRec] at h
      cases h4 with
      | head hl' hz hm hlt =>
        have hm1 := congrArg List.length hm
        rw [List.append_nil, encLog_cons, List.length_append, encRec_length] at hm1
        have hmin : (fullCfg cbLog).min = 4 := rfl
        have hg := hdrLen_ge r
        have hrl : recLen r = hdrLen r + r.length := rfl
        cases t with
        | nil =>
          have : r = last := by
            have := congrArg List.getLast? h1
            simp at this
            exact this.symm
          rw [this] at hm1 hg hrl
          omega
        | cons x y =>
          rw [encLog_cons, List.length_append, encRec_length] at hm1
          have hg2 := hdrLen_ge x
          have hrl2 : recLen x = hdrLen x + x.length := rfl
          omega
      | body r' t' ht hl' hz hh hn hm hr hlt =>
        simp only [List.cons.injEq] at ht
        obtain ⟨rfl, rfl⟩ := ht
        have hm1 := congrArg List.length hm
        rw [List.append_nil, List.length_append] at hm1
        have := h5 r t rfl hl'
        omega
  rw [htodo, List.append_nil] at h1
  have h0 : encLog (recs ++ [last]) ≠ [] := by
    rw [encLog_append]; simp [encLog, encRec]
  unfold replayLog readFull
  rw [chunksOf_one hk h0, h2]
  simp only [Option.map_some, h3, List.map_map]
  rw [h1]
  congr 1
  conv => rhs; rw [← List.map_id done]
  apply List.map_congr_left
  intro x _
  rfl

/-- C20 (violated). A last message of one byte, and an empty last message, are not replayed. -/
theorem C20_violated_short_last_message : (∀ k, 10 ≤ k → replayLog (chunksOf k (encLog [[1, 2, 3], [7]])) = some [[1, 2, 3]]) ∧
    (∀ k, 10 ≤ k → replayLog (chunksOf k (encLog [[]])) = some []) := by
  constructor
  · intro k hk
    rw [chunksOf_one (by simp [encLog, encRec_length, recLen, hdrLen, size_small]; omega) (by simp [encLog, encRec])]
    decide +kernel
  · intro k hk
    rw [chunksOf_one (by simp [encLog, encRec_length, recLen, hdrLen, size_small]; omega) (by simp [encLog, encRec])]
    decide +kernel

example : replayLog (chunksOf 1000 (encLog [[], [7], [1, 2, 3]])) = some [[], [7], [1, 2, 3]] := by decide +kernel
example : ¬ InSizeField 4 [[1, 2], [3, 4, 5]] 5 := by
  rintro ⟨a, r, b, h1, h2, h3⟩
  have : r.length ≤ 250 := by
    have : r ∈ [[1, 2], [3, 4, 5]] := by rw [h1]; simp
    simp at this
    rcases this with rfl | rfl <;> simp
  rw [size_small this] at h3
  omega

/-! ### C21 -/

theorem completeCount_unique {recs : List Bytes} {n a b : Nat} (ha : CompleteCount recs n a) (hb : CompleteCount recs n b) : a = b := by
  have mono : ∀ i j, i ≤ j → (encLog (recs.take i)).length ≤ (encLog (recs.take j)).length := by
    intro i j hij
    have : recs.take j = recs.take i ++ (recs.take j).drop i := by
      have h := List.take_append_drop i (recs.take j)
      rw [List.take_take, Nat.min_eq_left hij] at h
      exact h.symm
    rw [this, encLog_append]; simp
  rcases Nat.lt_trichotomy a b with h | h | h
  · have h1 := ha.2.2 (by have := hb.1; omega)
    have h2 := mono (a + 1) b (by omega)
    have h3 := hb.2.1
    omega
  · exact h
  · have h1 := hb.2.2 (by have := ha.1; omega)
    have h2 := mono (b + 1) a (by omega)
    have h3 := ha.2.1
    omega

/-- C21 (partial). Messages of 4 to 65785 bytes: the replay of a log, cut anywhere, is the same for every size of the read
buffer. Missing: longer messages whose size field is split by the end of the buffer (`C21_violated`) and shorter ones. -/
theorem C21_replay_any_buffer_partial (recs : List Bytes) (hlen : ∀ r ∈ recs, 4 ≤ r.length ∧ r.length ≤ 65785) (p : Bytes)
    (hp : p <+: encLog recs) : ∃ n, CompleteCount recs p.length n ∧ ∀ k, replayLog (chunksOf k p) = some (recs.take n) := by
  obtain ⟨lost, hp⟩ := hp
  have hno : ∀ n, ¬ InSizeField 4 recs n := by
    rintro n ⟨a, r, b, h1, h2, h3⟩
    have := size_mid (hlen r (by rw [h1]; simp)).2
    omega
  have each : ∀ k, ∃ n, CompleteCount recs p.length n ∧ replayLog (chunksOf k p) = some (recs.take n) := by
    intro k
    obtain ⟨done, todo, s', h1, h2, h3, h4⟩ := scan_many (fullCfg cbLog) logCfg_passes recs (fun r hr => by have := hlen r hr; omega)
      (chunksOf k p) lost (by rw [chunksOf_flatten]; exact hp) (fun a b _ => cutOk_of_not_in (by decide) recs _ (hno _))
    refine ⟨done.length, count_of_at h1 hp h4 ?_ ?_, ?_⟩
    · intro r t ht _ hlt
      have hr := (hlen r (by rw [h1, ht]; simp)).1
      have hm : (fullCfg cbLog).min = 4 := rfl
      unfold recLen; omega
    · intro r t ht hl
      cases h4 with
      | head hl' => rw [hl] at hl'; cases hl'
      | body r' t' ht' _ hz _ _ hm hr hlt =>
        rw [ht] at ht'
        simp only [List.cons.injEq] at ht'
        obtain ⟨rfl, rfl⟩ := ht'
        have hr := (hlen r (by rw [h1, ht]; simp)).1
        have hmin : (fullCfg cbLog).min = 4 := rfl
        omega
    · unfold replayLog readFull
      rw [h2]
      simp only [Option.map_some, h3, List.map_map]
      rw [h1, List.take_left]
      congr 1
      conv => rhs; rw [← List.map_id done]
      apply List.map_congr_left
      intro x _
      rfl
  obtain ⟨n, hn, _⟩ := each 0
  refine ⟨n, hn, fun k => ?_⟩
  obtain ⟨m, hm, he⟩ := each k
  rw [completeCount_unique hn hm]; exact he

/-- The reader at the end of a buffer that holds one whole record and four bytes of a record with a long size field. -/
theorem scan_split (d : Bytes) (hd : d.length < 2 ^ 64) (rest : List Bytes) (a b : UInt8) :
    scanChunks (fullCfg cbLog) ((encRec logHead d ++ [logHead, 253, a, b]) :: rest) {} = none := by
  unfold scanChunks
  rw [if_neg (by simp)]
  have h2 : ∀ s : Scan, s.lineEnd = true → s.mem = [logHead, 253, a, b] → scanInner (fullCfg cbLog) s = none := by
    intro s hl hm
    rw [scanInner]
    rw [if_pos (by rw [hm]; show 4 ≤ 4; exact Nat.le_refl 4), if_pos hl]
    split
    · rename_i h; rw [hm] at h; cases h
    · rename_i b' m' h
      rw [hm] at h
      simp only [List.cons.injEq] at h
      obtain ⟨rfl, rfl⟩ := h
      rw [if_neg (by decide)]
      split
      · rfl
      · rename_i n m'' hg
        have : getSsize [253, a, b] = none := by simp [getSsize, getByte, takeBytes, leVal]
        rw [this] at hg; cases hg
  have h1 : scanInner (fullCfg cbLog) { ({} : Scan) with mem := ({} : Scan).mem ++ (encRec logHead d ++ [logHead, 253, a, b]) } = none := by
    rw [scanInner]
    rw [if_pos (by have : (fullCfg cbLog).min = 4 := rfl; simp [encRec]; omega), if_pos rfl]
    split
    · rename_i h; simp [encRec] at h
    · rename_i b' m' h
      simp only [encRec, List.nil_append, List.cons_append, List.append_assoc, List.cons.injEq] at h
      obtain ⟨rfl, rfl⟩ := h
      rw [if_neg (by decide)]
      have hs := C01_ssize_roundtrip d.length hd (d ++ [logHead, 253, a, b])
      split
      · rfl
      · rename_i n m'' hg
        rw [hs] at hg
        simp only [Option.some.injEq, Prod.mk.injEq] at hg
        obtain ⟨rfl, rfl⟩ := hg
        simp only
        rw [if_neg (by simp), List.take_left, List.drop_left, logCfg_passes.act]
        simp only
        exact h2 _ rfl rfl
  rw [h1]

theorem replay_split (d1 d2 : Bytes) (h1 : d1.length = readSize - 10) (h2 : d2.length = 70000) :
    replayLog (chunksOf (readSize - 1) (encLog ([d1] ++ [d2]))) = none := by
  have hrs : readSize = 16777216 := rfl
  have e1 : (encRec logHead d1).length = readSize - 4 := by
    rw [encRec_length]
    unfold recLen hdrLen
    rw [C01_ssize_length]
    unfold catSsizeRet
    rw [if_neg (by omega), if_pos (by omega)]
    omega
  have e2 : encRec logHead d2 = [logHead, 253, 112, 17] ++ (1 :: 0 :: d2) := by
    unfold encRec
    rw [h2, show catSsize 70000 = [253, 112, 17, 1, 0] by decide]
    rfl
  have e3 : encLog ([d1] ++ [d2]) = (encRec logHead d1 ++ [logHead, 253, 112, 17]) ++ (1 :: 0 :: d2) := by
    simp only [encLog, List.flatMap_append, List.flatMap_cons, List.flatMap_nil, List.append_nil]
    rw [e2, List.append_assoc]
  have hl : (encRec logHead d1 ++ [logHead, 253, 112, 17]).length = readSize - 1 + 1 := by
    rw [List.length_append, e1]; simp only [List.length_cons, List.length_nil]; omega
  rw [e3]
  unfold chunksOf
  rw [dif_neg (by simp)]
  rw [List.take_append_of_le_length (by rw [hl]; exact Nat.le_refl _), List.take_of_length_le (by rw [hl]; exact Nat.le_refl _)]
  unfold replayLog readFull
  rw [scan_split _ (by omega)]
  rfl

/-- C21 (violated). With the real read size: a log of two messages, where the second is 70000 bytes long and its record
begins four bytes before the end of the 16 MB buffer. Read in one piece it would be replayed, read in buffers of the real
size the reader takes its length from beyond the buffer. -/
theorem C21_violated : ∃ (recs : List Bytes), replayLog (chunksOf (readSize - 1) (encLog recs)) = none ∧
    ∀ k, (encLog recs).length ≤ k + 1 → replayLog (chunksOf k (encLog recs)) = some recs := by
  obtain ⟨d1, h1⟩ : ∃ d : Bytes, d.length = readSize - 10 := ⟨List.replicate _ 0, List.length_replicate⟩
  obtain ⟨d2, h2⟩ : ∃ d : Bytes, d.length = 70000 := ⟨List.replicate _ 0, List.length_replicate⟩
  refine ⟨[d1] ++ [d2], replay_split d1 d2 h1 h2, ?_⟩
  intro k hk
  exact C20_replay_all_partial [d1] d2 (by intro r hr; rw [List.mem_singleton.1 hr]; have : readSize = 16777216 := rfl; omega)
    (by omega) (by omega) k hk

/-- Beside C21: a log read in buffers of 5 bytes. -/
example : replayLog (chunksOf 4 (encLog [[1, 2, 3, 4], [5, 6, 7, 8, 9]])) = some [[1, 2, 3, 4], [5, 6, 7, 8, 9]] := by decide +kernel

end Sis.Disk
