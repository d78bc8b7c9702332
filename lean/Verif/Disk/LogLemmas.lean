import Verif.Disk.Log
import Verif.Memory.SsizeTheorems
/- Helper facts on the scanning loops. -/
namespace Sis.Disk

/-- Length of the header of a record: head byte and size field. -/
def hdrLen (d : Bytes) : Nat := 1 + (catSsize d.length).length

/-- Length of a record in the file. -/
def recLen (d : Bytes) : Nat := hdrLen d + d.length

/-- The cut `q` into a sequence of records does not fall inside a size field (after the first `min` bytes). -/
def CutOk (min : Nat) : List Bytes → Nat → Prop
  | [], _ => True
  | r :: t, q => (min ≤ q → hdrLen r ≤ q) ∧ (recLen r ≤ q → CutOk min t (q - recLen r))

theorem encLog_cons (r : Bytes) (t : List Bytes) : encLog (r :: t) = encRec logHead r ++ encLog t := rfl
theorem encLog_append (a b : List Bytes) : encLog (a ++ b) = encLog a ++ encLog b := by simp [encLog]

theorem encRec_length (h : UInt8) (d : Bytes) : (encRec h d).length = recLen d := by
  simp [encRec, recLen, hdrLen]; omega

theorem hdrLen_ge (d : Bytes) : 2 ≤ hdrLen d := by
  unfold hdrLen
  rw [C01_ssize_length]
  unfold catSsizeRet
  repeat' split
  all_goals omega

/-- The configuration lets log records pass. -/
structure Passes (c : ScanCfg) : Prop where
  min : 2 ≤ c.min
  head : c.endHead logHead = false
  act : ∀ d, c.act logHead d = .next

theorem seekCfg_passes : Passes seekCfg := ⟨by decide, by decide, fun _ => rfl⟩
theorem logCfg_passes : Passes (fullCfg cbLog) := ⟨by decide, by decide, fun d => by
  show (if hidOf logHead = hidNone then Act.bad else cbLog logHead d) = _
  rw [if_neg (by decide)]
  unfold cbLog
  rw [if_neg (by decide)]⟩

/-- A record as the scan reports it. -/
def tag (d : Bytes) : UInt8 × Nat × Bytes := (logHead, (catSsize d.length).length, d)

/-- Where the scan stands: `todo` are the records not yet passed, `rest` the bytes not yet read. -/
inductive At (min : Nat) (s : Scan) (todo : List Bytes) (rest : Bytes) : Prop
  | head (hl : s.lineEnd = true) (hz : s.size = 0) (hm : s.mem ++ rest = encLog todo) (hlt : s.mem.length < min)
  | body (r : Bytes) (t : List Bytes) (ht : todo = r :: t) (hl : s.lineEnd = false) (hz : s.size = r.length) (hh : s.head = logHead)
      (hn : s.hlen = (catSsize r.length).length) (hm : s.mem ++ rest = r ++ encLog t) (hr : 0 < r.length)
      (hlt : s.mem.length < r.length ∨ s.mem.length < min)

theorem append_split {a b c d : Bytes} (h : a ++ b = c ++ d) (hl : c.length ≤ a.length) : ∃ e, a = c ++ e ∧ e ++ b = d := by
  refine ⟨a.drop c.length, ?_, ?_⟩
  · have h1 : (a ++ b).take c.length = (c ++ d).take c.length := by rw [h]
    rw [List.take_append_of_le_length hl, List.take_left] at h1
    conv => lhs; rw [← List.take_append_drop c.length a, h1]
  · have h1 : (a ++ b).drop c.length = (c ++ d).drop c.length := by rw [h]
    rw [List.drop_append_of_le_length hl, List.drop_left] at h1
    exact h1

theorem getSsize_torn {n k : Nat} (hn : n < 2 ^ 64) (h : (getSsize ((catSsize n).take k)).isSome = true) : (catSsize n).length ≤ k := by
  rw [← C02_try_iff_read_in_bounds] at h
  exact (C02_try_on_prefix n k hn).1 h

/-- The inner loop at the start of a record. -/
theorem scanInner_head (c : ScanCfg) (hc : Passes c) (todo : List Bytes) (hlen : ∀ r ∈ todo, r.length < 2 ^ 64) :
    ∀ (s : Scan) (rest : Bytes), s.lineEnd = true → s.size = 0 → s.stop = false → s.mem ++ rest = encLog todo →
      CutOk c.min todo s.mem.length →
      ∃ done todo' s', todo = done ++ todo' ∧ scanInner c s = some s' ∧ s'.stop = false ∧ s'.out = s.out ++ done.map tag ∧
        At c.min s' todo' rest ∧ (∀ r t, todo' = r :: t → s'.lineEnd = false → s'.mem.length < r.length) := by
  induction todo with
  | nil =>
    intro s rest h1 h2 h3 h4 _
    have hnil : s.mem = [] := by
      have : s.mem ++ rest = [] := h4
      exact (List.append_eq_nil_iff.1 this).1
    refine ⟨[], [], s, rfl, ?_, h3, by simp, .head h1 h2 h4 ?_, by intro r t h; cases h⟩
    · unfold scanInner; rw [if_neg (by rw [hnil]; simp; have := hc.min; omega)]
    · rw [hnil]; have := hc.min; simp; omega
  | cons r t ih =>
    intro s rest h1 h2 h3 h4 h5
    by_cases hmin : c.min ≤ s.mem.length
    · have hhdr := h5.1 hmin
      rw [encLog_cons] at h4
      have hmn := hc.min
      have hh : hdrLen r = (logHead :: catSsize r.length).length := by simp [hdrLen]; omega
      rw [show encRec logHead r ++ encLog t = (logHead :: catSsize r.length) ++ (r ++ encLog t) by simp [encRec]] at h4
      obtain ⟨e, he1, he2⟩ := append_split h4 (by omega)
      have hr := hlen r (by simp)
      have hss : getSsize (catSsize r.length ++ e) = some (r.length, e) := C01_ssize_roundtrip _ hr e
      have hk : (catSsize r.length ++ e).length - e.length = (catSsize r.length).length := by simp
      rw [scanInner]
      rw [if_pos hmin, if_pos h1]
      split
      · rename_i hm; rw [he1] at hm; cases hm
      · rename_i b m hm
        rw [he1] at hm
        simp only [List.cons_append, List.cons.injEq] at hm
        obtain ⟨hb, hm⟩ := hm
        subst hb
        rw [if_neg (by rw [hc.head]; simp)]
        split
        · rename_i hg; rw [← hm, hss] at hg; cases hg
        · rename_i n m' hg
          rw [← hm, hss] at hg
          simp only [Option.some.injEq, Prod.mk.injEq] at hg
          obtain ⟨hn, hm'⟩ := hg
          subst hn hm'
          rw [← hm]
          simp only [hk]
          by_cases hlt : e.length < r.length
          · rw [if_pos hlt]
            refine ⟨[], r :: t, _, rfl, rfl, h3, by simp, .body r t rfl rfl rfl rfl rfl he2 (by omega) (.inl hlt), ?_⟩
            intro r' t' hrt _
            simp only [List.cons.injEq] at hrt
            rw [← hrt.1]; exact hlt
          · rw [if_neg hlt]
            obtain ⟨e2, hf1, hf2⟩ := append_split he2 (by omega)
            have htake : e.take r.length = r := by rw [hf1, List.take_left]
            have hdrop : e.drop r.length = e2 := by rw [hf1, List.drop_left]
            rw [htake, hdrop, hc.act]
            simp only
            have hcut : CutOk c.min t e2.length := by
              have hlen2 : s.mem.length = recLen r + e2.length := by
                rw [he1, hf1]; simp [recLen, hdrLen]; omega
              have := h5.2 (by omega)
              rwa [hlen2, Nat.add_sub_cancel_left] at this
            obtain ⟨done, todo', s', g1, g2, g3, g4, g5, g6⟩ := ih (fun x hx => hlen x (by simp [hx]))
              { s with mem := e2, size := 0, head := logHead, hlen := (catSsize r.length).length, out := s.out ++ [(logHead, (catSsize r.length).length, r)] }
              rest h1 rfl h3 hf2 hcut
            refine ⟨r :: done, todo', s', by rw [g1]; rfl, g2, g3, ?_, g5, g6⟩
            rw [g4]
            simp [tag]
    · refine ⟨[], r :: t, s, rfl, ?_, h3, by simp, .head h1 h2 h4 (by omega), ?_⟩
      · unfold scanInner; rw [if_neg hmin]
      · intro r' t' _ hl; rw [h1] at hl; cases hl

/-- Records known to be passed are followed by the position of the cut in the remaining ones. -/
theorem cut_after {min : Nat} {done todo : List Bytes} {q : Nat} (h : CutOk min (done ++ todo) ((encLog done).length + q)) : CutOk min todo q := by
  induction done with
  | nil => simpa [encLog] using h
  | cons r t ih =>
    rw [encLog_cons, List.length_append, encRec_length] at h
    have := h.2 (by omega)
    apply ih
    rwa [show recLen r + (encLog t).length + q - recLen r = (encLog t).length + q by omega] at this

/-- The whole scan: `cs` are the chunks still to be read. -/
theorem scanChunks_spec (c : ScanCfg) (hc : Passes c) (recs : List Bytes) (hlen : ∀ r ∈ recs, r.length < 2 ^ 64) (lost : Bytes) :
    ∀ (cs : List Bytes) (done todo : List Bytes) (s : Scan) (read : Bytes), recs = done ++ todo → s.stop = false →
      s.out = done.map tag → At c.min s todo (cs.flatten ++ lost) →
      read ++ (cs.flatten ++ lost) = encLog recs →
      (∀ a b, cs = a ++ b → CutOk c.min recs (read ++ a.flatten).length) →
      ∃ done' todo' s', recs = done' ++ todo' ∧ scanChunks c cs s = some s' ∧ s'.stop = false ∧ s'.out = done'.map tag ∧ At c.min s' todo' lost := by
  intro cs
  induction cs with
  | nil =>
    intro done todo s read h1 h2 h3 h4 h5 h6
    refine ⟨done, todo, s, h1, ?_, h2, h3, by simpa using h4⟩
    unfold scanChunks
    cases h4 with
    | head hl hz hm hlt =>
      rw [if_neg (by omega)]
      unfold scanInner
      rw [if_neg (by omega)]
    | body r t ht hl hz hh hn hm hr hlt =>
      rcases hlt with hlt | hlt
      · rw [if_pos (by omega)]
      · split
        · rfl
        · unfold scanInner; rw [if_neg (by omega)]
  | cons ch cs ih =>
    intro done todo s read h1 h2 h3 h4 h5 h6
    have h6' : ∀ a b, cs = a ++ b → CutOk c.min recs ((read ++ ch) ++ a.flatten).length := by
      intro a b hab
      have := h6 (ch :: a) b (by rw [hab]; rfl)
      simpa [List.append_assoc] using this
    have h5' : (read ++ ch) ++ (cs.flatten ++ lost) = encLog recs := by
      rw [← h5]; simp [List.append_assoc]
    have hcut : CutOk c.min recs (read ++ ch).length := by simpa using h6' [] cs rfl
    have hread : (read ++ ch).length + (cs.flatten ++ lost).length = (encLog recs).length := by rw [← h5', ← List.length_append]
    have hwhole : (encLog recs).length = (encLog done).length + (encLog todo).length := by rw [h1, encLog_append]; simp
    unfold scanChunks
    cases h4 with
    | head hl hz hm hlt =>
      have hm' : (s.mem ++ ch) ++ (cs.flatten ++ lost) = encLog todo := by rw [← hm]; simp [List.append_assoc]
      rw [if_neg (by omega)]
      have hq : (read ++ ch).length = (encLog done).length + (s.mem ++ ch).length := by
        have : (s.mem ++ ch).length + (cs.flatten ++ lost).length = (encLog todo).length := by rw [← hm', ← List.length_append]
        omega
      rw [hq, h1] at hcut
      obtain ⟨d, todo', s', g1, g2, g3, g4, g5, _⟩ := scanInner_head c hc todo (fun r hr => hlen r (by rw [h1]; simp [hr]))
        { s with mem := s.mem ++ ch } (cs.flatten ++ lost) hl hz h2 hm' (cut_after hcut)
      rw [g2]
      simp only [g3, Bool.false_eq_true, if_false]
      exact ih (done ++ d) todo' s' (read ++ ch) (by rw [h1, g1]; simp) g3 (by rw [g4, h3]; simp) g5 h5' h6'
    | body r t ht hl hz hh hn hm hr hlt =>
      have hm' : (s.mem ++ ch) ++ (cs.flatten ++ lost) = r ++ encLog t := by rw [← hm]; simp [List.append_assoc]
      by_cases hsz : (s.mem ++ ch).length < s.size
      · rw [if_pos hsz]
        exact ih done todo { s with mem := s.mem ++ ch } (read ++ ch) h1 h2 h3
          (.body r t ht hl hz hh hn hm' hr (.inl (by rw [← hz]; exact hsz))) h5' h6'
      · rw [if_neg hsz]
        by_cases hmin : c.min ≤ (s.mem ++ ch).length
        · obtain ⟨e, he1, he2⟩ := append_split hm' (by omega)
          have hq : (read ++ ch).length = (encLog (done ++ [r])).length + e.length := by
            have a1 : (s.mem ++ ch).length + (cs.flatten ++ lost).length = r.length + (encLog t).length := by
              rw [← List.length_append, hm']; simp
            have a2 : (encLog todo).length = recLen r + (encLog t).length := by rw [ht, encLog_cons]; simp [encRec_length]
            have a3 : (encLog (done ++ [r])).length = (encLog done).length + recLen r := by
              rw [encLog_append]; simp [encLog, encRec_length]
            have a4 : (s.mem ++ ch).length = r.length + e.length := by rw [he1]; simp
            omega
          have hrecs : recs = (done ++ [r]) ++ t := by rw [h1, ht]; simp
          rw [hq, hrecs] at hcut
          obtain ⟨d, todo', s', g1, g2, g3, g4, g5, _⟩ := scanInner_head c hc t (fun x hx => hlen x (by rw [hrecs]; simp [hx]))
            { s with mem := e, size := 0, lineEnd := true, out := s.out ++ [(s.head, s.hlen, r)] } (cs.flatten ++ lost) rfl rfl h2 he2 (cut_after hcut)
          have hstep : scanInner c { s with mem := s.mem ++ ch } =
              scanInner c { s with mem := e, size := 0, lineEnd := true, out := s.out ++ [(s.head, s.hlen, r)] } := by
            rw [scanInner]
            rw [if_pos hmin]
            rw [if_neg (by simp [hl])]
            simp only [hz]
            rw [show (s.mem ++ ch).take r.length = r by rw [he1, List.take_left],
              show (s.mem ++ ch).drop r.length = e by rw [he1, List.drop_left], hh, hc.act]
          rw [hstep, g2]
          simp only [g3, Bool.false_eq_true, if_false]
          refine ih (done ++ [r] ++ d) todo' s' (read ++ ch) (by rw [hrecs, g1]; simp) g3 ?_ g5 h5' h6'
          rw [g4, h3]
          simp [tag, hh, hn]
        · have hstay : scanInner c { s with mem := s.mem ++ ch } = some { s with mem := s.mem ++ ch } := by
            unfold scanInner; rw [if_neg hmin]
          rw [hstay]
          simp only
          rw [if_neg (by simp [h2])]
          exact ih done todo { s with mem := s.mem ++ ch } (read ++ ch) h1 h2 h3
            (.body r t ht hl hz hh hn hm' hr (.inr (by show (s.mem ++ ch).length < c.min; omega))) h5' h6'

theorem chunksOf_flatten (k : Nat) (d : Bytes) : (chunksOf k d).flatten = d := by
  fun_induction chunksOf k d with
  | case1 => simp
  | case2 d h ih => simp [ih]

end Sis.Disk
