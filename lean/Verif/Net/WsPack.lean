import Verif.Net.WsParse
/-
What the packing code writes.
-/
namespace Sis.Ws
open BitS

theorem toBits_inj {a b : Bytes} (h : toBits a = toBits b) : a = b := by
  induction a generalizing b with
  | nil =>
    cases b with
    | nil => rfl
    | cons y b =>
      have := congrArg List.length h
      rw [toBits_length, toBits_length] at this
      simp at this
  | cons x a ih =>
    cases b with
    | nil =>
      have := congrArg List.length h
      rw [toBits_length, toBits_length] at this
      simp at this
    | cons y b =>
      rw [toBits_cons, toBits_cons] at h
      obtain ⟨h1, h2⟩ := List.append_inj h (by simp)
      have e := congrArg bitsVal h1
      rw [bitsVal_natBits, bitsVal_natBits, Nat.mod_eq_of_lt (by have := x.toNat_lt; omega),
        Nat.mod_eq_of_lt (by have := y.toNat_lt; omega)] at e
      rw [ih h2, UInt8.toNat_inj.1 e]

/-- Calls that write whole bytes put exactly these bytes at the beginning of the block. -/
theorem putAll_bytes {calls : List (Nat × Nat)} {bs blk : Bytes} (hc : callBits calls = toBits bs) (hw : Widths calls)
    (hroom : bs.length ≤ blk.length) :
    ∃ s, putAll ⟨blk, 0⟩ calls = some s ∧ (s.pos + 7) / 8 = bs.length ∧ s.buf.length = blk.length ∧ s.buf.take bs.length = bs := by
  have hl : (callBits calls).length = 8 * bs.length := by rw [hc, toBits_length]
  obtain ⟨s, h1, h2, h3, h4⟩ := putAll_spec calls ⟨blk, 0⟩ hw (by simp only [hl]; omega)
  simp only [Nat.zero_add, List.take_zero, List.nil_append] at h2 h3 h4
  refine ⟨s, h1, by omega, h3, ?_⟩
  apply toBits_inj
  rw [toBits_take, ← hc, ← h4, h2, hl]

theorem callBits_buffer (bs : Bytes) : callBits (bufferCalls bs) = toBits bs := by
  induction bs with
  | nil => rfl
  | cons c bs ih =>
    unfold bufferCalls at ih ⊢
    rw [List.map_cons, callBits_cons, ih, toBits_cons, ← natBits_mod 8 (charPat c), charPat_mod]

theorem widths_buffer (bs : Bytes) : Widths (bufferCalls bs) := by
  intro c hc
  unfold bufferCalls at hc
  simp only [List.mem_map] at hc
  obtain ⟨_, _, rfl⟩ := hc
  simp

/-- The number of extra length bytes the packing code chooses. -/
def extOf (n : Nat) : Nat := if n < 126 then 0 else if n ≤ 0xFFFF then 2 else 8

theorem natBits_bytes (k n : Nat) : natBits (8 * k) n = toBits (beBytes k n) := by
  rw [toBits_eq, beBytes_length, beVal_beBytes, ← natBits_mod (8 * k) n, show (256 : Nat) = 2 ^ 8 from rfl, ← Nat.pow_mul]

theorem callBits_head (fin : Bool) (op size : Nat) (hop : op < 16) :
    callBits (headCalls (if fin then 1 else 0) op size) =
      toBits (UInt8.ofNat ((if fin then 128 else 0) + op) ::
        UInt8.ofNat (if extOf size = 0 then size else if extOf size = 2 then 126 else 127) :: beBytes (extOf size) size) := by
  have h0 : natBits 1 (if fin then 1 else 0) ++ (natBits 3 0 ++ natBits 4 op) = natBits 8 ((if fin then 128 else 0) + op) := by
    have : ∀ o : Fin 16, ∀ f : Bool, natBits 1 (if f then 1 else 0) ++ (natBits 3 0 ++ natBits 4 o.val) =
      natBits 8 ((if f then 128 else 0) + o.val) := by decide
    exact this ⟨op, hop⟩ fin
  have h1 : ∀ n, n < 128 → natBits 1 0 ++ natBits 7 n = natBits 8 n := by
    intro n hn
    rw [show (8 : Nat) = 1 + 7 from rfl, natBits_append, Nat.shiftRight_eq_div_pow, Nat.div_eq_of_lt (by simpa using hn)]
  have ob : (UInt8.ofNat ((if fin then 128 else 0) + op)).toNat = (if fin then 128 else 0) + op := ofNat_lt (by split <;> omega)
  unfold headCalls extOf
  rw [callBits_append, toBits_cons, toBits_cons, ob]
  have e4 : callBits [((if fin then 1 else 0 : Nat), 1), (0, 3), (op, 4), (0, 1)] =
      natBits 8 ((if fin then 128 else 0) + op) ++ natBits 1 0 := by
    rw [← h0]; simp [callBits]
  rw [e4, List.append_assoc]
  congr 1
  by_cases c1 : size < 126
  · simp only [if_pos c1, if_true]
    rw [ofNat_lt (by omega), callBits_one, h1 size (by omega)]
    simp [beBytes, leBytes, toBits]
  · by_cases c2 : size ≤ 0xFFFF
    · simp only [if_neg c1, if_pos c2, if_neg (show ¬(2 : Nat) = 0 by decide), if_true]
      rw [← natBits_bytes, ofNat_lt (by omega), ← h1 126 (by omega), List.append_assoc]
      simp [callBits]
    · simp only [if_neg c1, if_neg c2, if_neg (show ¬(8 : Nat) = 0 by decide), if_neg (show ¬(8 : Nat) = 2 by decide)]
      rw [← natBits_bytes, ofNat_lt (by omega), ← h1 127 (by omega), List.append_assoc]
      simp [callBits]

theorem widths_head (fin op size : Nat) : Widths (headCalls fin op size) := by
  intro c hc
  unfold headCalls at hc
  simp only [List.mem_append, List.mem_cons, List.not_mem_nil, or_false] at hc
  rcases hc with (rfl | rfl | rfl | rfl) | hc
  · simp
  · simp
  · simp
  · simp
  · repeat' split at hc
    all_goals simp only [List.mem_cons, List.not_mem_nil, or_false] at hc
    · subst hc; simp
    · rcases hc with rfl | rfl <;> simp
    · rcases hc with rfl | rfl <;> simp

/-- An unmasked frame as the packing code makes it. -/
def mkFrame (fin : Bool) (op : Nat) (data : Bytes) : Frame := ⟨fin, 0, op, extOf data.length, none, data⟩

theorem mkFrame_ok (fin : Bool) (op : Nat) (data : Bytes) (hop : op < 16) (hl : data.length < 2 ^ 64) : (mkFrame fin op data).Ok := by
  refine ⟨by simp [mkFrame], hop, ?_, fun k h => by simp [mkFrame] at h⟩
  simp only [mkFrame, extOf]
  by_cases c1 : data.length < 126
  · rw [if_pos c1]; exact Or.inl ⟨rfl, c1⟩
  · rw [if_neg c1]
    by_cases c2 : data.length ≤ 0xFFFF
    · rw [if_pos c2]; exact Or.inr (Or.inl ⟨rfl, by omega⟩)
    · rw [if_neg c2]; exact Or.inr (Or.inr ⟨rfl, hl⟩)

theorem extOf_le (n : Nat) : extOf n ≤ 8 := by unfold extOf; split <;> (try split) <;> omega

theorem mkFrame_length (fin : Bool) (op : Nat) (data : Bytes) : (mkFrame fin op data).bytes.length ≤ data.length + 10 := by
  have := extOf_le data.length
  simp [mkFrame, Frame.bytes, beBytes_length]; omega

theorem putFrame (fin : Bool) (op : Nat) (a b blk : Bytes) (hop : op < 16) (hroom : a.length + b.length + headLen ≤ blk.length) :
    ∃ s, putAll ⟨blk, 0⟩ (headCalls (if fin then 1 else 0) op (a.length + b.length) ++ (bufferCalls a ++ bufferCalls b)) = some s ∧
      (s.pos + 7) / 8 = (mkFrame fin op (a ++ b)).bytes.length ∧ s.buf.length = blk.length ∧
      s.buf.take (mkFrame fin op (a ++ b)).bytes.length = (mkFrame fin op (a ++ b)).bytes := by
  apply putAll_bytes
  · rw [callBits_append, callBits_append, callBits_buffer, callBits_buffer, callBits_head fin op _ hop, ← toBits_append, ← toBits_append]
    simp [mkFrame, Frame.bytes]
  · intro c hc
    simp only [List.mem_append] at hc
    rcases hc with hc | hc | hc
    · exact widths_head _ _ _ c hc
    · exact widths_buffer _ c hc
    · exact widths_buffer _ c hc
  · have := mkFrame_length fin op (a ++ b)
    rw [List.length_append] at this
    unfold headLen at hroom
    omega

/-- The frames of a message: `n` more frames, the first one with opcode `op`. -/
def frags (info : Bytes) : Nat → Nat → Bytes → List Frame
  | 0, _, _ => []
  | 1, op, inp => [mkFrame true op (inp.take maxSend ++ info)]
  | n + 2, op, inp => mkFrame false op (inp.take maxSend) :: frags info (n + 1) 0 (inp.drop maxSend)

theorem packLoop_spec (isstr : Bool) (info : Bytes) (count : Nat) (hinfo : info.length ≤ 1) (n i : Nat) (inp blk : Bytes) (hni : i + n = count)
    (hroom : inp.length + info.length + n * headLen ≤ blk.length) (hlen : (n - 1) * maxSend ≤ inp.length) :
    packLoop isstr info count n i inp blk =
      some (frameBytes (frags info n (if i > 0 then 0 else if isstr then 1 else 2) inp)) := by
  induction n generalizing i inp blk with
  | zero => rfl
  | succ n ih =>
    have hop : (if i > 0 then 0 else if isstr then 1 else 2) < 16 := by split <;> (try split) <;> decide
    have hopc : (if count > 0 ∧ i > 0 then 0 else if isstr then 1 else 2) = (if i > 0 then 0 else if isstr then 1 else 2) := by
      by_cases hi : i > 0
      · rw [if_pos ⟨by omega, hi⟩, if_pos hi]
      · rw [if_neg (fun h => hi h.2), if_neg hi]
    have hsz : (if inp.length > maxSend then maxSend else inp.length) = (inp.take maxSend).length := by
      rw [List.length_take]; split <;> omega
    have htk : inp.take (inp.take maxSend).length = inp.take maxSend := by
      rw [List.length_take, Nat.min_comm]
      by_cases h : inp.length ≤ maxSend
      · rw [Nat.min_eq_left h, List.take_of_length_le (Nat.le_refl _), List.take_of_length_le h]
      · rw [Nat.min_eq_right (by omega)]
    unfold packLoop
    simp only [hopc, hsz]
    cases n with
    | zero =>
      have hl : i + 1 = count := by omega
      simp only [hl, decide_true, if_true]
      obtain ⟨s, p1, p2, p3, p4⟩ := putFrame true _ (inp.take maxSend) info blk hop (by
        have : (inp.take maxSend).length ≤ inp.length := by rw [List.length_take]; omega
        omega)
      simp only [if_true] at p1
      simp only [htk, p1, Option.bind_eq_bind, Option.bind_some, packLoop, p2, p4, frags, frameBytes]
      simp
    | succ n =>
      have hl : ¬ i + 1 = count := by omega
      have hfull : maxSend ≤ inp.length := by
        refine Nat.le_trans ?_ hlen
        rw [show n + 1 + 1 - 1 = n + 1 by omega, Nat.succ_mul]; omega
      have htl : (inp.take maxSend).length = maxSend := by rw [List.length_take]; omega
      simp only [hl, decide_false, Bool.false_eq_true, if_false]
      obtain ⟨s, p1, p2, p3, p4⟩ := putFrame false _ (inp.take maxSend) [] blk hop (by
        rw [htl]; simp only [List.length_nil]
        have : headLen ≤ (n + 1 + 1) * headLen := by rw [Nat.succ_mul]; omega
        omega)
      simp only [Bool.false_eq_true, if_false, List.length_nil, Nat.add_zero, List.append_nil, bufferCalls, List.map_nil] at p1 p2 p4
      simp only [htk, bufferCalls, p1, Option.bind_eq_bind, Option.bind_some, p2, p4]
      have hbl := mkFrame_length false (if i > 0 then 0 else if isstr then 1 else 2) (inp.take maxSend)
      rw [htl] at hbl ⊢
      rw [ih (i + 1) (inp.drop maxSend) _ (by omega) (by
          rw [List.length_drop, List.length_drop, p3]
          rw [Nat.succ_mul] at hroom
          unfold headLen at hroom ⊢
          omega) (by
          rw [List.length_drop, show n + 1 - 1 = n by omega]
          rw [show n + 1 + 1 - 1 = n + 1 by omega, Nat.succ_mul] at hlen
          omega)]
      rw [if_pos (show i + 1 > 0 by omega)]
      simp [frags, frameBytes]

theorem frags_data (info : Bytes) (hinfo : info.length ≤ 1) (n op : Nat) (inp : Bytes) (h1 : (n - 1) * maxSend ≤ inp.length)
    (h2 : inp.length + info.length ≤ n * maxSend) (hn : 0 < n) :
    ((frags info n op inp).map Frame.data).flatten = inp ++ info := by
  fun_induction frags info n op inp with
  | case1 => omega
  | case2 op inp =>
    simp only [mkFrame, List.map_cons, List.map_nil, List.flatten_cons, List.flatten_nil, List.append_nil]
    rw [List.take_of_length_le (by omega)]
  | case3 n op inp ih =>
    rw [show n.succ.succ - 1 = n + 1 by omega, Nat.succ_mul] at h1
    rw [Nat.succ_mul] at h2
    simp only [List.map_cons, List.flatten_cons]
    rw [ih (by rw [List.length_drop, show n + 1 - 1 = n by omega]; omega) (by rw [List.length_drop]; omega) (by omega)]
    simp only [mkFrame]
    rw [← List.append_assoc, List.take_append_drop]

theorem frags_ok (info : Bytes) (hinfo : info.length ≤ 1) (n op : Nat) (inp : Bytes) (hop : op < 16) : ∀ f ∈ frags info n op inp, f.Ok := by
  fun_induction frags info n op inp with
  | case1 => intro f hf; cases hf
  | case2 op inp =>
    intro f hf
    simp only [List.mem_singleton] at hf
    subst hf
    refine mkFrame_ok _ _ _ hop ?_
    rw [List.length_append, List.length_take]
    unfold maxSend headLen; omega
  | case3 n op inp ih =>
    intro f hf
    simp only [List.mem_cons] at hf
    rcases hf with rfl | hf
    · refine mkFrame_ok _ _ _ hop ?_
      rw [List.length_take]
      unfold maxSend headLen; omega
    · exact ih (by omega) f hf

theorem frags_one (info : Bytes) (n op : Nat) (inp : Bytes) (hn : 0 < n) : oneMessage (frags info n op inp) ∧ opOf (frags info n op inp) = op := by
  fun_induction frags info n op inp with
  | case1 => omega
  | case2 op inp => exact ⟨rfl, rfl⟩
  | case3 n op inp ih =>
    have := (ih (by omega)).1
    refine ⟨?_, rfl⟩
    cases hf : frags info (n + 1) 0 (inp.drop maxSend) with
    | nil => rw [hf] at this; exact absurd this id
    | cons g gs => rw [hf] at this; exact ⟨rfl, this⟩

/-- A packed message is a sequence of frames that carries the message and the tail. -/
theorem frags_length (info : Bytes) (n op : Nat) (inp : Bytes) : (frags info n op inp).length = n := by
  fun_induction frags info n op inp with
  | case1 => rfl
  | case2 => rfl
  | case3 _ _ _ ih => simp [ih]

theorem frags_sizes (info : Bytes) (hinfo : info.length ≤ 1) (n op : Nat) (inp : Bytes) :
    ∀ f ∈ frags info n op inp, f.data.length ≤ maxSend + 1 ∧ f.bytes.length ≤ f.data.length + 10 := by
  fun_induction frags info n op inp with
  | case1 => simp
  | case2 =>
    intro f hf
    rw [List.mem_singleton] at hf
    rw [hf]
    refine ⟨?_, mkFrame_length _ _ _⟩
    simp only [mkFrame, List.length_append, List.length_take]; omega
  | case3 _ _ _ ih =>
    intro f hf
    rcases List.mem_cons.mp hf with e | e
    · rw [e]
      refine ⟨?_, mkFrame_length _ _ _⟩
      simp only [mkFrame, List.length_take]; omega
    · exact ih f e

theorem packMessage_spec (junk : Nat → UInt8) (isstr : Bool) (inp info : Bytes) (hinfo : info.length ≤ 1) (hne : 0 < inp.length + info.length) :
    ∃ fs, packMessage junk isstr inp info = some (frameBytes fs) ∧ (∀ f ∈ fs, f.Ok) ∧ oneMessage fs ∧
      opOf fs = (if isstr then 1 else 2) ∧ (fs.map Frame.data).flatten = inp ++ info ∧
      fs.length ≤ (inp.length + info.length) / maxSend + 1 ∧ (∀ f ∈ fs, f.data.length ≤ maxSend + 1 ∧ f.bytes.length ≤ f.data.length + 10) := by
  have hdm := Nat.div_add_mod (inp.length + info.length) maxSend
  have hlt : (inp.length + info.length) % maxSend < maxSend := Nat.mod_lt _ (by unfold maxSend headLen; omega)
  unfold packMessage
  simp only
  generalize hq : (inp.length + info.length) / maxSend = q at hdm
  generalize hr : (inp.length + info.length) % maxSend = r at hdm hlt
  rw [Nat.mul_comm] at hdm
  obtain ⟨c, hc⟩ : ∃ c, c = q + if r ≠ 0 then 1 else 0 := ⟨_, rfl⟩
  rw [← hc]
  have hms : maxSend = 16368 := rfl
  have h2 : inp.length + info.length ≤ c * maxSend := by
    rw [hc]
    by_cases h0 : r = 0
    · rw [if_neg (by simp [h0]), Nat.add_zero]; omega
    · rw [if_pos h0, Nat.succ_mul]; omega
  have hcpos : 0 < c := by
    by_cases h : c = 0
    · rw [h] at h2; omega
    · omega
  have h1 : (c - 1) * maxSend ≤ inp.length := by
    rw [hc]
    by_cases h0 : r = 0
    · rw [if_neg (by simp [h0])]
      have hq0 : 0 < q := by
        by_cases h : q = 0
        · rw [h] at hdm; omega
        · omega
      obtain ⟨q', rfl⟩ : ∃ q', q = q' + 1 := ⟨q - 1, by omega⟩
      rw [Nat.succ_mul] at hdm
      rw [Nat.add_zero, Nat.add_sub_cancel]
      omega
    · rw [if_pos h0, Nat.add_sub_cancel]; omega
  refine ⟨_, packLoop_spec isstr info c hinfo c 0 inp _ (by omega) (by simp) h1, ?_, ?_, ?_, ?_, ?_, ?_⟩
  · exact frags_ok info hinfo c _ inp (by split <;> (try split) <;> omega)
  · exact (frags_one info c _ inp hcpos).1
  · rw [(frags_one info c _ inp hcpos).2, if_neg (by omega)]
  · exact frags_data info hinfo c _ inp h1 h2 hcpos
  · rw [frags_length, hc]; split <;> omega
  · exact frags_sizes info hinfo c _ inp

end Sis.Ws
