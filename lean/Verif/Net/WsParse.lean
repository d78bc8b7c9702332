import Verif.Net.WsLemmas
/-
The parser: what it reads does not depend on what follows, and it reads what a peer writes.
-/
namespace Sis.Ws
open BitS

theorem parse1_extend {p q : Bytes} {fin op : Nat} {d r : Bytes} (h : parse1 p = some (fin, op, d, r)) :
    parse1 (p ++ q) = some (fin, op, d, r ++ q) ∧ r.length + 2 ≤ p.length := by
  match p with
  | [] => simp [parse1] at h
  | [_] => simp [parse1] at h
  | b0 :: b1 :: t =>
    simp only [parse1] at h
    split at h
    · cases h
    · rename_i c1
      split at h
      · cases h
      · rename_i c2
        split at h
        · cases h
        · rename_i c3
          injection h with h
          simp only [Prod.mk.injEq] at h
          obtain ⟨h1, h2, h3, h4⟩ := h
          have e1 : (t ++ q).drop (extLen (b1.toNat % 128)) = t.drop (extLen (b1.toNat % 128)) ++ q :=
            List.drop_append_of_le_length (by omega)
          have e2 : lenOf (b1.toNat % 128) (t ++ q) = lenOf (b1.toNat % 128) t := by
            unfold lenOf
            rw [List.take_append_of_le_length (by omega)]
          have e3 : (t.drop (extLen (b1.toNat % 128)) ++ q).drop (keyLen (b1.toNat / 128)) =
              (t.drop (extLen (b1.toNat % 128))).drop (keyLen (b1.toNat / 128)) ++ q :=
            List.drop_append_of_le_length (by omega)
          constructor
          · simp only [List.cons_append, parse1]
            rw [if_neg (by rw [List.length_append]; omega), e1, if_neg (by rw [List.length_append]; omega), e2, e3,
              if_neg (by rw [List.length_append]; omega), List.take_append_of_le_length (Nat.le_of_not_lt c3),
              List.drop_append_of_le_length (Nat.le_of_not_lt c3), h1, h2, h4, ← h3]
            by_cases hm : b1.toNat / 128 = 1
            · simp only [if_pos hm]
              unfold keyLen at c2
              rw [if_pos hm] at c2
              rw [List.take_append_of_le_length (Nat.le_of_not_lt c2)]
            · simp only [if_neg hm]
          · rw [← h4]
            simp only [List.length_drop, List.length_cons]
            omega

theorem parseN_extend {n m : Nat} {p q : Bytes} {op : Nat} {d r : Bytes} (h : parseN n p = some (op, d, r)) (hm : n ≤ m) :
    parseN m (p ++ q) = some (op, d, r ++ q) ∧ r.length + 2 ≤ p.length := by
  induction n generalizing m p op d r with
  | zero => cases h
  | succ n ih =>
    cases m with
    | zero => omega
    | succ m =>
      unfold parseN at h ⊢
      cases hp : parse1 p with
      | none => rw [hp] at h; cases h
      | some t =>
        obtain ⟨fin, op1, d1, r1⟩ := t
        rw [hp] at h
        obtain ⟨e1, l1⟩ := parse1_extend (q := q) hp
        rw [e1]
        simp only at h ⊢
        by_cases hf : fin = 1
        · rw [if_pos hf] at h ⊢
          injection h with h
          simp only [Prod.mk.injEq] at h
          obtain ⟨h1, h2, h3⟩ := h
          exact ⟨by rw [h1, h2, h3], by rw [← h3]; exact l1⟩
        · rw [if_neg hf] at h ⊢
          cases hq : parseN n r1 with
          | none => rw [hq] at h; cases h
          | some t2 =>
            obtain ⟨op2, d2, r2⟩ := t2
            rw [hq] at h
            injection h with h
            simp only [Prod.mk.injEq] at h
            obtain ⟨h1, h2, h3⟩ := h
            obtain ⟨e2, l2⟩ := ih hq (m := m) (by omega)
            rw [e2]
            simp only
            exact ⟨by rw [h1, h2, h3], by rw [← h3]; omega⟩

/-- The number of passes does not matter once it is as large as the input. -/
theorem parseN_enough {n : Nat} {p : Bytes} {t : Nat × Bytes × Bytes} (h : parseN n p = some t) : ∀ m, p.length < m → parseN m p = some t := by
  induction n generalizing p t with
  | zero => cases h
  | succ n ih =>
    intro m hm
    cases m with
    | zero => omega
    | succ m =>
      unfold parseN at h ⊢
      cases hp : parse1 p with
      | none => rw [hp] at h; cases h
      | some t =>
        obtain ⟨fin, op1, d1, r1⟩ := t
        rw [hp] at h
        have l1 := (parse1_extend (q := []) hp).2
        simp only at h ⊢
        by_cases hf : fin = 1
        · rw [if_pos hf] at h ⊢; exact h
        · rw [if_neg hf] at h ⊢
          cases hq : parseN n r1 with
          | none => rw [hq] at h; cases h
          | some t2 =>
            rw [hq] at h
            rw [ih hq m (by omega)]
            exact h

theorem parse_extend {p q : Bytes} {op : Nat} {d r : Bytes} (h : parse p = some (op, d, r)) :
    parse (p ++ q) = some (op, d, r ++ q) ∧ r.length + 2 ≤ p.length :=
  parseN_extend h (by simp)

/-! What peers write (RFC 6455, section 5.2). -/

/-- A frame: final mark, reserved bits, opcode, the number of extra length bytes (0, 2 or 8), mask key if any, payload. -/
structure Frame where
  fin : Bool
  rsv : Nat
  op : Nat
  ext : Nat
  key : Option Bytes
  data : Bytes

/-- Big-endian bytes of a number. -/
def beBytes (k n : Nat) : Bytes := (leBytes k n).reverse

/-- A frame that follows the standard. -/
structure Frame.Ok (f : Frame) : Prop where
  rsv : f.rsv < 8
  op : f.op < 16
  len : (f.ext = 0 ∧ f.data.length < 126) ∨ (f.ext = 2 ∧ f.data.length < 2 ^ 16) ∨ (f.ext = 8 ∧ f.data.length < 2 ^ 64)
  key : ∀ k, f.key = some k → k.length = 4

/-- The payload on the wire: byte `i` is combined with byte `i mod 4` of the key. -/
def masked (key : Bytes) (data : Bytes) : Bytes := data.mapIdx fun i b => b ^^^ key.getD (i % 4) 0

/-- The bytes of a frame. -/
def Frame.bytes (f : Frame) : Bytes :=
  UInt8.ofNat ((if f.fin then 128 else 0) + f.rsv * 16 + f.op) ::
  UInt8.ofNat ((if f.key.isSome then 128 else 0) + (if f.ext = 0 then f.data.length else if f.ext = 2 then 126 else 127)) ::
  (beBytes f.ext f.data.length ++ (match f.key with
    | none => f.data
    | some k => k ++ masked k f.data))

theorem xorKey_eq (key : Bytes) (i : Nat) (l : Bytes) : xorKey key i l = l.mapIdx fun j b => b ^^^ key.getD ((i + j) % 4) 0 := by
  induction l generalizing i with
  | nil => rfl
  | cons b l ih =>
    rw [xorKey, ih, List.mapIdx_cons]
    simp only [Nat.add_zero]
    congr 2
    funext j b
    rw [show i + 1 + j = i + (j + 1) by omega]

theorem xorKey_masked (key data : Bytes) : xorKey key 0 (masked key data) = data := by
  rw [xorKey_eq]
  unfold masked
  rw [List.mapIdx_mapIdx]
  apply List.ext_getElem?
  intro i
  rw [List.getElem?_mapIdx]
  cases data[i]? with
  | none => rfl
  | some b => simp [Function.comp, UInt8.xor_assoc]

theorem masked_length (key data : Bytes) : (masked key data).length = data.length := by simp [masked]

theorem beVal_append (a : Bytes) (b : UInt8) : beVal (a ++ [b]) = beVal a * 256 + b.toNat := by
  induction a with
  | nil => simp [beVal]
  | cons c a ih =>
    simp only [List.cons_append, beVal, ih, List.length_append, List.length_cons, List.length_nil, Nat.pow_succ, Nat.zero_add]
    rw [Nat.add_mul, Nat.mul_assoc, Nat.add_assoc]

theorem beVal_beBytes (k n : Nat) : beVal (beBytes k n) = n % 256 ^ k := by
  unfold beBytes
  induction k generalizing n with
  | zero => simp [leBytes, beVal, Nat.mod_one]
  | succ k ih =>
    rw [leBytes, List.reverse_cons, beVal_append, ih]
    have h1 : (UInt8.ofNat (n % 256)).toNat = n % 256 := by simp
    rw [h1, Nat.pow_succ, Nat.mul_comm (256 ^ k) 256, Nat.mod_mul]
    omega

theorem beBytes_length (k n : Nat) : (beBytes k n).length = k := by simp [beBytes]

theorem ofNat_lt {n : Nat} (h : n < 256) : (UInt8.ofNat n).toNat = n := by
  simp; omega

theorem parse1_frame (f : Frame) (ok : f.Ok) (rest : Bytes) :
    parse1 (f.bytes ++ rest) = some (if f.fin then 1 else 0, f.op, f.data, rest) := by
  obtain ⟨h1, h2, h3, h4⟩ := ok
  unfold Frame.bytes
  simp only [List.cons_append, parse1]
  have n0 : (UInt8.ofNat ((if f.fin then 128 else 0) + f.rsv * 16 + f.op)).toNat = (if f.fin then 128 else 0) + f.rsv * 16 + f.op :=
    ofNat_lt (by split <;> omega)
  have lb : (if f.ext = 0 then f.data.length else if f.ext = 2 then 126 else 127) < 128 := by
    rcases h3 with ⟨a, b⟩ | ⟨a, b⟩ | ⟨a, b⟩ <;> simp [a] <;> omega
  have n1 : (UInt8.ofNat ((if f.key.isSome then 128 else 0) +
      (if f.ext = 0 then f.data.length else if f.ext = 2 then 126 else 127))).toNat =
      (if f.key.isSome then 128 else 0) + (if f.ext = 0 then f.data.length else if f.ext = 2 then 126 else 127) :=
    ofNat_lt (by split <;> omega)
  rw [n0, n1]
  have m0 : ((if f.fin then 128 else 0) + f.rsv * 16 + f.op) / 128 = if f.fin then 1 else 0 := by split <;> omega
  have m1 : ((if f.fin then 128 else 0) + f.rsv * 16 + f.op) % 16 = f.op := by split <;> omega
  have m2 : ((if f.key.isSome then 128 else 0) + (if f.ext = 0 then f.data.length else if f.ext = 2 then 126 else 127)) % 128 =
      if f.ext = 0 then f.data.length else if f.ext = 2 then 126 else 127 := by
    generalize (if f.ext = 0 then f.data.length else if f.ext = 2 then 126 else 127) = x at lb
    split <;> omega
  have m3 : ((if f.key.isSome then 128 else 0) + (if f.ext = 0 then f.data.length else if f.ext = 2 then 126 else 127)) / 128 =
      if f.key.isSome then 1 else 0 := by
    generalize (if f.ext = 0 then f.data.length else if f.ext = 2 then 126 else 127) = x at lb
    split <;> omega
  rw [m0, m1, m2, m3]
  have ee : extLen (if f.ext = 0 then f.data.length else if f.ext = 2 then 126 else 127) = f.ext := by
    rcases h3 with ⟨a, b⟩ | ⟨a, b⟩ | ⟨a, b⟩
    · rw [if_pos a, a]; unfold extLen; rw [if_neg (by omega), if_neg (by omega)]
    · rw [a]; rfl
    · rw [a]; rfl
  have bl := beBytes_length f.ext f.data.length
  have hl : ∀ t, lenOf (if f.ext = 0 then f.data.length else if f.ext = 2 then 126 else 127) (beBytes f.ext f.data.length ++ t) =
      f.data.length := by
    intro t
    unfold lenOf
    rw [ee]
    by_cases h0 : f.ext = 0
    · rw [if_pos h0, if_pos h0]
    · rw [if_neg h0, List.take_append_of_le_length (by omega), List.take_of_length_le (by omega), beVal_beBytes]
      apply Nat.mod_eq_of_lt
      rcases h3 with ⟨a, b⟩ | ⟨a, b⟩ | ⟨a, b⟩
      · exact absurd a h0
      · rw [a]; exact Nat.lt_of_lt_of_le b (by decide)
      · rw [a]; exact Nat.lt_of_lt_of_le b (by decide)
  have hd : ∀ t : Bytes, (beBytes f.ext f.data.length ++ t).drop f.ext = t := by
    intro t
    have := List.drop_left (l₁ := beBytes f.ext f.data.length) (l₂ := t)
    rwa [bl] at this
  rw [List.append_assoc, ee, hl, hd, if_neg (by rw [List.length_append, bl]; omega)]
  cases hk : f.key with
  | none =>
    simp [keyLen]
  | some k =>
    have kl := h4 k hk
    simp only [Option.isSome_some, if_true, keyLen, List.append_assoc]
    have hd4 : (k ++ (masked k f.data ++ rest)).drop 4 = masked k f.data ++ rest := by
      rw [← kl]; exact List.drop_left
    have ht4 : (k ++ (masked k f.data ++ rest)).take 4 = k := by
      rw [← kl]; exact List.take_left
    have hml := masked_length k f.data
    have hdm : (masked k f.data ++ rest).drop f.data.length = rest := by
      rw [← hml]; exact List.drop_left
    have htm : (masked k f.data ++ rest).take f.data.length = masked k f.data := by
      rw [← hml]; exact List.take_left
    rw [if_neg (by rw [List.length_append, kl]; omega), hd4, ht4, hdm, htm, if_neg (by rw [List.length_append, hml]; omega),
      xorKey_masked]

/-- The bytes of several frames. -/
def frameBytes (fs : List Frame) : Bytes := (fs.map Frame.bytes).flatten

/-- The frames of one message: only the last one is marked final. -/
def oneMessage : List Frame → Prop
  | [] => False
  | [f] => f.fin = true
  | f :: fs => f.fin = false ∧ oneMessage fs

/-- The opcode of the first frame. -/
def opOf : List Frame → Nat
  | [] => 0
  | f :: _ => f.op

theorem parseN_frames (fs : List Frame) (ok : ∀ f ∈ fs, f.Ok) (h1 : oneMessage fs) (rest : Bytes) (n : Nat) (hn : fs.length ≤ n) :
    parseN n (frameBytes fs ++ rest) = some (opOf fs, (fs.map Frame.data).flatten, rest) := by
  induction fs generalizing n with
  | nil => exact absurd h1 id
  | cons f fs ih =>
    cases n with
    | zero => simp at hn
    | succ n =>
      unfold parseN
      have e : frameBytes (f :: fs) ++ rest = f.bytes ++ (frameBytes fs ++ rest) := by simp [frameBytes]
      rw [e, parse1_frame f (ok f (by simp))]
      simp only
      cases fs with
      | nil =>
        have hf : f.fin = true := h1
        simp [hf, frameBytes, opOf]
      | cons g gs =>
        have hf : f.fin = false := h1.1
        rw [hf]
        simp only [Bool.false_eq_true, if_false]
        rw [if_neg (by omega), ih (fun x hx => ok x (by simp [hx])) h1.2 n (by simpa using hn)]
        simp [opOf]

theorem frame_bytes_length (f : Frame) : 2 ≤ f.bytes.length := by
  simp [Frame.bytes]

theorem frameBytes_length (fs : List Frame) : 2 * fs.length ≤ (frameBytes fs).length := by
  induction fs with
  | nil => simp [frameBytes]
  | cons f fs ih =>
    have := frame_bytes_length f
    have e : (frameBytes (f :: fs)).length = f.bytes.length + (frameBytes fs).length := by simp [frameBytes]
    rw [e, List.length_cons]; omega

theorem parse_frames (fs : List Frame) (ok : ∀ f ∈ fs, f.Ok) (h1 : oneMessage fs) (rest : Bytes) :
    parse (frameBytes fs ++ rest) = some (opOf fs, (fs.map Frame.data).flatten, rest) := by
  unfold parse
  refine parseN_frames fs ok h1 rest _ ?_
  have := frameBytes_length fs
  rw [List.length_append]; omega

end Sis.Ws
