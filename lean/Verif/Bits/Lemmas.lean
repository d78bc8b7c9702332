import Verif.Bits.Stream
/-
Bit-level view of the stream and the characterisation of `put` and `get`.
-/
namespace Sis

/-- The `k` low-order bits of `x`, most significant first. -/
def natBits : Nat → Nat → List Bool
  | 0, _ => []
  | k + 1, x => x.testBit k :: natBits k x

/-- The number written by a bit string, most significant bit first. -/
def bitsVal (l : List Bool) : Nat := l.foldl (fun a b => 2 * a + b.toNat) 0

/-- The bits of a byte string, most significant bit of the first byte first. -/
def toBits (bs : Bytes) : List Bool := bs.flatMap fun b => natBits 8 b.toNat

@[simp] theorem natBits_length (k x : Nat) : (natBits k x).length = k := by
  induction k with
  | zero => rfl
  | succ k ih => simp [natBits, ih]

theorem natBits_getElem (k x i : Nat) (h : i < (natBits k x).length) :
    (natBits k x)[i] = x.testBit (k - 1 - i) := by
  induction k generalizing i with
  | zero => simp at h
  | succ k ih =>
    cases i with
    | zero => simp [natBits]
    | succ i =>
      simp only [natBits, List.getElem_cons_succ]
      rw [ih]
      congr 1
      omega

theorem natBits_append (a b x : Nat) : natBits (a + b) x = natBits a (x >>> b) ++ natBits b x := by
  induction a with
  | zero => simp [natBits]
  | succ a ih =>
    rw [show a + 1 + b = (a + b) + 1 by omega]
    simp only [natBits, ih, List.cons_append, List.cons.injEq, and_true]
    rw [Nat.testBit_shiftRight]
    congr 1; omega

theorem natBits_mod (k x : Nat) : natBits k (x % 2 ^ k) = natBits k x := by
  apply List.ext_getElem
  · simp
  · intro i h1 h2
    simp only [natBits_length] at h1
    rw [natBits_getElem, natBits_getElem, Nat.testBit_mod_two_pow]
    simp; omega

theorem foldl_bits (l : List Bool) (a : Nat) :
    l.foldl (fun a b => 2 * a + b.toNat) a = a * 2 ^ l.length + bitsVal l := by
  induction l generalizing a with
  | nil => simp [bitsVal]
  | cons b l ih =>
    have h : bitsVal (b :: l) = (2 * 0 + b.toNat) * 2 ^ l.length + bitsVal l := ih (2 * 0 + b.toNat)
    simp only [List.foldl_cons, List.length_cons]
    rw [ih, h, Nat.pow_succ]
    rw [Nat.add_mul, Nat.add_mul]
    have : 2 * a * 2 ^ l.length = a * (2 ^ l.length * 2) := by
      rw [Nat.mul_comm 2 a, Nat.mul_assoc, Nat.mul_comm 2]
    omega

theorem bitsVal_append (a b : List Bool) : bitsVal (a ++ b) = bitsVal a * 2 ^ b.length + bitsVal b := by
  unfold bitsVal
  rw [List.foldl_append, foldl_bits]
  rfl

theorem bitsVal_cons (b : Bool) (l : List Bool) : bitsVal (b :: l) = b.toNat * 2 ^ l.length + bitsVal l := by
  rw [show b :: l = [b] ++ l from rfl, bitsVal_append]
  simp [bitsVal]

theorem bitsVal_lt (l : List Bool) : bitsVal l < 2 ^ l.length := by
  induction l with
  | nil => simp [bitsVal]
  | cons b l ih =>
    rw [bitsVal_cons, List.length_cons, Nat.pow_succ]
    cases b <;> simp <;> omega

theorem bitsVal_natBits (k x : Nat) : bitsVal (natBits k x) = x % 2 ^ k := by
  induction k with
  | zero => simp [natBits, bitsVal, Nat.mod_one]
  | succ k ih =>
    rw [natBits, bitsVal_cons, ih, natBits_length, Nat.mod_pow_succ, Nat.toNat_testBit]
    rw [Nat.mul_comm]; omega

theorem natBits_bitsVal (l : List Bool) : natBits l.length (bitsVal l) = l := by
  induction l with
  | nil => rfl
  | cons b l ih =>
    have hlt := bitsVal_lt l
    rw [List.length_cons, natBits, bitsVal_cons]
    congr 1
    · rw [Nat.mul_comm, Nat.testBit_two_pow_mul_add _ hlt]
      cases b <;> simp
    · rw [← natBits_mod, Nat.mul_comm, Nat.mul_add_mod, Nat.mod_eq_of_lt hlt, ih]

@[simp] theorem toBits_length (bs : Bytes) : (toBits bs).length = 8 * bs.length := by
  induction bs with
  | nil => rfl
  | cons b bs ih => simp [toBits] at *; omega

theorem toBits_cons (b : UInt8) (bs : Bytes) : toBits (b :: bs) = natBits 8 b.toNat ++ toBits bs := by
  simp [toBits]

theorem toBits_append (a b : Bytes) : toBits (a ++ b) = toBits a ++ toBits b := by
  simp [toBits]

/-- A buffer split at byte `i`. -/
theorem toBits_split (bs : Bytes) (i : Nat) (h : i < bs.length) :
    toBits bs = toBits (bs.take i) ++ (natBits 8 (bs[i]).toNat ++ toBits (bs.drop (i + 1))) := by
  rw [← toBits_cons, ← toBits_append]
  congr 1
  rw [← List.drop_eq_getElem_cons h, List.take_append_drop]

theorem toBits_take (bs : Bytes) (i : Nat) : toBits (bs.take i) = (toBits bs).take (8 * i) := by
  by_cases h : i ≤ bs.length
  · have : toBits bs = toBits (bs.take i) ++ toBits (bs.drop i) := by
      rw [← toBits_append, List.take_append_drop]
    rw [this, List.take_append_of_le_length (by simp; omega), List.take_of_length_le (l := toBits (bs.take i)) (by simp; omega)]
  · rw [List.take_of_length_le (by omega), List.take_of_length_le (by simp; omega)]

theorem toBits_drop (bs : Bytes) (i : Nat) : toBits (bs.drop i) = (toBits bs).drop (8 * i) := by
  by_cases h : i ≤ bs.length
  · have : toBits bs = toBits (bs.take i) ++ toBits (bs.drop i) := by
      rw [← toBits_append, List.take_append_drop]
    rw [this, List.drop_append_of_le_length (by simp; omega)]
    rw [List.drop_of_length_le (l := toBits (bs.take i)) (by simp; omega), List.nil_append]
  · rw [List.drop_of_length_le (by omega), List.drop_of_length_le (by simp; omega)]; rfl

namespace BitS

theorem setAt_some {buf : Bytes} {i v : Nat} (h : i < buf.length) :
    setAt buf i v = some (buf.set i (UInt8.ofNat v)) := by simp [setAt, h]

theorem getAt_some {buf : Bytes} {i : Nat} (h : i < buf.length) :
    getAt buf i = some (buf[i]).toNat := by simp [getAt, h]

/-- Bits of a buffer after one byte was replaced. -/
theorem toBits_set (buf : Bytes) (i v : Nat) (h : i < buf.length) :
    toBits (buf.set i (UInt8.ofNat v)) =
      (toBits buf).take (8 * i) ++ (natBits 8 v ++ (toBits buf).drop (8 * i + 8)) := by
  rw [toBits_split (buf.set i (UInt8.ofNat v)) i (by simpa using h)]
  rw [show 8 * i + 8 = 8 * (i + 1) by omega, ← toBits_take, ← toBits_drop]
  rw [List.take_set_of_le (by omega), List.drop_set_of_lt (by omega)]
  congr 2
  rw [List.getElem_set_self]
  have : (UInt8.ofNat v).toNat = v % 2 ^ 8 := by simp
  rw [this, natBits_mod]

/-- What the byte loop of `put` does. -/
theorem putLoop_spec (buf : Bytes) (pos x offset : Nat) (hx : x < 2 ^ 64) (ho : offset ≤ 64)
    (hal : offset > 0 → pos % 8 = 0) (hroom : pos + offset ≤ 8 * buf.length) :
    ∃ buf', putLoop buf pos x offset = some (buf', pos + offset) ∧ buf'.length = buf.length ∧
      (toBits buf').take (pos + offset) = (toBits buf).take pos ++ (natBits 64 x).take offset := by
  induction offset using Nat.strongRecOn generalizing buf pos x with
  | _ offset ih =>
    rw [putLoop]
    split
    · rename_i hpos
      have hal' := hal hpos
      have hi : pos / 8 < buf.length := by omega
      rw [setAt_some hi]
      simp only
      have hp8 : 8 * (pos / 8) = pos := by omega
      have hset := toBits_set buf (pos / 8) (x >>> 56) hi
      rw [hp8] at hset
      have hx' : (x <<< 8) % 2 ^ 64 < 2 ^ 64 := Nat.mod_lt _ (by decide)
      obtain ⟨buf', h1, h2, h3⟩ := ih (offset - 8) (by omega) (buf.set (pos / 8) (UInt8.ofNat (x >>> 56)))
        (pos + min 8 offset) ((x <<< 8) % 2 ^ 64) hx' (by omega) (by omega) (by simp; omega)
      have he : pos + min 8 offset + (offset - 8) = pos + offset := by omega
      rw [he] at h1 h3
      refine ⟨buf', h1, by simpa using h2, ?_⟩
      rw [h3, hset]
      have hl : ((toBits buf).take pos).length = pos := by simp; omega
      rw [List.take_append, hl]
      rw [List.take_take, Nat.min_eq_right (by omega), List.append_assoc]
      congr 1
      rw [show pos + min 8 offset - pos = min 8 offset by omega]
      rw [List.take_append_of_le_length (by simp; omega)]
      have hsplit : natBits 64 x = natBits 8 (x >>> 56) ++ natBits 56 x := natBits_append 8 56 x
      rw [hsplit]
      have h64 : natBits 64 ((x <<< 8) % 2 ^ 64) = natBits 56 x ++ natBits 8 (x <<< 8) := by
        rw [natBits_mod]
        rw [show (64 : Nat) = 56 + 8 from rfl, natBits_append]
        congr 2
        simp
      rw [h64]
      rw [List.take_append_of_le_length (by simp; omega)]
      by_cases h8 : offset ≤ 8
      · rw [show min 8 offset = offset by omega, show offset - 8 = 0 by omega]
        rw [List.take_zero, List.append_nil, List.take_append_of_le_length (by simp; omega)]
      · rw [show min 8 offset = 8 by omega, List.take_append]
        simp; omega
    · rename_i h0
      have h0 : offset = 0 := by omega
      subst h0
      exact ⟨buf, by simp, rfl, by simp⟩

theorem testBit_255 (i : Nat) : Nat.testBit 255 i = decide (i < 8) := by
  have := Nat.testBit_two_pow_sub_one 8 i
  simpa using this

/-- The byte composed by `put` when the cursor is not aligned. -/
theorem natBits_compose (old x lastbit : Nat) (h1 : 0 < lastbit) (h2 : lastbit < 8) :
    natBits 8 ((old &&& (0xFF <<< (8 - lastbit))) ||| ((x >>> (64 - (8 - lastbit))) &&& (0xFF >>> lastbit)))
      = (natBits 8 old).take lastbit ++ natBits (8 - lastbit) (x >>> (64 - (8 - lastbit))) := by
  apply List.ext_getElem
  · simp; omega
  · intro i hi1 hi2
    simp only [natBits_length] at hi1
    rw [natBits_getElem]
    rw [Nat.testBit_or, Nat.testBit_and, Nat.testBit_and, Nat.testBit_shiftLeft, Nat.testBit_shiftRight,
      Nat.testBit_shiftRight, testBit_255, testBit_255]
    by_cases hl : i < lastbit
    · rw [List.getElem_append_left (by simp; omega), List.getElem_take, natBits_getElem]
      have e1 : decide (8 - 1 - i ≥ 8 - lastbit) = true := by simp; omega
      have e2 : decide (8 - 1 - i - (8 - lastbit) < 8) = true := by simp; omega
      have e3 : decide (lastbit + (8 - 1 - i) < 8) = false := by simp; omega
      rw [e1, e2, e3]; simp
    · rw [List.getElem_append_right (by simp; omega), natBits_getElem, Nat.testBit_shiftRight]
      have e1 : decide (8 - 1 - i ≥ 8 - lastbit) = false := by simp; omega
      have e3 : decide (lastbit + (8 - 1 - i) < 8) = true := by simp; omega
      rw [e1, e3]
      simp only [Bool.false_and, Bool.and_false, Bool.false_or, Bool.and_true]
      congr 1
      simp; omega

/-- **Characterisation of `put`**: the bits before the cursor are unchanged, the next `bits` bits are the
low-order bits of the value, the cursor is behind them, the buffer keeps its size. -/
theorem put_spec (s : BitS) (v bits : Nat) (hb : bits ≤ 64) (hroom : s.pos + bits ≤ 8 * s.buf.length) :
    ∃ s', put s v bits = some s' ∧ s'.pos = s.pos + bits ∧ s'.buf.length = s.buf.length ∧
      (toBits s'.buf).take s'.pos = (toBits s.buf).take s.pos ++ natBits bits v := by
  unfold put
  by_cases h0 : bits = 0
  · rw [if_pos h0]; subst h0; exact ⟨s, rfl, by simp, rfl, by simp [natBits]⟩
  rw [if_neg h0, if_neg (by omega)]
  simp only
  -- the left-aligned value
  have hX : (v <<< (64 - bits)) % 2 ^ 64 < 2 ^ 64 := Nat.mod_lt _ (by decide)
  have hXb : natBits 64 ((v <<< (64 - bits)) % 2 ^ 64) = natBits bits v ++ natBits (64 - bits) (v <<< (64 - bits)) := by
    rw [natBits_mod]
    have := natBits_append bits (64 - bits) (v <<< (64 - bits))
    rw [show bits + (64 - bits) = 64 by omega] at this
    rw [this]
    congr 2
    exact Nat.shiftLeft_shiftRight v (64 - bits)
  generalize hXd : (v <<< (64 - bits)) % 2 ^ 64 = X at *
  by_cases hl : s.pos % 8 ≠ 0
  · rw [if_pos hl]
    have hi : s.pos / 8 < s.buf.length := by omega
    rw [getAt_some hi]
    simp only
    rw [setAt_some hi]
    simp only
    have hx' : (X <<< (8 - s.pos % 8)) % 2 ^ 64 < 2 ^ 64 := Nat.mod_lt _ (by decide)
    obtain ⟨buf', g1, g2, g3⟩ := putLoop_spec
      (s.buf.set (s.pos / 8) (UInt8.ofNat ((s.buf[s.pos / 8].toNat &&& 255 <<< (8 - s.pos % 8)) |||
        X >>> (64 - (8 - s.pos % 8)) &&& 255 >>> (s.pos % 8))))
      (s.pos + min bits (8 - s.pos % 8)) ((X <<< (8 - s.pos % 8)) % 2 ^ 64) (bits - (8 - s.pos % 8)) hx' (by omega)
      (by omega) (by simp; omega)
    rw [g1]
    refine ⟨⟨buf', s.pos + min bits (8 - s.pos % 8) + (bits - (8 - s.pos % 8))⟩, rfl, by simp; omega, by simpa using g2, ?_⟩
    simp only
    rw [g3, toBits_set _ _ _ hi, natBits_compose _ _ _ (by omega) (by omega)]
    -- reorganise
    have hspan : (toBits s.buf).take s.pos = (toBits s.buf).take (8 * (s.pos / 8)) ++
        (natBits 8 (s.buf[s.pos / 8].toNat)).take (s.pos % 8) := by
      rw [← toBits_take, toBits_split s.buf _ hi, List.take_append]
      have hle : (toBits (s.buf.take (s.pos / 8))).length = 8 * (s.pos / 8) := by simp; omega
      rw [hle, List.take_of_length_le (by omega), show s.pos - 8 * (s.pos / 8) = s.pos % 8 by omega]
      rw [List.take_append_of_le_length (by simp; omega)]
    have hlen : ((toBits s.buf).take (8 * (s.pos / 8)) ++ (natBits 8 (s.buf[s.pos / 8].toNat)).take (s.pos % 8)).length = s.pos := by
      rw [← hspan]; simp; omega
    rw [hspan]
    simp only [List.append_assoc]
    rw [← List.append_assoc (List.take (8 * (s.pos / 8)) (toBits s.buf))]
    rw [List.take_append, hlen]
    rw [List.take_of_length_le (by omega)]
    rw [show s.pos + min bits (8 - s.pos % 8) - s.pos = min bits (8 - s.pos % 8) by omega]
    rw [List.take_append_of_le_length (by simp; omega)]
    simp only [List.append_assoc]
    congr 2
    -- remaining: the value bits
    have hXs : natBits 64 X = natBits (8 - s.pos % 8) (X >>> (64 - (8 - s.pos % 8))) ++ natBits (64 - (8 - s.pos % 8)) X := by
      have := natBits_append (8 - s.pos % 8) (64 - (8 - s.pos % 8)) X
      rwa [show (8 - s.pos % 8) + (64 - (8 - s.pos % 8)) = 64 by omega] at this
    have hXs2 : natBits 64 ((X <<< (8 - s.pos % 8)) % 2 ^ 64) =
        natBits (64 - (8 - s.pos % 8)) X ++ natBits (8 - s.pos % 8) (X <<< (8 - s.pos % 8)) := by
      rw [natBits_mod]
      have := natBits_append (64 - (8 - s.pos % 8)) (8 - s.pos % 8) (X <<< (8 - s.pos % 8))
      rw [show (64 - (8 - s.pos % 8)) + (8 - s.pos % 8) = 64 by omega] at this
      rw [this]
      congr 2
      exact Nat.shiftLeft_shiftRight X _
    have hv : natBits bits v = (natBits 64 X).take bits := by
      rw [hXb, List.take_append_of_le_length (by simp), List.take_of_length_le (by simp)]
    rw [hv, hXs2, List.take_append_of_le_length (by simp; omega), hXs]
    by_cases hc : bits ≤ 8 - s.pos % 8
    · rw [show min bits (8 - s.pos % 8) = bits by omega, show bits - (8 - s.pos % 8) = 0 by omega]
      rw [List.take_zero, List.append_nil, List.take_append_of_le_length (by simp; omega)]
    · rw [show min bits (8 - s.pos % 8) = 8 - s.pos % 8 by omega, List.take_append]
      simp only [natBits_length]
      rw [List.take_of_length_le (i := bits) (by simp; omega), List.take_of_length_le (by simp)]
  · rw [if_neg hl]
    obtain ⟨buf', g1, g2, g3⟩ := putLoop_spec s.buf s.pos X bits hX hb (by omega) hroom
    rw [g1]
    refine ⟨⟨buf', s.pos + bits⟩, rfl, rfl, g2, ?_⟩
    simp only
    rw [g3, hXb, List.take_append_of_le_length (by simp), List.take_of_length_le (i := bits) (by simp)]

/-- The loop of `get` accumulates the next `incpos` bits. -/
theorem getLoop_spec (buf : Bytes) (cur u incpos : Nat) (n : Nat) (hu : u < 2 ^ n) (hn : n + incpos ≤ 64)
    (hroom : 8 * cur + incpos ≤ 8 * buf.length) :
    getLoop buf cur u incpos =
      some (u * 2 ^ incpos + bitsVal (((toBits buf).drop (8 * cur)).take incpos)) := by
  induction incpos using Nat.strongRecOn generalizing cur u n with
  | _ incpos ih =>
    rw [getLoop]
    split
    · have hi : cur < buf.length := by omega
      have hcell : (toBits buf).drop (8 * cur) = natBits 8 (buf[cur]).toNat ++ (toBits buf).drop (8 * (cur + 1)) := by
        rw [← toBits_drop, ← toBits_drop, ← toBits_cons, ← List.drop_eq_getElem_cons hi]
      have hb := (buf[cur]).toNat_lt
      split
      · rename_i h8
        rw [getAt_some hi]
        simp only
        have hs : (u <<< 8) % 2 ^ 64 = u <<< 8 := by
          apply Nat.mod_eq_of_lt
          rw [Nat.shiftLeft_eq]
          calc u * 2 ^ 8 < 2 ^ n * 2 ^ 8 := Nat.mul_lt_mul_of_pos_right hu (by decide)
            _ = 2 ^ (n + 8) := by rw [Nat.pow_add]
            _ ≤ 2 ^ 64 := Nat.pow_le_pow_right (by decide) (by omega)
        rw [hs, ← Nat.shiftLeft_add_eq_or_of_lt (by omega : (buf[cur]).toNat < 2 ^ 8), Nat.shiftLeft_eq]
        rw [ih (incpos - 8) (by omega) (cur + 1) (u * 2 ^ 8 + (buf[cur]).toNat) (n + 8)
          (by rw [Nat.pow_add]; omega) (by omega) (by omega)]
        congr 1
        rw [hcell, List.take_append]
        rw [List.take_of_length_le (i := incpos) (l := natBits 8 _) (by simp; omega)]
        rw [bitsVal_append, bitsVal_natBits, natBits_length, List.length_take]
        rw [Nat.mod_eq_of_lt (by omega)]
        have hlen : min (incpos - 8) ((toBits buf).drop (8 * (cur + 1))).length = incpos - 8 := by
          simp; omega
        rw [hlen]
        have hp : 2 ^ incpos = 2 ^ 8 * 2 ^ (incpos - 8) := by rw [← Nat.pow_add]; congr 1; omega
        rw [hp, Nat.add_mul, Nat.mul_assoc, Nat.add_assoc]
      · rename_i h8
        rw [getAt_some hi]
        simp only
        have hs : (u <<< incpos) % 2 ^ 64 = u <<< incpos := by
          apply Nat.mod_eq_of_lt
          rw [Nat.shiftLeft_eq]
          calc u * 2 ^ incpos < 2 ^ n * 2 ^ incpos := Nat.mul_lt_mul_of_pos_right hu (Nat.two_pow_pos _)
            _ = 2 ^ (n + incpos) := by rw [Nat.pow_add]
            _ ≤ 2 ^ 64 := Nat.pow_le_pow_right (by decide) (by omega)
        have hlt : (buf[cur]).toNat >>> (8 - incpos) < 2 ^ incpos := by
          rw [Nat.shiftRight_eq_div_pow, Nat.div_lt_iff_lt_mul (Nat.two_pow_pos _), ← Nat.pow_add]
          rw [show incpos + (8 - incpos) = 8 by omega]; omega
        rw [hs, ← Nat.shiftLeft_add_eq_or_of_lt hlt, Nat.shiftLeft_eq]
        congr 2
        rw [hcell, List.take_append_of_le_length (by simp; omega)]
        have : natBits 8 (buf[cur]).toNat = natBits incpos ((buf[cur]).toNat >>> (8 - incpos)) ++ natBits (8 - incpos) (buf[cur]).toNat := by
          have := natBits_append incpos (8 - incpos) (buf[cur]).toNat
          rwa [show incpos + (8 - incpos) = 8 by omega] at this
        rw [this, List.take_append_of_le_length (by simp), List.take_of_length_le (by simp), bitsVal_natBits,
          Nat.mod_eq_of_lt hlt]
    · have h0 : incpos = 0 := by omega
      subst h0
      simp [bitsVal]

/-- **Characterisation of `get`**: the value of the next `bits` bits. -/
theorem get_spec (s : BitS) (bits : Nat) (h1 : 1 ≤ bits) (hb : bits ≤ 64)
    (hroom : s.pos + bits ≤ 8 * s.buf.length) :
    get s bits = some (bitsVal (((toBits s.buf).drop s.pos).take bits), ⟨s.buf, s.pos + bits⟩) := by
  unfold get
  have hi : s.pos / 8 < s.buf.length := by omega
  rw [getAt_some hi]
  simp only
  have hb0 := (s.buf[s.pos / 8]).toNat_lt
  -- the rest of the current byte
  have hcell : (toBits s.buf).drop s.pos = (natBits 8 (s.buf[s.pos / 8]).toNat).drop (s.pos % 8) ++
      (toBits s.buf).drop (8 * (s.pos / 8 + 1)) := by
    have e : (toBits s.buf).drop (8 * (s.pos / 8)) = natBits 8 (s.buf[s.pos / 8]).toNat ++ (toBits s.buf).drop (8 * (s.pos / 8 + 1)) := by
      rw [← toBits_drop, ← toBits_drop, ← toBits_cons, ← List.drop_eq_getElem_cons hi]
    have : s.pos = 8 * (s.pos / 8) + s.pos % 8 := by omega
    conv => lhs; rw [this, ← List.drop_drop, e]
    rw [List.drop_append_of_le_length (by simp; omega)]
  have hdrop : (natBits 8 (s.buf[s.pos / 8]).toNat).drop (s.pos % 8) = natBits (8 - s.pos % 8) (s.buf[s.pos / 8]).toNat := by
    have := natBits_append (s.pos % 8) (8 - s.pos % 8) (s.buf[s.pos / 8]).toNat
    rw [show s.pos % 8 + (8 - s.pos % 8) = 8 by omega] at this
    rw [this, List.drop_append_of_le_length (by simp), List.drop_of_length_le (by simp), List.nil_append]
  have hu : (if 8 - s.pos % 8 ≠ 8 then (s.buf[s.pos / 8]).toNat &&& 0xFF >>> (8 - (8 - s.pos % 8)) else (s.buf[s.pos / 8]).toNat)
      = (s.buf[s.pos / 8]).toNat % 2 ^ (8 - s.pos % 8) := by
    split
    · have : 0xFF >>> (8 - (8 - s.pos % 8)) = 2 ^ (8 - s.pos % 8) - 1 := by
        have hm : s.pos % 8 < 8 := Nat.mod_lt _ (by decide)
        generalize s.pos % 8 = m at *
        have : m = 0 ∨ m = 1 ∨ m = 2 ∨ m = 3 ∨ m = 4 ∨ m = 5 ∨ m = 6 ∨ m = 7 := by omega
        rcases this with rfl | rfl | rfl | rfl | rfl | rfl | rfl | rfl <;> decide
      rw [this, Nat.and_two_pow_sub_one_eq_mod]
    · rename_i h
      rw [show 8 - s.pos % 8 = 8 by omega, Nat.mod_eq_of_lt (by omega)]
  rw [hu]
  have hult : (s.buf[s.pos / 8]).toNat % 2 ^ (8 - s.pos % 8) < 2 ^ (8 - s.pos % 8) := Nat.mod_lt _ (Nat.two_pow_pos _)
  split
  · rename_i hge
    rw [getLoop_spec s.buf (s.pos / 8 + 1) _ _ (8 - s.pos % 8) hult (by omega) (by omega)]
    simp only
    congr 2
    rw [hcell, hdrop, List.take_append]
    rw [List.take_of_length_le (i := bits) (l := natBits _ _) (by simp; omega)]
    rw [bitsVal_append, bitsVal_natBits, natBits_length, List.length_take]
    congr 2
    have : min (bits - (8 - s.pos % 8)) ((toBits s.buf).drop (8 * (s.pos / 8 + 1))).length = bits - (8 - s.pos % 8) := by
      simp; omega
    rw [this]
  · rename_i hlt
    congr 2
    rw [hcell, hdrop, List.take_append_of_le_length (by simp; omega)]
    have := natBits_append bits (8 - s.pos % 8 - bits) (s.buf[s.pos / 8]).toNat
    rw [show bits + (8 - s.pos % 8 - bits) = 8 - s.pos % 8 by omega] at this
    rw [this, List.take_append_of_le_length (by simp), List.take_of_length_le (by simp), bitsVal_natBits]
    rw [Nat.shiftRight_eq_div_pow, Nat.shiftRight_eq_div_pow]
    have hp : 2 ^ (8 - s.pos % 8) = 2 ^ (8 - s.pos % 8 - bits) * 2 ^ bits := by
      rw [← Nat.pow_add]; congr 1; omega
    rw [hp, Nat.mod_mul_right_div_self]

end BitS
end Sis
