import Verif.Net.Ws
import Verif.Bits.CodecRoundtrip
import Verif.Bits.CharLemmas
/-
The framing code computes a parser on bytes.
-/
namespace Sis.Ws
open BitS

/-- Big-endian number. -/
def beVal : Bytes → Nat
  | [] => 0
  | b :: bs => b.toNat * 256 ^ bs.length + beVal bs

theorem bitsVal_toBits (l : Bytes) : bitsVal (toBits l) = beVal l := by
  induction l with
  | nil => rfl
  | cons b l ih =>
    rw [toBits_cons, bitsVal_append, bitsVal_natBits, ih, beVal, Nat.mod_eq_of_lt (by have := b.toNat_lt; omega), toBits_length,
      show (256 : Nat) = 2 ^ 8 from rfl, ← Nat.pow_mul]

theorem toBits_eq (l : Bytes) : toBits l = natBits (8 * l.length) (beVal l) := by
  have := natBits_bitsVal (toBits l)
  rw [bitsVal_toBits, toBits_length] at this
  exact this.symm

theorem beVal_lt (l : Bytes) : beVal l < 2 ^ (8 * l.length) := by
  have := bitsVal_lt (toBits l)
  rwa [bitsVal_toBits, toBits_length] at this

/-- The stream stands at the beginning of `rest`. -/
def At (s : BitS) (rest : Bytes) : Prop := ∃ pre, s.buf = pre ++ rest ∧ s.pos = 8 * pre.length

theorem At.view {s : BitS} {rest : Bytes} (h : At s rest) : s.view = toBits rest := by
  obtain ⟨pre, h1, h2⟩ := h
  unfold BitS.view
  rw [h1, toBits_append, h2, ← toBits_length, List.drop_left]

theorem At.adv {s : BitS} {a rest : Bytes} (h : At s (a ++ rest)) : At (s.adv (8 * a.length)) rest := by
  obtain ⟨pre, h1, h2⟩ := h
  exact ⟨pre ++ a, by simp [BitS.adv, h1], by simp [BitS.adv, h2]; omega⟩

theorem At.move {s : BitS} {rest : Bytes} (h : At s rest) (n : Nat) (hn : n ≤ rest.length) (hs : s.buf.length < 2 ^ 28) :
    moveBytes s n = some (s.adv (8 * n)) ∧ At (s.adv (8 * n)) (rest.drop n) := by
  obtain ⟨pre, h1, h2⟩ := h
  have hl : s.buf.length = pre.length + rest.length := by rw [h1, List.length_append]
  constructor
  · have e1 : int32 n = (n : Int) := by unfold int32; rw [if_pos (by omega)]; omega
    have e2 : int32 (s.buf.length * 8) = ((s.buf.length * 8 : Nat) : Int) := by unfold int32; rw [if_pos (by omega)]; omega
    have e3 : (((s.pos : Int) + (n : Int) * 8) % 2 ^ 32).toNat = s.pos + 8 * n := by omega
    have e4 : int32 (s.pos + 8 * n) = ((s.pos + 8 * n : Nat) : Int) := by unfold int32; rw [if_pos (by omega)]; omega
    unfold moveBytes moveTo
    rw [e1, e2, e3, e4, if_pos (by omega), if_neg (by omega), if_neg (by omega)]
    simp only [BitS.adv, Int.toNat_natCast]
  · refine ⟨pre ++ rest.take n, by simp [BitS.adv, h1], ?_⟩
    simp [BitS.adv, h2, List.length_take, Nat.min_eq_left hn]; omega

theorem get_bytes {s : BitS} {a rest : Bytes} (h : At s (a ++ rest)) (h0 : 1 ≤ a.length) (h8 : a.length ≤ 8) :
    BitS.get s (8 * a.length) = some (beVal a, s.adv (8 * a.length)) ∧ At (s.adv (8 * a.length)) rest := by
  have hv := h.view
  rw [toBits_append, toBits_eq a] at hv
  obtain ⟨g1, _⟩ := get_step (8 * a.length) (beVal a) (by omega) (by omega) hv
  rw [Nat.mod_eq_of_lt (beVal_lt a)] at g1
  exact ⟨g1, h.adv⟩

theorem adv_buf (s : BitS) (n : Nat) : (s.adv n).buf = s.buf := rfl

theorem readStart_spec (count : Nat) (h : Head) {s : BitS} {b0 b1 : UInt8} {r : Bytes} (hs : At s (b0 :: b1 :: r)) :
    readStart count h s = some (⟨b0.toNat / 128, if count = 0 then b0.toNat % 16 else h.op, h.len, b1.toNat / 128, h.key⟩,
      b1.toNat % 128, s.adv 16) ∧ At (s.adv 16) r := by
  have hA : At s ([b0, b1] ++ r) := hs
  refine ⟨?_, hA.adv⟩
  have hv := hs.view
  have e0 : natBits 8 b0.toNat = natBits 1 (b0.toNat >>> 7) ++ (natBits 3 (b0.toNat >>> 4) ++ natBits 4 b0.toNat) := by
    rw [show (8 : Nat) = 1 + 7 from rfl, natBits_append, show (7 : Nat) = 3 + 4 from rfl, natBits_append]
  have e1 : natBits 8 b1.toNat = natBits 1 (b1.toNat >>> 7) ++ natBits 7 b1.toNat := by
    rw [show (8 : Nat) = 1 + 7 from rfl, natBits_append]
  rw [toBits_cons, toBits_cons, e0, e1] at hv
  simp only [List.append_assoc] at hv
  obtain ⟨g1, v1⟩ := get_step 1 _ (by omega) (by omega) hv
  obtain ⟨g2, v2⟩ := get_step 3 _ (by omega) (by omega) v1
  obtain ⟨g3, v3⟩ := get_step 4 _ (by omega) (by omega) v2
  obtain ⟨g4, v4⟩ := get_step 1 _ (by omega) (by omega) v3
  obtain ⟨g5, v5⟩ := get_step 7 _ (by omega) (by omega) v4
  have l0 := b0.toNat_lt
  have l1 := b1.toNat_lt
  have m0 : b0.toNat >>> 7 % 2 ^ 1 = b0.toNat / 128 := by rw [Nat.shiftRight_eq_div_pow]; omega
  have m1 : b1.toNat >>> 7 % 2 ^ 1 = b1.toNat / 128 := by rw [Nat.shiftRight_eq_div_pow]; omega
  simp only [adv_adv] at g1 g2 g3 g4 g5
  simp only [readStart, g1, g2, g3, g4, g5, Option.bind_eq_bind, Option.bind_some, m0, m1]

/-- How many more length bytes there are. -/
def extLen (n : Nat) : Nat := if n = 126 then 2 else if n = 127 then 8 else 0

/-- The length of the payload. -/
def lenOf (n : Nat) (rest : Bytes) : Nat := if extLen n = 0 then n else beVal (rest.take (extLen n))

theorem split_take {rest : Bytes} {n : Nat} : rest.take n ++ rest.drop n = rest := List.take_append_drop n rest

theorem readLen_spec (n : Nat) {s : BitS} {rest : Bytes} (hs : At s rest) :
    ∃ s', readLen n s rest = some (if rest.length < extLen n then none else some (lenOf n rest, s', rest.drop (extLen n))) ∧
      (extLen n ≤ rest.length → At s' (rest.drop (extLen n)) ∧ s'.buf = s.buf) := by
  unfold readLen extLen lenOf extLen
  by_cases h1 : n = 126
  · simp only [h1, if_true]
    by_cases h2 : rest.length < 2
    · simp only [if_pos h2]
      exact ⟨s, trivial, fun h => absurd h (by omega)⟩
    · simp only [if_neg h2]
      have ht : (rest.take 2).length = 2 := by simp; omega
      obtain ⟨g1, g2⟩ := get_bytes (s := s) (a := rest.take 2) (rest := rest.drop 2) (by rw [split_take]; exact hs) (by omega) (by omega)
      rw [ht] at g1 g2
      exact ⟨_, by simp [g1], fun _ => ⟨g2, rfl⟩⟩
  · by_cases h3 : n = 127
    · simp only [h3, if_true, if_neg (show ¬(127 : Nat) = 126 by decide)]
      by_cases h2 : rest.length < 8
      · simp only [if_pos h2]
        exact ⟨s, trivial, fun h => absurd h (by omega)⟩
      · simp only [if_neg h2]
        have ht : (rest.take 8).length = 8 := by simp; omega
        obtain ⟨g1, g2⟩ := get_bytes (s := s) (a := rest.take 8) (rest := rest.drop 8) (by rw [split_take]; exact hs) (by omega) (by omega)
        rw [ht] at g1 g2
        exact ⟨_, by simp [g1], fun _ => ⟨g2, rfl⟩⟩
    · simp only [h1, h3, if_false]
      exact ⟨s, by simp, fun _ => ⟨by simpa using hs, rfl⟩⟩

/-- How many key bytes there are. -/
def keyLen (mask : Nat) : Nat := if mask = 1 then 4 else 0

theorem skipKey_spec (mask : Nat) {s : BitS} {rest : Bytes} (hs : At s rest) :
    ∃ s', skipKey mask s rest = some (if rest.length < keyLen mask then none else some (s', rest.drop (keyLen mask))) ∧
      (keyLen mask ≤ rest.length → At s' (rest.drop (keyLen mask)) ∧ s'.buf = s.buf) := by
  unfold skipKey keyLen
  by_cases h1 : mask = 1
  · simp only [h1, if_true]
    by_cases h2 : rest.length < 4
    · simp only [if_pos h2]
      exact ⟨s, trivial, fun h => absurd h (by omega)⟩
    · simp only [if_neg h2]
      have ht : (rest.take 4).length = 4 := by simp; omega
      obtain ⟨g1, g2⟩ := get_bytes (s := s) (a := rest.take 4) (rest := rest.drop 4) (by rw [split_take]; exact hs) (by omega) (by omega)
      rw [ht] at g1 g2
      exact ⟨_, by simp [g1], fun _ => ⟨g2, rfl⟩⟩
  · simp only [h1, if_false]
    exact ⟨s, by simp, fun _ => ⟨by simpa using hs, rfl⟩⟩

theorem get_byte {s : BitS} {b : UInt8} {rest : Bytes} (h : At s (b :: rest)) :
    BitS.get s 8 = some (b.toNat, s.adv 8) ∧ At (s.adv 8) rest := by
  have := get_bytes (a := [b]) (rest := rest) h (by simp) (by simp)
  simpa [beVal] using this

theorem readKey_spec (h : Head) {s : BitS} {rest : Bytes} (hs : At s rest) :
    ∃ s', readKey h s rest = some (if rest.length < keyLen h.mask then none else
        some (⟨h.fin, h.op, h.len, h.mask, if h.mask = 1 then rest.take 4 else h.key⟩, s', rest.drop (keyLen h.mask))) ∧
      (keyLen h.mask ≤ rest.length → At s' (rest.drop (keyLen h.mask)) ∧ s'.buf = s.buf) := by
  unfold readKey keyLen
  by_cases h1 : h.mask = 1
  · simp only [h1, if_true]
    by_cases h2 : rest.length < 4
    · simp only [if_pos h2]
      exact ⟨s, trivial, fun h => absurd h (by omega)⟩
    · simp only [if_neg h2]
      match rest, hs, h2 with
      | b0 :: b1 :: b2 :: b3 :: r, hs, _ =>
        obtain ⟨g1, a1⟩ := get_byte hs
        obtain ⟨g2, a2⟩ := get_byte a1
        obtain ⟨g3, a3⟩ := get_byte a2
        obtain ⟨g4, a4⟩ := get_byte a3
        refine ⟨(((s.adv 8).adv 8).adv 8).adv 8, ?_, fun _ => ⟨a4, rfl⟩⟩
        simp only [g1, g2, g3, g4, Option.bind_eq_bind, Option.bind_some, UInt8.ofNat_toNat]
        simp
      | [], _, h2 => simp at h2
      | [_], _, h2 => simp at h2
      | [_, _], _, h2 => simp at h2
      | [_, _, _], _, h2 => simp at h2
  · simp only [h1, if_false]
    exact ⟨s, by simp, fun _ => ⟨by simpa using hs, rfl⟩⟩

/-- Undoing a mask. -/
def xorKey (key : Bytes) (i : Nat) : Bytes → Bytes
  | [] => []
  | b :: bs => (b ^^^ key.getD (i % 4) 0) :: xorKey key (i + 1) bs

theorem unmask_eq (key : Bytes) (hk : key.length = 4) (i : Nat) (bs : Bytes) : unmask key i bs = some (xorKey key i bs) := by
  induction bs generalizing i with
  | nil => rfl
  | cons b bs ih =>
    have hi : i % 4 < key.length := by omega
    simp [unmask, xorKey, ih, List.getElem?_eq_getElem hi, List.getD_eq_getElem?_getD]

/-- One frame at the beginning of a byte string: the final mark, the opcode, the payload and the rest; `none`: not all there. -/
def parse1 : Bytes → Option (Nat × Nat × Bytes × Bytes)
  | b0 :: b1 :: r =>
    let n := b1.toNat % 128
    let m := b1.toNat / 128
    if r.length < extLen n then none
    else
      let len := lenOf n r
      let r := r.drop (extLen n)
      if r.length < keyLen m then none
      else
        let key := r.take 4
        let r := r.drop (keyLen m)
        if r.length < len then none
        else some (b0.toNat / 128, b0.toNat % 16, if m = 1 then xorKey key 0 (r.take len) else r.take len, r.drop len)
  | _ => none

/-- A message at the beginning of a byte string: opcode of its first frame, payload, rest. -/
def parseN : Nat → Bytes → Option (Nat × Bytes × Bytes)
  | 0, _ => none
  | n + 1, inp =>
    match parse1 inp with
    | none => none
    | some (fin, op, d, r) =>
      if fin = 1 then some (op, d, r)
      else match parseN n r with
        | none => none
        | some (_, d', r') => some (op, d ++ d', r')

theorem checkLoop_spec (n : Nat) (count : Nat) (h : Head) {s : BitS} {rest : Bytes} (hs : At s rest) (hb : s.buf.length < 2 ^ 28) :
    ∃ h', checkLoop n count h s rest = some (h', (parseN n rest).isSome) := by
  induction n generalizing count h s rest with
  | zero => exact ⟨h, rfl⟩
  | succ n ih =>
    unfold checkLoop parseN
    match rest, hs with
    | [], _ => exact ⟨h, rfl⟩
    | [_], _ => exact ⟨h, rfl⟩
    | b0 :: b1 :: r, hs =>
      rw [if_neg (by simp)]
      obtain ⟨e1, a1⟩ := readStart_spec count h hs
      simp only [e1, Option.bind_eq_bind, Option.bind_some, List.drop_succ_cons, List.drop_zero]
      obtain ⟨s2, e2, a2⟩ := readLen_spec (b1.toNat % 128) a1
      simp only [e2, Option.bind_some, parse1]
      by_cases c1 : r.length < extLen (b1.toNat % 128)
      · simp only [if_pos c1]; exact ⟨_, rfl⟩
      · simp only [if_neg c1]
        obtain ⟨a2, b2⟩ := a2 (by omega)
        obtain ⟨s3, e3, a3⟩ := skipKey_spec (b1.toNat / 128) a2
        simp only [e3, Option.bind_some]
        by_cases c2 : (r.drop (extLen (b1.toNat % 128))).length < keyLen (b1.toNat / 128)
        · simp only [if_pos c2]; exact ⟨_, rfl⟩
        · simp only [if_neg c2]
          obtain ⟨a3, b3⟩ := a3 (by omega)
          by_cases c3 : ((r.drop (extLen (b1.toNat % 128))).drop (keyLen (b1.toNat / 128))).length < lenOf (b1.toNat % 128) r
          · simp only [if_pos c3]; exact ⟨_, rfl⟩
          · simp only [if_neg c3]
            have hb3 : s3.buf.length < 2 ^ 28 := by rw [b3, b2, adv_buf]; exact hb
            obtain ⟨e4, a4⟩ := a3.move (lenOf (b1.toNat % 128) r) (by omega) hb3
            simp only [e4, Option.bind_some]
            by_cases c4 : b0.toNat / 128 = 1
            · simp only [if_pos c4]; exact ⟨_, rfl⟩
            · simp only [if_neg c4]
              obtain ⟨h', e5⟩ := ih (count + 1) _ a4 hb3
              refine ⟨h', e5.trans ?_⟩
              cases parseN n (((r.drop (extLen (b1.toNat % 128))).drop (keyLen (b1.toNat / 128))).drop (lenOf (b1.toNat % 128) r)) with
              | none => rfl
              | some p => rfl

theorem messageLoop_spec (n : Nat) (count : Nat) (h : Head) {s : BitS} {rest : Bytes} (out : Bytes) (hs : At s rest)
    (hb : s.buf.length < 2 ^ 28) :
    ∃ h', messageLoop n count h s rest out = some (h', (parseN n rest).map fun p => (out ++ p.2.1, p.2.2)) ∧
      ∀ p, parseN n rest = some p → h'.op = if count = 0 then p.1 else h.op := by
  induction n generalizing count h s rest out with
  | zero => exact ⟨h, rfl, fun p hp => by cases hp⟩
  | succ n ih =>
    unfold messageLoop parseN
    match rest, hs with
    | [], _ => exact ⟨h, rfl, fun p hp => by simp [parse1] at hp⟩
    | [_], _ => exact ⟨h, rfl, fun p hp => by simp [parse1] at hp⟩
    | b0 :: b1 :: r, hs =>
      rw [if_neg (by simp)]
      obtain ⟨e1, a1⟩ := readStart_spec count h hs
      simp only [e1, Option.bind_eq_bind, Option.bind_some, List.drop_succ_cons, List.drop_zero]
      obtain ⟨s2, e2, a2⟩ := readLen_spec (b1.toNat % 128) a1
      simp only [e2, Option.bind_some, parse1]
      by_cases c1 : r.length < extLen (b1.toNat % 128)
      · simp only [if_pos c1]; exact ⟨_, rfl, fun p hp => by cases hp⟩
      · simp only [if_neg c1]
        obtain ⟨a2, b2⟩ := a2 (by omega)
        obtain ⟨s3, e3, a3⟩ := readKey_spec ⟨b0.toNat / 128, if count = 0 then b0.toNat % 16 else h.op, lenOf (b1.toNat % 128) r,
          b1.toNat / 128, h.key⟩ a2
        simp only at a3
        simp only [e3, Option.bind_some]
        by_cases c2 : (r.drop (extLen (b1.toNat % 128))).length < keyLen (b1.toNat / 128)
        · simp only [if_pos c2]; exact ⟨_, rfl, fun p hp => by cases hp⟩
        · simp only [if_neg c2]
          obtain ⟨a3, b3⟩ := a3 (Nat.le_of_not_lt c2)
          by_cases c3 : ((r.drop (extLen (b1.toNat % 128))).drop (keyLen (b1.toNat / 128))).length < lenOf (b1.toNat % 128) r
          · simp only [if_pos c3]; exact ⟨_, rfl, fun p hp => by cases hp⟩
          · simp only [if_neg c3]
            have hb3 : s3.buf.length < 2 ^ 28 := by rw [b3, b2, adv_buf]; exact hb
            obtain ⟨e4, a4⟩ := a3.move (lenOf (b1.toNat % 128) r) (by omega) hb3
            have hd : ∀ bs, frameData ⟨b0.toNat / 128, if count = 0 then b0.toNat % 16 else h.op, lenOf (b1.toNat % 128) r,
                b1.toNat / 128, if b1.toNat / 128 = 1 then (r.drop (extLen (b1.toNat % 128))).take 4 else h.key⟩ bs =
                some (if b1.toNat / 128 = 1 then xorKey ((r.drop (extLen (b1.toNat % 128))).take 4) 0 bs else bs) := by
              intro bs
              unfold frameData
              by_cases hm1 : b1.toNat / 128 = 1
              · simp only [hm1, if_true]
                unfold keyLen at c2
                rw [if_pos hm1] at c2
                exact unmask_eq _ (by rw [List.length_take]; omega) 0 bs
              · simp [hm1]
            simp only [e4, Option.bind_some, hd]
            by_cases c4 : b0.toNat / 128 = 1
            · simp only [if_pos c4]
              refine ⟨_, rfl, fun p hp => ?_⟩
              cases hp; rfl
            · simp only [if_neg c4]
              obtain ⟨h', e5, e6⟩ := ih (count + 1) ⟨b0.toNat / 128, if count = 0 then b0.toNat % 16 else h.op,
                lenOf (b1.toNat % 128) r, b1.toNat / 128,
                if b1.toNat / 128 = 1 then (r.drop (extLen (b1.toNat % 128))).take 4 else h.key⟩
                (out ++ (if b1.toNat / 128 = 1 then xorKey ((r.drop (extLen (b1.toNat % 128))).take 4) 0
                  (((r.drop (extLen (b1.toNat % 128))).drop (keyLen (b1.toNat / 128))).take (lenOf (b1.toNat % 128) r))
                else ((r.drop (extLen (b1.toNat % 128))).drop (keyLen (b1.toNat / 128))).take (lenOf (b1.toNat % 128) r))) a4 hb3
              refine ⟨h', e5.trans ?_, ?_⟩
              · cases parseN n (((r.drop (extLen (b1.toNat % 128))).drop (keyLen (b1.toNat / 128))).drop (lenOf (b1.toNat % 128) r)) with
                | none => rfl
                | some p => simp
              · intro p hp
                cases hq : parseN n (((r.drop (extLen (b1.toNat % 128))).drop (keyLen (b1.toNat / 128))).drop (lenOf (b1.toNat % 128) r)) with
                | none => rw [hq] at hp; cases hp
                | some q =>
                  rw [hq] at hp
                  cases hp
                  have := e6 q hq
                  simpa using this

/-- What `unpack` says about a parsed message. -/
def answer : Option (Nat × Bytes × Bytes) → Option Res
  | none => some .wait
  | some (op, d, r) =>
    if op = 1 then some (.msg 0 d r)
    else if op = 2 then d.getLast?.map fun t => .msg t d.dropLast r
    else some (.bad r)

/-- A message at the beginning of a byte string. -/
def parse (inp : Bytes) : Option (Nat × Bytes × Bytes) := parseN (inp.length + 1) inp

theorem unpack_spec (inp : Bytes) (hb : inp.length < 2 ^ 28) : unpack inp = answer (parse inp) := by
  have ha : At ⟨inp, 0⟩ inp := ⟨[], rfl, rfl⟩
  obtain ⟨h1, e1⟩ := checkLoop_spec (inp.length + 1) 0 ⟨0, 0, 0, 0, []⟩ ha hb
  obtain ⟨h2, e2, e3⟩ := messageLoop_spec (inp.length + 1) 0 h1 [] ha hb
  unfold unpack check message parse
  simp only [e1, e2, Option.bind_eq_bind, Option.bind_some]
  cases hp : parseN (inp.length + 1) inp with
  | none => rfl
  | some p =>
    have := e3 p hp
    simp only [if_true] at this
    obtain ⟨op, d, r⟩ := p
    simp only [Option.isSome_some, Option.map_some, List.nil_append, this, answer]
    simp only [Bool.not_true, Bool.false_eq_true, if_false]
    by_cases h1 : op = 1
    · simp [h1]
    · by_cases h2 : op = 2
      · simp only [h2]
        cases d.getLast? <;> simp
      · simp [h1, h2]

end Sis.Ws
