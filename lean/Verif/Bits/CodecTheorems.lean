import Verif.Bits.CharLemmas
/-
Property theorems C04-C07: the bit stream and its integer and character codecs.
-/
namespace Sis
namespace BitS

/-! ### A successful write stayed inside the buffer -/

theorem setAt_ok {b b' : Bytes} {i v : Nat} (h : setAt b i v = some b') : i < b.length ∧ b'.length = b.length := by
  unfold setAt at h
  split at h
  · cases h; simpa
  · cases h

theorem putLoop_room {buf buf' : Bytes} {pos x off p' : Nat} (hal : pos % 8 = 0) (hpos : pos ≤ 8 * buf.length)
    (h : putLoop buf pos x off = some (buf', p')) : pos + off ≤ 8 * buf.length := by
  induction off using Nat.strongRecOn generalizing buf pos x with
  | _ off ih =>
    rw [putLoop] at h
    split at h
    · split at h
      · cases h
      · rename_i hb
        obtain ⟨h1, h2⟩ := setAt_ok hb
        by_cases h8 : off ≤ 8
        · omega
        · have := ih (off - 8) (by omega) (pos := pos + min 8 off) (by omega) (by omega) h
          omega
    · omega

theorem put_room {s s' : BitS} {v k : Nat} (hpos : s.pos ≤ 8 * s.buf.length) (h : put s v k = some s') :
    s.pos + k ≤ 8 * s.buf.length ∧ k ≤ 64 := by
  unfold put at h
  split at h
  · omega
  split at h
  · cases h
  refine ⟨?_, by omega⟩
  simp only at h
  split at h
  · split at h
    · cases h
    · split at h
      · cases h
      · rename_i hb
        obtain ⟨h1, h2⟩ := setAt_ok hb
        simp only [Option.map_eq_some_iff] at h
        obtain ⟨⟨b, p⟩, hl, _⟩ := h
        by_cases hk : k ≤ 8 - s.pos % 8
        · omega
        · have := putLoop_room (by omega) (by omega) hl
          omega
  · simp only [Option.map_eq_some_iff] at h
    obtain ⟨⟨b, p⟩, hl, _⟩ := h
    have := putLoop_room (by omega) hpos hl
    omega

theorem putAll_room {cs : List (Nat × Nat)} {s s' : BitS} (hpos : s.pos ≤ 8 * s.buf.length)
    (h : putAll s cs = some s') : s.pos + (callBits cs).length ≤ 8 * s.buf.length ∧ Widths cs := by
  induction cs generalizing s with
  | nil => simp [callBits, Widths]; exact hpos
  | cons c cs ih =>
    obtain ⟨v, k⟩ := c
    simp only [putAll] at h
    split at h
    · cases h
    · rename_i s1 h1
      obtain ⟨r1, r2⟩ := put_room hpos h1
      obtain ⟨t, a1, a2, a3, a4⟩ := put_spec s v k r2 r1
      rw [h1] at a1
      cases a1
      obtain ⟨b1, b2⟩ := ih (by omega) h
      rw [callBits_cons, List.length_append, natBits_length]
      refine ⟨by simp only; omega, ?_⟩
      intro c hc
      simp only [List.mem_cons] at hc
      rcases hc with rfl | hc
      · exact r2
      · exact b2 c hc

/-- After a successful sequence of puts: the cursor, the untouched earlier bits and the view from the old cursor. -/
theorem putAll_effect {cs : List (Nat × Nat)} {s s' : BitS} (hpos : s.pos ≤ 8 * s.buf.length)
    (h : putAll s cs = some s') :
    s'.pos = s.pos + (callBits cs).length ∧ s'.buf.length = s.buf.length ∧
      (toBits s'.buf).take s.pos = (toBits s.buf).take s.pos ∧
      ∃ rest, (⟨s'.buf, s.pos⟩ : BitS).view = callBits cs ++ rest := by
  obtain ⟨r, w⟩ := putAll_room hpos h
  obtain ⟨t, a1, a2, a3, a4⟩ := putAll_spec cs s w r
  rw [h] at a1
  cases a1
  refine ⟨a2, a3, ?_, _, view_after a2 a3 hpos a4⟩
  have := congrArg (List.take s.pos) a4
  rw [List.take_take, List.take_append_of_le_length (by simp; omega)] at this
  rw [Nat.min_eq_left (by omega)] at this
  rw [this, List.take_take]
  simp

theorem rd_after {α : Type} {f : BitS → Option (α × BitS)} {v : α} {cs : List (Nat × Nat)} {s s' : BitS}
    (hf : Rd f (callBits cs) v) (hpos : s.pos ≤ 8 * s.buf.length) (h : putAll s cs = some s') :
    f ⟨s'.buf, s.pos⟩ = some (v, s') := by
  obtain ⟨a1, _, _, rest, a4⟩ := putAll_effect hpos h
  rw [hf _ rest a4]
  simp only [adv, ← a1]

/-! ### C04 -/

/-- The bit number `i` of a buffer, counted from the most significant bit of the first byte. -/
def bitAt (buf : Bytes) (i : Nat) : Option Bool := (buf[i / 8]?).map fun b => b.toNat.testBit (7 - i % 8)

theorem toBits_getElem? (buf : Bytes) (i : Nat) : (toBits buf)[i]? = bitAt buf i := by
  induction buf generalizing i with
  | nil => simp [toBits, bitAt]
  | cons b buf ih =>
    have hc : toBits (b :: buf) = natBits 8 b.toNat ++ toBits buf := by simp [toBits]
    rw [hc]
    by_cases h : i < 8
    · rw [List.getElem?_append_left (by simpa using h), List.getElem?_eq_getElem (by simpa using h), natBits_getElem]
      have h0 : i / 8 = 0 := by omega
      have h1 : i % 8 = i := by omega
      simp [bitAt, h0, h1]
    · rw [List.getElem?_append_right (by simp; omega)]
      simp only [natBits_length]
      rw [ih]
      unfold bitAt
      have h0 : i / 8 = (i - 8) / 8 + 1 := by omega
      have h1 : i % 8 = (i - 8) % 8 := by omega
      rw [h0, h1]
      simp

/-- C04: after any sequence of puts that stays inside the buffer, reading the same widths from the old cursor returns
the low bits of the values and ends at the new cursor; every bit before the old cursor is unchanged. -/
theorem C04_put_get (s s' : BitS) (cs : List (Nat × Nat)) (hpos : s.pos ≤ 8 * s.buf.length)
    (hw : ∀ c ∈ cs, 1 ≤ c.2) (h : putAll s cs = some s') :
    getAll ⟨s'.buf, s.pos⟩ (cs.map Prod.snd) = some (cs.map fun c => c.1 % 2 ^ c.2, s') ∧
      ∀ i < s.pos, bitAt s'.buf i = bitAt s.buf i := by
  have hwid := (putAll_room hpos h).2
  constructor
  · have key : Rd (fun t => getAll t (cs.map Prod.snd)) (callBits cs) (cs.map fun c => c.1 % 2 ^ c.2) := by
      clear h hpos
      induction cs with
      | nil => intro t rest _; simp [getAll, callBits, adv]
      | cons c cs ih =>
        intro t rest hv
        rw [callBits_cons] at hv ⊢
        rw [List.append_assoc] at hv
        obtain ⟨g1, g2⟩ := get_step c.2 c.1 (hw c (by simp)) (hwid c (by simp)) hv
        have g3 := ih (fun c hc => hw c (by simp [hc])) (fun c hc => hwid c (by simp [hc])) _ rest g2
        simp only at g3
        simp only [List.map_cons, getAll, g1, g3, adv_adv]
        simp
    exact rd_after key hpos h
  · intro i hi
    obtain ⟨_, _, h3, _⟩ := putAll_effect hpos h
    have := congrArg (fun l => l[i]?) h3
    simp only [List.getElem?_take, hi, if_true, toBits_getElem?] at this
    exact this

/-- C04, progress: a sequence of puts of widths up to 64 that fits the buffer does not leave it. -/
theorem C04_fits (s : BitS) (cs : List (Nat × Nat)) (hw : ∀ c ∈ cs, c.2 ≤ 64)
    (hroom : s.pos + (cs.map Prod.snd).sum ≤ 8 * s.buf.length) :
    ∃ s', putAll s cs = some s' ∧ s'.pos = s.pos + (cs.map Prod.snd).sum ∧ s'.buf.length = s.buf.length := by
  have hl : (callBits cs).length = (cs.map Prod.snd).sum := by
    simp [callBits, List.length_flatMap]
  obtain ⟨s', a1, a2, a3, _⟩ := putAll_spec cs s hw (by omega)
  exact ⟨s', a1, by omega, a3⟩

example : putAll ⟨[0xAB, 0xCD, 0xEF, 0x11], 5⟩ [(5, 3), (0x1FF, 9), (1, 2)] = some ⟨[0xAD, 0xFF, 0xA0, 0x11], 19⟩ ∧
    getAll ⟨[0xAD, 0xFF, 0xA0, 0x11], 5⟩ [3, 9, 2] = some ([5, 0x1FF, 1], ⟨[0xAD, 0xFF, 0xA0, 0x11], 19⟩) := by
  decide +kernel

/-! ### C05 -/

/-- One value written with one of the codecs. -/
inductive Item
  | sint (n : Nat)
  | short (n : Nat)
  | uint (n : Nat)
  | int (z : Int)

/-- The values each codec is specified for. -/
def Item.InRange : Item → Prop
  | .sint n => n ≤ 305
  | .short n => n ≤ 69889
  | .uint n => n < 2 ^ 32
  | .int z => -(2 ^ 63) < z ∧ z < 2 ^ 63

/-- Write one value; a return code other than 0 counts as failure. -/
def Item.put (s : BitS) : Item → Option BitS
  | .sint n => (putSint s n).bind fun p => if p.1 = 0 then some p.2 else none
  | .short n => (putShort s n).bind fun p => if p.1 = 0 then some p.2 else none
  | .uint n => putUint s n
  | .int z => putInt s z

/-- Read a value of the same kind. -/
def Item.getLike (s : BitS) : Item → Option (Item × BitS)
  | .sint _ => (getSint s).map fun p => (.sint p.1, p.2)
  | .short _ => (getShort s).map fun p => (.short p.1, p.2)
  | .uint _ => (getUint s).map fun p => (.uint p.1, p.2)
  | .int _ => (getInt s).map fun p => (.int p.1, p.2)

def putItems (s : BitS) : List Item → Option BitS
  | [] => some s
  | i :: is => (i.put s).bind fun s => putItems s is

def getLikes (s : BitS) : List Item → Option (List Item × BitS)
  | [] => some ([], s)
  | i :: is => (i.getLike s).bind fun p => (getLikes p.2 is).map fun q => (p.1 :: q.1, q.2)

theorem sintCalls_isSome (n : Nat) : (∃ cs, sintCalls n = some cs) ↔ n ≤ 305 := by
  unfold sintCalls
  constructor
  · intro ⟨cs, h⟩
    repeat' split at h
    all_goals first | omega | cases h
  · intro h
    repeat' split
    all_goals first | exact ⟨_, rfl⟩ | omega

theorem shortCalls_isSome (n : Nat) : (∃ cs, shortCalls n = some cs) ↔ n ≤ 69889 := by
  unfold shortCalls
  constructor
  · intro ⟨cs, h⟩
    repeat' split at h
    all_goals first | omega | cases h
  · intro h
    repeat' split
    all_goals first | exact ⟨_, rfl⟩ | omega

/-- The calls made for one value. -/
def Item.calls : Item → Option (List (Nat × Nat))
  | .sint n => sintCalls n
  | .short n => shortCalls n
  | .uint n => some (uintCalls n)
  | .int z => some (intCalls z)

theorem Item.put_eq (s : BitS) (i : Item) : i.put s = i.calls.bind fun cs => putAll s cs := by
  cases i with
  | sint n =>
    simp only [Item.put, putSint, Item.calls]
    cases sintCalls n with
    | none => simp
    | some cs => simp; cases putAll s cs <;> simp
  | short n =>
    simp only [Item.put, putShort, Item.calls]
    cases shortCalls n with
    | none => simp
    | some cs => simp; cases putAll s cs <;> simp
  | uint n => simp [Item.put, putUint, Item.calls]
  | int z => simp [Item.put, putInt, Item.calls]

theorem Item.rd {i : Item} (hr : i.InRange) {cs} (h : i.calls = some cs) :
    Rd (fun s => i.getLike s) (callBits cs) i := by
  intro s rest hv
  cases i with
  | sint n => simp only [Item.getLike, Rd_getSint h s rest hv, Option.map_some]
  | short n => simp only [Item.getLike, Rd_getShort h s rest hv, Option.map_some]
  | uint n => cases h; simp only [Item.getLike, Rd_getUint n hr s rest hv, Option.map_some]
  | int z => cases h; simp only [Item.getLike, Rd_getInt z hr.1 hr.2 s rest hv, Option.map_some]

theorem putItems_eq (is : List Item) (s s' : BitS) (h : putItems s is = some s') (hr : ∀ i ∈ is, i.InRange) :
    ∃ cs, putAll s cs = some s' ∧ Rd (fun s => getLikes s is) (callBits cs) is := by
  induction is generalizing s with
  | nil => exact ⟨[], by simpa [putItems, putAll] using h, by intro t rest _; simp [getLikes, callBits, adv]⟩
  | cons i is ih =>
    simp only [putItems, Option.bind_eq_some_iff] at h
    obtain ⟨s1, h1, h2⟩ := h
    rw [Item.put_eq, Option.bind_eq_some_iff] at h1
    obtain ⟨c1, hc1, hp1⟩ := h1
    obtain ⟨c2, hp2, hrd⟩ := ih s1 h2 (fun i hi => hr i (by simp [hi]))
    refine ⟨c1 ++ c2, by rw [putAll_append, hp1]; exact hp2, ?_⟩
    rw [callBits_append]
    intro t rest hv
    rw [List.append_assoc] at hv
    obtain ⟨g1, g2⟩ := (Item.rd (hr i (by simp)) hc1).view_eq hv
    have g3 := hrd _ rest g2
    simp only at g1 g3
    simp only [getLikes, g1, Option.bind_some, g3, Option.map_some, adv_adv]
    simp

/-- C05 (and C06 for mixed streams): any sequence of in-range values, written at any bit position with any mix of the
codecs, is read back unchanged, and the reader ends exactly where the writer ended. -/
theorem C05_mixed_roundtrip (s s' : BitS) (is : List Item) (hpos : s.pos ≤ 8 * s.buf.length)
    (hr : ∀ i ∈ is, i.InRange) (h : putItems s is = some s') :
    getLikes ⟨s'.buf, s.pos⟩ is = some (is, s') := by
  obtain ⟨cs, h1, h2⟩ := putItems_eq is s s' h hr
  exact rd_after h2 hpos h1

/-- C05: `put_sint` returns 0 exactly for 0..305 (inside the buffer); otherwise it returns -1 and leaves the stream
untouched; a written value is read back. -/
theorem C05_sint (s : BitS) (n : Nat) (hpos : s.pos ≤ 8 * s.buf.length) :
    (n > 305 → putSint s n = some (-1, s)) ∧
    (n ≤ 305 → s.pos + 11 ≤ 8 * s.buf.length →
      ∃ s', putSint s n = some (0, s') ∧ getSint ⟨s'.buf, s.pos⟩ = some (n, s')) := by
  constructor
  · intro h
    unfold putSint
    cases hc : sintCalls n with
    | none => rfl
    | some cs => exact absurd ((sintCalls_isSome n).mp ⟨cs, hc⟩) (by omega)
  · intro h hroom
    obtain ⟨cs, hc⟩ := (sintCalls_isSome n).mpr h
    have hlen : (callBits cs).length ≤ 11 := by
      unfold sintCalls at hc
      repeat' split at hc
      all_goals cases hc
      all_goals simp [callBits]
    obtain ⟨s', a1, _⟩ := putAll_spec cs s (sint_widths hc) (by omega)
    refine ⟨s', by simp [putSint, hc, a1], rd_after (Rd_getSint hc) hpos a1⟩

/-- C05 for `put_short`. -/
theorem C05_short (s : BitS) (n : Nat) (hpos : s.pos ≤ 8 * s.buf.length) :
    (n > 69889 → putShort s n = some (-1, s)) ∧
    (n ≤ 69889 → s.pos + 19 ≤ 8 * s.buf.length →
      ∃ s', putShort s n = some (0, s') ∧ getShort ⟨s'.buf, s.pos⟩ = some (n, s')) := by
  constructor
  · intro h
    unfold putShort
    cases hc : shortCalls n with
    | none => rfl
    | some cs => exact absurd ((shortCalls_isSome n).mp ⟨cs, hc⟩) (by omega)
  · intro h hroom
    obtain ⟨cs, hc⟩ := (shortCalls_isSome n).mpr h
    have hlen : (callBits cs).length ≤ 19 := by
      unfold shortCalls at hc
      repeat' split at hc
      all_goals cases hc
      all_goals simp [callBits]
    obtain ⟨s', a1, _⟩ := putAll_spec cs s (short_widths hc) (by omega)
    refine ⟨s', by simp [putShort, hc, a1], rd_after (Rd_getShort hc) hpos a1⟩

theorem uintCalls_length (n : Nat) : (callBits (uintCalls n)).length ≤ 35 := by
  unfold uintCalls
  repeat' split
  all_goals simp [callBits]

/-- C05 for `put_uint`: every 32-bit value. -/
theorem C05_uint (s : BitS) (n : Nat) (hn : n < 2 ^ 32) (hroom : s.pos + 35 ≤ 8 * s.buf.length) :
    ∃ s', putUint s n = some s' ∧ getUint ⟨s'.buf, s.pos⟩ = some (n, s') := by
  have hlen := uintCalls_length n
  obtain ⟨s', a1, _⟩ := putAll_spec (uintCalls n) s (uint_widths n) (by omega)
  exact ⟨s', a1, rd_after (Rd_getUint n hn) (by omega) a1⟩

example : (putItems ⟨List.replicate 40 0xFF, 3⟩ [.sint 17, .sint 305, .short 69889, .uint 4294967295, .int (-5), .int 1048576]).isSome ∧
    (∀ i ∈ [Item.sint 17, .sint 305, .short 69889, .uint 4294967295, .int (-5), .int 1048576], i.InRange) := by
  refine ⟨by decide +kernel, ?_⟩
  intro i hi
  simp only [List.mem_cons, List.not_mem_nil, or_false] at hi
  rcases hi with rfl | rfl | rfl | rfl | rfl | rfl <;> simp [Item.InRange]

/-! ### C06 -/

theorem intCalls_length (z : Int) : (callBits (intCalls z)).length ≤ 70 := by
  unfold intCalls
  rw [callBits_cons, List.length_append, natBits_length]
  repeat' split
  all_goals simp [callBits]

/-- C06, all values but one: every int64 other than INT64_MIN is read back unchanged from any bit position. -/
theorem C06_int_partial (s : BitS) (z : Int) (h1 : -(2 ^ 63) < z) (h2 : z < 2 ^ 63)
    (hroom : s.pos + 70 ≤ 8 * s.buf.length) :
    ∃ s', putInt s z = some s' ∧ getInt ⟨s'.buf, s.pos⟩ = some (z, s') := by
  have hlen := intCalls_length z
  obtain ⟨s', a1, _⟩ := putAll_spec (intCalls z) s (int_widths z) (by omega)
  exact ⟨s', a1, rd_after (Rd_getInt z h1 h2) (by omega) a1⟩

/-- C06 fails for INT64_MIN, at every position of every buffer: it is read back as 0 (the magnitude 2^63 misses every
mask of `put_int`). -/
theorem C06_int_min_violated (s : BitS) (hroom : s.pos + 2 ≤ 8 * s.buf.length) :
    ∃ s', putInt s (-(2 ^ 63)) = some s' ∧ getInt ⟨s'.buf, s.pos⟩ = some (0, s') := by
  have hc : intCalls (-(2 ^ 63)) = [(1, 1), (0, 1)] := by decide
  obtain ⟨s', a1, _⟩ := putAll_spec (intCalls (-(2 ^ 63))) s (int_widths _) (by rw [hc]; simpa [callBits] using hroom)
  refine ⟨s', a1, rd_after ?_ (by omega) a1⟩
  rw [hc]
  exact getInt_zero 1

theorem ofPat64_pat64 (z : Int) (h1 : -(2 ^ 63) ≤ z) (h2 : z < 2 ^ 63) : ofPat64 (pat64 z) = z := by
  unfold ofPat64 pat64
  split <;> omega

theorem ofPat64_bounds (n : Nat) : -(2 ^ 63) ≤ ofPat64 n ∧ ofPat64 n < 2 ^ 63 := by
  unfold ofPat64
  split <;> omega

theorem wrap_add (d ago z : Int) (hz1 : -(2 ^ 63) ≤ z) (hz2 : z < 2 ^ 63) (hd : ofPat64 (pat64 (z - ago)) = d) :
    ofPat64 (pat64 (d + ago)) = z := by
  subst hd
  unfold ofPat64 pat64
  split <;> split <;> omega

theorem Rd_getIncrInt (z ago : Int) (hz1 : -(2 ^ 63) ≤ z) (hz2 : z < 2 ^ 63)
    (hne : ofPat64 (pat64 (z - ago)) ≠ -(2 ^ 63)) :
    Rd (fun s => getIncrInt s ago) (callBits (incrIntCalls z ago)) z := by
  intro s rest hv
  have hb := ofPat64_bounds (pat64 (z - ago))
  have := Rd_getInt (ofPat64 (pat64 (z - ago))) (by omega) hb.2 s rest hv
  simp only [getIncrInt, this, Option.bind_eq_bind, Option.bind_some]
  rw [wrap_add _ ago z hz1 hz2 rfl]
  rfl

/-- C06, incremental form: a value is restored from the same predecessor, for all pairs whose 64-bit difference is not
INT64_MIN (differences that overflow wrap around and still come back). -/
theorem C06_incr_partial (s : BitS) (z ago : Int) (hz1 : -(2 ^ 63) ≤ z) (hz2 : z < 2 ^ 63)
    (hne : ofPat64 (pat64 (z - ago)) ≠ -(2 ^ 63)) (hroom : s.pos + 70 ≤ 8 * s.buf.length) :
    ∃ s', putIncrInt s z ago = some s' ∧ getIncrInt ⟨s'.buf, s.pos⟩ ago = some (z, s') := by
  have hlen : (callBits (incrIntCalls z ago)).length ≤ 70 := intCalls_length _
  obtain ⟨s', a1, _⟩ := putAll_spec (incrIntCalls z ago) s (int_widths _) (by omega)
  exact ⟨s', a1, rd_after (Rd_getIncrInt z ago hz1 hz2 hne) (by omega) a1⟩

/-- A pair whose difference overflows `int64` still satisfies the hypothesis of `C06_incr_partial`. -/
example : ofPat64 (pat64 ((2 ^ 63 - 1) - (-5) : Int)) ≠ -(2 ^ 63) := by decide

/-- C06, incremental form, fails when the difference is INT64_MIN. -/
theorem C06_incr_violated :
    ∃ s s' : BitS, ∃ z ago : Int, putIncrInt s z ago = some s' ∧ getIncrInt ⟨s'.buf, s.pos⟩ ago = some (ago, s') ∧
      z ≠ ago ∧ -(2 ^ 63) ≤ z ∧ z < 2 ^ 63 :=
  ⟨⟨List.replicate 16 0, 0⟩, ⟨[128, 0, 0, 0, 0, 0, 0, 0, 0, 0, 0, 0, 0, 0, 0, 0], 2⟩, -(2 ^ 63) + 7, 7,
    by decide +kernel, by decide +kernel, by decide, by decide, by decide⟩

/-! ### C07 -/

theorem Rd_getIncrChars (inp ago cur : Bytes) (hlen : inp.length = ago.length) (hcur : cur.length = inp.length)
    (hsz : inp.length < 2 ^ 32) (hne : cstr inp ≠ [] ∨ cstr ago = []) {cs} (h : incrCharsCalls inp (some ago) = some cs) :
    ∃ n out, Rd (fun s => getIncrChars s cur ago) (callBits cs) (n, out) ∧ out.length = inp.length ∧ cstr out = cstr inp := by
  unfold incrCharsCalls at h
  rw [charcmp_spec inp ago hlen] at h
  by_cases he : cstr inp = cstr ago
  · rw [if_pos he] at h
    simp only [charsCalls] at h
    cases h
    refine ⟨ago.length, ago, ?_, hlen.symm, he.symm⟩
    intro s rest hv
    have := getChars_same cur s rest hv
    simp only at this
    simp [getIncrChars, this, hcur, hlen]
  · rw [if_neg he] at h
    have hi : 0 < isize inp := by
      rw [← cstr_ne_nil_iff]
      rcases hne with h | h
      · exact h
      · intro h'; exact he (by rw [h', h])
    obtain ⟨k, hk⟩ : ∃ k, isize inp = k + 1 := ⟨isize inp - 1, by omega⟩
    have hle := isize_le inp
    rw [hk] at h
    simp only [charsCalls, Nat.zero_lt_succ, gt_iff_lt, if_true] at h
    rw [takeBytes_of_le _ _ (by omega)] at h
    simp only [Option.map_some, Option.some.injEq] at h
    rw [← hk, take_isize] at h
    have hcl : (cstr inp).length = isize inp := rfl
    subst h
    refine ⟨(cstr inp).length, cstr inp ++ List.replicate (cur.length - (cstr inp).length) 0, ?_, ?_, ?_⟩
    · intro s rest hv
      have := getChars_some cur (cstr inp) (by omega) (by omega) s rest hv
      simp only at this
      have ht : (cstr inp).take cur.length = cstr inp := List.take_of_length_le (by omega)
      rw [ht] at this
      simp only [getIncrChars, ← hcl, this, Option.bind_eq_bind, Option.bind_some]
      rw [if_neg (by omega)]
    · simp; omega
    · exact cstr_append_zero _ _ (cstr_nonzero inp)

/-- The encoder never reads outside the two fields (of equal declared size). -/
theorem incrChars_defined (inp ago : Bytes) (hlen : inp.length = ago.length) :
    ∃ cs, incrCharsCalls inp (some ago) = some cs := by
  unfold incrCharsCalls
  rw [charcmp_spec inp ago hlen]
  have hle := isize_le inp
  split
  · rename_i h; cases h
  · exact ⟨_, rfl⟩
  · rename_i n h
    simp only [Option.some.injEq] at h
    have : n + 1 ≤ inp.length := by
      split at h <;> omega
    simp [charsCalls, takeBytes_of_le _ _ this]

/-- C07 except for clearing a field: a character field written against its predecessor and read against the same
predecessor into a field with any old content `cur` holds the same string, provided a non-empty string is not replaced
by the empty one.  (`putAll s cs = some s'` is the write made by `put_incr_chars` staying inside the buffer.) -/
theorem C07_incr_chars_partial (s s' : BitS) (inp ago cur : Bytes) (hlen : inp.length = ago.length)
    (hcur : cur.length = inp.length) (hsz : inp.length < 2 ^ 32) (hne : cstr inp ≠ [] ∨ cstr ago = [])
    (hpos : s.pos ≤ 8 * s.buf.length)
    (h : ∃ cs, incrCharsCalls inp (some ago) = some cs ∧ putAll s cs = some s') :
    ∃ n out, getIncrChars ⟨s'.buf, s.pos⟩ cur ago = some ((n, out), s') ∧ out.length = inp.length ∧
      cstr out = cstr inp := by
  obtain ⟨cs, hc, hp⟩ := h
  obtain ⟨n, out, hr, h1, h2⟩ := Rd_getIncrChars inp ago cur hlen hcur hsz hne hc
  exact ⟨n, out, rd_after hr hpos hp, h1, h2⟩

/-- C07 fails when a field is cleared: "abc" followed by the empty string is read back as "abc". -/
theorem C07_cleared_field_violated :
    ∃ s s' : BitS, ∃ inp ago : Bytes, inp.length = ago.length ∧ cstr inp = [] ∧ cstr ago = [97, 98, 99] ∧
      (∃ cs, incrCharsCalls inp (some ago) = some cs ∧ putAll s cs = some s') ∧
      ∃ n out, getIncrChars ⟨s'.buf, s.pos⟩ inp ago = some ((n, out), s') ∧ cstr out = [97, 98, 99] :=
  ⟨⟨[0, 0, 0], 0⟩, ⟨[0, 0, 0], 1⟩, [0, 0, 0, 0], [97, 98, 99, 0], rfl, rfl, rfl,
    ⟨[(0, 1)], by decide, by decide +kernel⟩, 4, [97, 98, 99, 0], by decide +kernel, rfl⟩

/-- The hypotheses of `C07_incr_chars_partial` hold for "xyz" after "ab". -/
example : ((incrCharsCalls [120, 121, 122, 0] (some [97, 98, 0, 9])).bind
    (putAll ⟨List.replicate 8 0, 3⟩ ·)).isSome ∧ cstr [120, 121, 122, 0] ≠ [] := by decide +kernel

end BitS
end Sis
