import Verif.Zip.IncrSpec
import Verif.Bits.CodecTheorems
import Verif.Dyn.ConvTheorems
/-
One element of a record through the codes: what is written, and what reading it puts into the record.
-/
namespace Sis.Zip
open Sis Sis.BitS

theorem text_cstr (b : Bytes) : text b = cstr b := rfl

theorem elem_eq_some {buf : Bytes} {p n : Nat} (h : p + n ≤ buf.length) : Dyn.elem buf p n = some ((buf.drop p).take n) := by
  simp [Dyn.elem, h]

/-- A part of a part of a buffer. -/
theorem elem_elem {buf r : Bytes} {b size p n : Nat} (h : Dyn.elem buf b size = some r) (hp : p + n ≤ size) :
    Dyn.elem buf (b + p) n = Dyn.elem r p n := by
  obtain ⟨h1, h2, h3⟩ := Dyn.elem_some h
  rw [elem_eq_some (by omega), elem_eq_some (by omega), h1, List.drop_take, List.drop_drop, List.take_take]
  congr 2
  omega

theorem elem_slot {db : Dyn.Db} {r : Bytes} {f : Dyn.Field} {j : Nat} (hr : r.length = db.size) (hp : f.offset + j * f.len + f.len ≤ db.size) :
    Dyn.elem r (f.offset + j * f.len) f.len = some (Dyn.slot db.size r 0 f j) := by
  rw [elem_eq_some (by omega)]
  simp [Dyn.slot]

/-- The number that is written for an element. -/
def val (f : Dyn.Field) (e : Bytes) : Int := if f.style = .int then Dyn.signed f.len (leVal e) else ofPat64 (leVal e)

theorem Number.intLen {f : Dyn.Field} (h : Number f) : Dyn.intLen f.len = true := Dyn.intLen_iff.2 h.2

theorem Number.not_char {f : Dyn.Field} (h : Number f) : f.style ≠ .char := by
  rcases h.1 with h | h | h | h | h | h | h <;> rw [h] <;> decide

theorem leVal_len {e : Bytes} {k : Nat} (h : e.length = k) : leVal e < 256 ^ k := by rw [← h]; exact leVal_lt e

theorem val_bounds {f : Dyn.Field} (hf : Number f) {e : Bytes} (he : e.length = f.len) : -(2 ^ 63) ≤ val f e ∧ val f e < 2 ^ 63 := by
  have := leVal_len he
  unfold val
  split
  · unfold Dyn.signed
    rcases hf.2 with h | h | h | h <;> rw [h] at this ⊢ <;> split <;> omega
  · exact ofPat64_bounds _

/-- Storing the number gives the bytes back. -/
theorem leBytes_val {f : Dyn.Field} (hf : Number f) {e : Bytes} (he : e.length = f.len) : leBytes f.len (Time.u64 (val f e)) = e := by
  have hlt := leVal_len he
  have h1 : Time.u64 (val f e) % 256 ^ f.len = leVal e := by
    unfold val Time.u64
    split
    · unfold Dyn.signed
      rcases hf.2 with h | h | h | h <;> rw [h] at hlt ⊢ <;> split <;> omega
    · unfold ofPat64
      rcases hf.2 with h | h | h | h <;> rw [h] at hlt ⊢ <;> split <;> omega
  have h2 : leBytes (leBytes f.len (Time.u64 (val f e))).length (leVal (leBytes f.len (Time.u64 (val f e)))) = leBytes f.len (Time.u64 (val f e)) := leBytes_leVal _
  rw [leVal_leBytes, h1, leBytes_length, ← he, leBytes_leVal] at h2
  rw [← he]
  exact h2.symm

theorem val_diff {f : Dyn.Field} (hf : Number f) {a b : Bytes} (ha : a.length = f.len) (hb : b.length = f.len)
    (hn : f.len = 8 → leVal a ≠ (leVal b + 2 ^ 63) % 2 ^ 64) : ofPat64 (pat64 (val f a - val f b)) ≠ -(2 ^ 63) := by
  have h1 := leVal_len ha
  have h2 := leVal_len hb
  unfold val
  rcases hf.2 with h | h | h | h
  · rw [h] at h1 h2
    split
    · unfold Dyn.signed ofPat64 pat64
      rw [h]
      repeat' split
      all_goals omega
    · unfold ofPat64 pat64
      repeat' split
      all_goals omega
  · rw [h] at h1 h2
    split
    · unfold Dyn.signed ofPat64 pat64
      rw [h]
      repeat' split
      all_goals omega
    · unfold ofPat64 pat64
      repeat' split
      all_goals omega
  · rw [h] at h1 h2
    split
    · unfold Dyn.signed ofPat64 pat64
      rw [h]
      repeat' split
      all_goals omega
    · unfold ofPat64 pat64
      repeat' split
      all_goals omega
  · have hn := hn h
    rw [h] at h1 h2
    split
    · unfold Dyn.signed ofPat64 pat64
      rw [h]
      repeat' split
      all_goals omega
    · unfold ofPat64 pat64
      repeat' split
      all_goals omega

theorem getInt_val {f : Dyn.Field} (hf : Number f) (hs : f.style = .int) {buf e : Bytes} {b j : Nat}
    (h : Dyn.elem buf (b + f.offset + j * f.len) f.len = some e) : Dyn.getInt f buf b j = some (val f e) := by
  simp [Dyn.getInt, hf.intLen, h, val, hs]

theorem getUint_val {f : Dyn.Field} (hf : Number f) {buf e : Bytes} {b j : Nat}
    (h : Dyn.elem buf (b + f.offset + j * f.len) f.len = some e) : Dyn.getUint f buf b j = some (leVal e) := by
  simp [Dyn.getUint, hf.intLen, h]

theorem elemCalls_num {f : Dyn.Field} (hf : Number f) {mem src a b : Bytes} {mb sb j : Nat}
    (ha : Dyn.elem src (sb + f.offset + j * f.len) f.len = some a) (hb : Dyn.elem mem (mb + f.offset + j * f.len) f.len = some b) :
    elemCalls f mem mb src sb j = some (incrIntCalls (val f a) (val f b)) := by
  unfold elemCalls
  rcases hf.1 with h | h | h | h | h | h | h
  · rw [h]
    dsimp only
    rw [getInt_val hf h ha, getInt_val hf h hb]
    rfl
  all_goals
    rw [h]
    dsimp only
    rw [getUint_val hf ha, getUint_val hf hb]
    simp [val, h]

/-- The element before, as the reader has it: `none` stands for zeros. -/
def Ago (f : Dyn.Field) (D : Option (Bytes × Nat)) (j : Nat) (b : Bytes) : Prop :=
  match D with
  | none => b = List.replicate f.len 0
  | some (m, mb) => ∃ d, Dyn.elem m (mb + f.offset + j * f.len) f.len = some d ∧ Alike f d b

theorem leVal_zeros (n : Nat) : leVal (List.replicate n 0) = 0 := by
  induction n with
  | zero => rfl
  | succ n ih => simp [List.replicate_succ, leVal, ih]

theorem val_zeros {f : Dyn.Field} (hf : Number f) : val f (List.replicate f.len 0) = 0 := by
  unfold val
  rw [leVal_zeros]
  split
  · unfold Dyn.signed
    rcases hf.2 with h | h | h | h <;> rw [h] <;> decide
  · decide

theorem decElem_num {f : Dyn.Field} (hf : Number f) {D : Option (Bytes × Nat)} {a b : Bytes} {j : Nat}
    (hD : Ago f D j b) (ha : a.length = f.len) (hb : b.length = f.len) (hn : f.len = 8 → leVal a ≠ (leVal b + 2 ^ 63) % 2 ^ 64)
    {out out' : Bytes} {ob : Nat} (ho : Dyn.put out ob (f.offset + j * f.len, a) = some out') :
    Rd (decElem f D ob j out) (callBits (incrIntCalls (val f a) (val f b))) out' := by
  intro s rest hv
  have hvb := val_bounds hf ha
  have h1 := Rd_getIncrInt (val f a) (val f b) hvb.1 hvb.2 (val_diff hf ha hb hn) s rest hv
  dsimp only at h1
  have hw : Dyn.puts out ob (Dyn.setNum f 0 (Time.u64 (val f a)) j) = some out' := by
    simp only [Dyn.setNum, hf.intLen, if_true, leBytes_val hf ha, Dyn.puts]
    simp [ho]
  unfold decElem
  rcases hf.1 with h | h | h | h | h | h | h
  · rw [h]
    dsimp only
    have hago : agoInt f D j = some (val f b) := by
      cases D with
      | none =>
        have : b = List.replicate f.len 0 := hD
        rw [this, val_zeros hf]; rfl
      | some p =>
        obtain ⟨d, h2, h3⟩ := hD
        have : d = b := by simpa [Alike, hf.not_char] using h3
        subst this
        exact getInt_val hf h h2
    rw [hago, Option.bind_some, h1, Option.bind_some, hw]
    rfl
  all_goals
    rw [h]
    dsimp only
    have hago : ∃ n, agoUint f D j = some n ∧ ofPat64 n = val f b := by
      cases D with
      | none =>
        have : b = List.replicate f.len 0 := hD
        rw [this, val_zeros hf]
        exact ⟨0, rfl, by decide⟩
      | some p =>
        obtain ⟨d, h2, h3⟩ := hD
        have : d = b := by simpa [Alike, hf.not_char] using h3
        subst this
        exact ⟨_, getUint_val hf h2, by simp [val, h]⟩
    obtain ⟨n, hn1, hn2⟩ := hago
    rw [hn1, Option.bind_some, hn2, h1, Option.bind_some, hw]
    rfl

theorem incrChars_congr {a b d : Bytes} (h1 : a.length = b.length) (h2 : a.length = d.length) (h : cstr d = cstr b) :
    incrCharsCalls a (some d) = incrCharsCalls a (some b) := by
  unfold incrCharsCalls
  rw [charcmp_spec a b h1, charcmp_spec a d h2, h]

/-- The first text of a field that is not empty, read without one before it. -/
theorem Rd_getChars_first (a cur : Bytes) (hcur : cur.length = a.length) (hsz : a.length < 2 ^ 32) (hne : cstr a ≠ []) {cs}
    (h : incrCharsCalls a (some (List.replicate a.length 0)) = some cs) :
    ∃ n out, Rd (fun s => getChars s cur) (callBits cs) (n, out) ∧ out.length = a.length ∧ cstr out = cstr a := by
  unfold incrCharsCalls at h
  rw [charcmp_spec a _ (by simp)] at h
  have hz : cstr (List.replicate a.length (0 : UInt8)) = [] := by
    have := cstr_append_zero [] a.length (by simp)
    simpa using this
  rw [hz, if_neg hne] at h
  have hpos := (cstr_ne_nil_iff a).1 hne
  obtain ⟨n, hn⟩ : ∃ n, isize a = n + 1 := ⟨isize a - 1, by omega⟩
  rw [hn] at h
  dsimp only at h
  unfold charsCalls at h
  dsimp only at h
  rw [if_pos (by omega), takeBytes_of_le _ _ (by rw [← hn]; exact isize_le a)] at h
  simp only [Option.map_some, Option.some.injEq] at h
  subst h
  have hl : (a.take (n + 1)).length = n + 1 := by
    rw [List.length_take, ← hn]; have := isize_le a; omega
  have hrd := getChars_some cur (a.take (n + 1)) (by omega) (by rw [hl, ← hn]; have := isize_le a; omega)
  rw [hl] at hrd
  refine ⟨_, _, hrd, ?_, ?_⟩
  · rw [List.length_append, List.length_take, List.length_replicate, hl, hcur]
    have := isize_le a; omega
  · rw [List.take_of_length_le (by rw [hl, hcur, ← hn]; exact isize_le a)]
    rw [← hn, take_isize]
    exact cstr_append_zero _ _ (cstr_nonzero a)

theorem elemCalls_char {f : Dyn.Field} (hf : f.style = .char) {mem src a b : Bytes} {mb sb j : Nat}
    (ha : Dyn.elem src (sb + f.offset + j * f.len) f.len = some a) (hb : Dyn.elem mem (mb + f.offset + j * f.len) f.len = some b) :
    elemCalls f mem mb src sb j = incrCharsCalls a (some b) := by
  unfold elemCalls
  rw [hf]
  dsimp only
  rw [ha, hb]
  rfl

/-- What an element needs to be read back. -/
def Fine (f : Dyn.Field) (D : Option (Bytes × Nat)) (a b : Bytes) : Prop :=
  (f.style = .char → (D = none → text a ≠ []) ∧ (text a = [] → text b = [])) ∧
  (f.style ≠ .char → f.len = 8 → leVal a ≠ (leVal b + 2 ^ 63) % 2 ^ 64)

theorem put_of_le {out : Bytes} {ob : Nat} {w : Dyn.W} (h : ob + w.1 + w.2.length ≤ out.length) : ∃ out', Dyn.put out ob w = some out' :=
  ⟨_, by rw [Dyn.put, if_pos h]⟩

theorem elem_ok {f : Dyn.Field} (hf : Number f ∨ f.style = .char) (hlen : f.len < 2 ^ 32) {mem src a b : Bytes} {mb sb j : Nat}
    (ha : Dyn.elem src (sb + f.offset + j * f.len) f.len = some a) (hb : Dyn.elem mem (mb + f.offset + j * f.len) f.len = some b)
    {D : Option (Bytes × Nat)} (hD : Ago f D j b) (hfine : Fine f D a b) :
    ∃ cs, elemCalls f mem mb src sb j = some cs ∧ Widths cs ∧
      ∀ out ob, ob + f.offset + j * f.len + f.len ≤ out.length → ∃ e out', e.length = f.len ∧ Alike f e a ∧
        Dyn.put out ob (f.offset + j * f.len, e) = some out' ∧ Rd (decElem f D ob j out) (callBits cs) out' := by
  have hal := (Dyn.elem_some ha).2.2
  have hbl := (Dyn.elem_some hb).2.2
  rcases hf with hf | hf
  · refine ⟨_, elemCalls_num hf ha hb, int_widths _, fun out ob hroom => ?_⟩
    obtain ⟨out', ho⟩ := put_of_le (out := out) (ob := ob) (w := (f.offset + j * f.len, a)) (by simp only [hal]; omega)
    exact ⟨a, out', hal, by simp [Alike], ho, decElem_num hf hD hal hbl (hfine.2 hf.not_char) ho⟩
  · obtain ⟨cs, hcs⟩ := incrChars_defined a b (by rw [hal, hbl])
    refine ⟨cs, by rw [elemCalls_char hf ha hb, hcs], incrChars_widths hcs, fun out ob hroom => ?_⟩
    obtain ⟨cur, hcur⟩ : ∃ cur, Dyn.elem out (ob + f.offset + j * f.len) f.len = some cur := ⟨_, elem_eq_some (by omega)⟩
    have hcl := (Dyn.elem_some hcur).2.2
    obtain ⟨hf1, hf2⟩ := hfine.1 hf
    have key : ∃ n e, Rd (decChars f D j cur) (callBits cs) (n, e) ∧ e.length = a.length ∧ cstr e = cstr a := by
      cases D with
      | none =>
        have hbz : b = List.replicate f.len 0 := hD
        rw [hbz, ← hal] at hcs
        exact Rd_getChars_first a cur (by rw [hcl, hal]) (by omega) (hf1 rfl) hcs
      | some p =>
        obtain ⟨d, h2, h3⟩ := hD
        have hdl := (Dyn.elem_some h2).2.2
        have h3 : cstr d = cstr b := by simpa [Alike, hf, text_cstr] using h3
        rw [← incrChars_congr (by rw [hal, hbl]) (by rw [hal, hdl]) h3] at hcs
        obtain ⟨n, e, r1, r2, r3⟩ := Rd_getIncrChars a d cur (by rw [hal, hdl]) (by rw [hcl, hal]) (by omega) (by
          by_cases hne : cstr a = []
          · right; rw [h3]; exact hf2 hne
          · left; exact hne) hcs
        refine ⟨n, e, ?_, r2, r3⟩
        intro s rest hv
        unfold decChars
        dsimp only
        rw [h2, Option.bind_some]
        exact r1 s rest hv
    obtain ⟨n, e, r1, r2, r3⟩ := key
    obtain ⟨out', ho⟩ := put_of_le (out := out) (ob := ob) (w := (f.offset + j * f.len, e)) (by simp only [r2, hal]; omega)
    refine ⟨e, out', by rw [r2, hal], by simp only [Alike, hf, if_true]; exact r3, ho, ?_⟩
    intro s rest hv
    unfold decElem
    rw [hf]
    dsimp only
    rw [hcur, Option.bind_some]
    rw [r1 s rest hv, Option.bind_some]
    dsimp only
    rw [ho]
    rfl

end Sis.Zip
