import Verif.Zip.BagLemmas
/-
How many bits a record takes.
-/
namespace Sis.Zip
open Sis Sis.BitS

theorem and_high {d k m : Nat} (h : d < 2 ^ m) : d &&& (k <<< m) = 0 := by
  rw [and_shift, Nat.shiftRight_eq_div_pow, Nat.div_eq_of_lt h]
  simp

theorem intCalls_small {z : Int} {d : Nat} (hd : d = 1 ∨ d = 2 ∨ d = 4) (h1 : -((2 ^ (8 * d) : Nat) : Int) < z) (h2 : z < ((2 ^ (8 * d) : Nat) : Int)) :
    (callBits (intCalls z)).length ≤ 8 * d + 7 := by
  obtain ⟨dw, hdw, hlt⟩ : ∃ dw, (if z < 0 then pat64 (-1 * z) else pat64 z) = dw ∧ dw < 2 ^ (8 * d) := by
    refine ⟨_, rfl, ?_⟩
    unfold pat64
    rcases hd with rfl | rfl | rfl <;> split <;> omega
  unfold intCalls
  dsimp only
  rw [hdw, callBits_cons, List.length_append, natBits_length]
  have hs : (if z < 0 then ((1, 1) : Nat × Nat) else (0, 1)).2 = 1 := by split <;> rfl
  rw [hs]
  rcases hd with rfl | rfl | rfl
  · have e1 : dw &&& 0x7FFFFFFFFFF00000 = 0 := and_high (k := 0x7FFFFFFFFFF) (m := 20) (by omega)
    have e2 : dw &&& 0xF0000 = 0 := and_high (k := 0xF) (m := 16) (by omega)
    have e3 : dw &&& 0xF000 = 0 := and_high (k := 0xF) (m := 12) (by omega)
    have e4 : dw &&& 0xF00 = 0 := and_high (k := 0xF) (m := 8) (by omega)
    simp only [e1, e2, e3, e4, ne_eq, not_true_eq_false, if_false]
    repeat' split
    all_goals simp [callBits]
  · have e1 : dw &&& 0x7FFFFFFFFFF00000 = 0 := and_high (k := 0x7FFFFFFFFFF) (m := 20) (by omega)
    have e2 : dw &&& 0xF0000 = 0 := and_high (k := 0xF) (m := 16) (by omega)
    simp only [e1, e2, ne_eq, not_true_eq_false, if_false]
    repeat' split
    all_goals simp [callBits]
  · have e1 : dw &&& 0x7F00000000000000 = 0 := and_high (k := 0x7F) (m := 56) (by omega)
    have e2 : dw &&& 0xFF000000000000 = 0 := and_high (k := 0xFF) (m := 48) (by omega)
    have e3 : dw &&& 0xFF0000000000 = 0 := and_high (k := 0xFF) (m := 40) (by omega)
    have e4 : dw &&& 0xFF00000000 = 0 := and_high (k := 0xFF) (m := 32) (by omega)
    have e5 : dw &&& 0xF00000000 = 0 := and_high (k := 0xF) (m := 32) (by omega)
    simp only [e1, e2, e3, e4, e5, ne_eq, not_true_eq_false, if_false]
    repeat' split
    all_goals simp [callBits]

theorem incrInt_width {f : Dyn.Field} (hf : Number f) {a b : Bytes} (ha : a.length = f.len) (hb : b.length = f.len) :
    (callBits (incrIntCalls (val f a) (val f b))).length ≤ 8 * f.len + 7 := by
  by_cases h8 : f.len = 8
  · have := intCalls_length (ofPat64 (pat64 (val f a - val f b)))
    unfold incrIntCalls
    omega
  · have hl : f.len = 1 ∨ f.len = 2 ∨ f.len = 4 := by have := hf.2; omega
    have h1 := leVal_len ha
    have h2 := leVal_len hb
    have hd : -((2 ^ (8 * f.len) : Nat) : Int) < val f a - val f b ∧ val f a - val f b < ((2 ^ (8 * f.len) : Nat) : Int) := by
      unfold val Dyn.signed ofPat64
      rcases hl with h | h | h <;> rw [h] at h1 h2 ⊢ <;> repeat' split
      all_goals omega
    have e : ofPat64 (pat64 (val f a - val f b)) = val f a - val f b := by
      refine ofPat64_pat64 _ ?_ ?_ <;> rcases hl with h | h | h <;> rw [h] at hd <;> omega
    unfold incrIntCalls
    rw [e]
    exact intCalls_small hl hd.1 hd.2

theorem chars_width {a : Bytes} {b : Option Bytes} {cs : List (Nat × Nat)} (h : incrCharsCalls a b = some cs) : (callBits cs).length ≤ 8 * a.length + 36 := by
  have key : ∀ n, charsCalls (some a) n = some cs → (callBits cs).length ≤ 8 * a.length + 36 := by
    intro n h
    unfold charsCalls at h
    dsimp only at h
    split at h
    · simp only [Option.map_eq_some_iff] at h
      obtain ⟨p, h1, rfl⟩ := h
      have hp : p.1.length ≤ a.length := by
        obtain ⟨p1, p2⟩ := p
        obtain ⟨h2, -⟩ := takeBytes_eq_some.1 h1
        rw [h2]
        simp
      rw [callBits_cons, callBits_append]
      have := uintCalls_length n
      have h3 : ∀ l : Bytes, (callBits (l.map fun c => (charPat c, 8))).length = 8 * l.length := by
        intro l
        induction l with
        | nil => rfl
        | cons c l ih => rw [List.map_cons, callBits_cons, List.length_append, ih]; simp; omega
      rw [List.length_append, List.length_append, h3]
      simp only [natBits_length]
      omega
    · cases h
      simp [callBits]
  unfold incrCharsCalls at h
  split at h
  · cases h
  · cases h
    simp [callBits]
  · exact key _ h

theorem elem_width {f : Dyn.Field} (hf : Number f ∨ f.style = .char) {mem src : Bytes} {mb sb j : Nat} {cs : List (Nat × Nat)}
    (h : elemCalls f mem mb src sb j = some cs) : (callBits cs).length ≤ width f := by
  rcases hf with hf | hf
  · have hx : ∃ a b, Dyn.elem src (sb + f.offset + j * f.len) f.len = some a ∧ Dyn.elem mem (mb + f.offset + j * f.len) f.len = some b := by
      unfold elemCalls at h
      rcases hf.1 with hs | hs | hs | hs | hs | hs | hs <;> rw [hs] at h <;>
        simp only [Dyn.getInt, Dyn.getUint, hf.intLen, if_true, Option.bind_eq_some_iff, Option.map_eq_some_iff] at h <;>
        obtain ⟨x, ⟨a, ha, -⟩, y, ⟨b, hb, -⟩, -⟩ := h <;> exact ⟨a, b, ha, hb⟩
    obtain ⟨a, b, ha, hb⟩ := hx
    rw [elemCalls_num hf ha hb] at h
    cases h
    unfold width
    rw [if_neg hf.not_char]
    exact incrInt_width hf (Dyn.elem_some ha).2.2 (Dyn.elem_some hb).2.2
  · unfold elemCalls at h
    rw [hf] at h
    simp only [Option.bind_eq_some_iff] at h
    obtain ⟨a, ha, b, hb, h⟩ := h
    have := chars_width h
    rw [(Dyn.elem_some ha).2.2] at this
    unfold width
    rw [if_pos hf]
    exact this

theorem collect_width {ι : Type} (g : ι → Option (List (Nat × Nat))) (B : ι → Nat) : ∀ (l : List ι) (cs : List (Nat × Nat)),
    (∀ i ∈ l, ∀ a, g i = some a → (callBits a).length ≤ B i) → Dyn.collect (l.map g) = some cs → (callBits cs).length ≤ (l.map B).sum := by
  intro l
  induction l with
  | nil => intro cs _ h; cases h; simp [callBits]
  | cons i l ih =>
    intro cs hB h
    simp only [List.map_cons, Dyn.collect, Option.bind_eq_some_iff, Option.map_eq_some_iff] at h
    obtain ⟨a, h1, b, h2, rfl⟩ := h
    have h3 := hB i (by simp) a h1
    have h4 := ih b (fun i hi => hB i (by simp [hi])) h2
    rw [callBits_append, List.length_append, List.map_cons, List.sum_cons]
    omega

theorem sum_const (l : List Nat) (c : Nat) : (l.map fun _ => c).sum = l.length * c := by
  induction l with
  | nil => simp
  | cons a l ih => rw [List.map_cons, List.sum_cons, ih, List.length_cons, Nat.succ_mul]; omega

theorem rec_width {t : Tab} (hp : Plain t.db) (hfn : t.fnums = t.db.fields.length) {mem src : Bytes} {mb sb : Nat} {cs : List (Nat × Nat)}
    (h : recCalls t mem mb src sb = some cs) : (callBits cs).length ≤ bitsOf t.db := by
  unfold recCalls at h
  rw [hfn] at h
  refine collect_width _ _ _ cs (fun i _ a ha => ?_) h
  simp only [Option.bind_eq_some_iff] at ha
  obtain ⟨f, h1, h2⟩ := ha
  rw [h1]
  simp only [Option.map_some, Option.getD_some]
  have hf : Number f ∨ f.style = .char := flds_of (Dyn.made_lay hp.1) hp.2.2 i f h1
  have := collect_width (fun j => elemCalls f mem mb src sb j) (fun _ => width f) _ a (fun j _ c hc => elem_width hf hc) h2
  rw [sum_const, List.length_range] at this
  exact this

/-- Records that fit are written. -/
theorem encRecs_defined {t : Tab} (hp : Plain t.db) (hfn : t.fnums = t.db.fields.length) (b : Nat) (src : Bytes) : ∀ (rs : List Bytes) (k : Nat) (mem : Bytes) (s : BitS) (a : Bytes),
    (∀ i r, rs[i]? = some r → Dyn.elem src ((k + i) * t.db.size) t.db.size = some r) → Dyn.elem mem (b + 1) t.db.size = some a →
    s.pos + rs.length * bitsOf t.db ≤ 8 * s.buf.length →
    (∃ D, Begun t.db D a rs) →
    ∃ mem' s', encRecs t b src rs.length k mem s = some (mem', s') ∧ s'.pos ≤ s.pos + rs.length * bitsOf t.db ∧ s.pos ≤ s'.pos := by
  intro rs
  induction rs with
  | nil => intro k mem s a _ _ hroom _; exact ⟨mem, s, rfl, by omega, by omega⟩
  | cons r rs ih =>
    intro k mem s a hrs ha hroom hl
    obtain ⟨D, hl, hD⟩ := hl
    have hr := hrs 0 r rfl
    rw [Nat.add_zero] at hr
    obtain ⟨cs, c1, c2, -⟩ := rec_ok hp t rfl hfn hr ha hD
    have c3 := rec_width hp hfn c1
    rw [List.length_cons, Nat.succ_mul] at hroom ⊢
    obtain ⟨s1, d1, d2, d3, -⟩ := putAll_spec cs s c2 (by omega)
    have hb := (Dyn.elem_some ha).2.1
    have hrl := (Dyn.elem_some hr).2.2
    obtain ⟨m1, e1⟩ := put_of_le (out := mem) (ob := b + 1) (w := (0, r)) (by simp only [hrl]; omega)
    have hm1 := Dyn.put_length e1
    obtain ⟨m2, e2⟩ := put_of_le (out := m1) (ob := b) (w := (0, [1])) (by simp only [List.length_singleton]; omega)
    obtain ⟨-, -, k3, -⟩ := keep_ok hrl e1 e2
    obtain ⟨m3, s3, g1, g2, g3⟩ := ih (k + 1) m2 s1 r (by
      intro i r' hi
      have := hrs (i + 1) r' hi
      rwa [show k + (i + 1) = k + 1 + i by omega] at this) k3 (by omega) (by
      cases rs with
      | nil => exact ⟨none, trivial⟩
      | cons r2 rs => exact ⟨some (m2, b + 1), hl.2, ⟨r, k3, fun name f e _ _ => by unfold Alike; split <;> rfl⟩, hl.1⟩)
    refine ⟨m3, s3, ?_, by omega, by omega⟩
    unfold encRecs
    rw [c1, Option.bind_some, d1, Option.bind_some, hr, Option.bind_some, e1, Option.bind_some, e2, Option.bind_some]
    exact g1

end Sis.Zip
