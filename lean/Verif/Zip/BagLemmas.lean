import Verif.Zip.RecLemmas
/-
The number of bags at the end of a block, and the records of a bag.
-/
namespace Sis.Zip
open Sis Sis.BitS

/-- What was written up to the cursor. -/
def Holds (s : BitS) (l : List Bool) : Prop := s.pos = l.length ∧ s.pos ≤ 8 * s.buf.length ∧ (toBits s.buf).take s.pos = l

theorem holds_put {s s' : BitS} {l : List Bool} {cs : List (Nat × Nat)} (h : Holds s l) (hp : putAll s cs = some s') :
    Holds s' (l ++ callBits cs) ∧ s'.buf.length = s.buf.length := by
  obtain ⟨h1, h2, h3⟩ := h
  obtain ⟨r, w⟩ := putAll_room h2 hp
  obtain ⟨t, a1, a2, a3, a4⟩ := putAll_spec cs s w r
  rw [hp] at a1
  cases a1
  refine ⟨⟨by rw [a2, h1, List.length_append], by omega, by rw [a4, h3]⟩, a3⟩

theorem holds_view {s : BitS} {l : List Bool} (h : Holds s l) {n : Nat} (hn : s.pos ≤ 8 * n) :
    ∃ rest, (⟨s.buf.take n, 0⟩ : BitS).view = l ++ rest := by
  obtain ⟨h1, h2, h3⟩ := h
  refine ⟨((toBits s.buf).take (8 * n)).drop s.pos, ?_⟩
  unfold view
  simp only [List.drop_zero, toBits_take]
  rw [← h3]
  conv => lhs; rw [← List.take_append_drop s.pos ((toBits s.buf).take (8 * n))]
  rw [List.take_take, Nat.min_eq_left hn]

/-- What `get` reads `k` bits before the end of written bytes. -/
theorem get_tail {s s' : BitS} {cs pre post : List (Nat × Nat)} {v k n : Nat} (hpos : s.pos ≤ 8 * s.buf.length) (h : putAll s cs = some s')
    (hcs : cs = pre ++ (v, k) :: post) (h1 : 1 ≤ k) (h2 : k ≤ 64) (hn : 8 * n = s'.pos) :
    ∃ s'', get ⟨s'.buf.take n, s.pos + (callBits pre).length⟩ k = some (v % 2 ^ k, s'') := by
  obtain ⟨r, w⟩ := putAll_room hpos h
  obtain ⟨t, a1, a2, a3, a4⟩ := putAll_spec cs s w r
  rw [h] at a1
  cases a1
  refine ⟨_, Rd_get k v h1 h2 _ (callBits post) ?_⟩
  unfold view
  simp only [toBits_take, hn, a4]
  rw [hcs, callBits_append, callBits_cons]
  rw [List.drop_append]
  rw [List.drop_of_length_le (by simp; omega)]
  have : ((toBits s.buf).take s.pos).length = s.pos := by simp; omega
  rw [this, Nat.add_sub_cancel_left, List.nil_append, List.drop_append_of_le_length (Nat.le_refl _), List.drop_length, List.nil_append]

theorem setBags_ok {s s' : BitS} {max bags w : Nat} {l : List Bool} (hl : Holds s l) (hm : s.pos ≤ max) (hm8 : max % 8 = 0)
    (hb0 : 0 < bags) (hb : bags < 2 ^ 32) (h : setBags s max bags = some (s', w)) :
    Holds s' l ∧ s'.buf.length = s.buf.length ∧ (s.pos + 7) / 8 + w ≤ s.buf.length ∧ 1 ≤ w ∧ w ≤ 5 ∧
      getBags (s'.buf.take ((s.pos + 7) / 8 + w)) = some (Dyn.signed 4 bags) := by
  obtain ⟨h1, h2, h3⟩ := hl
  obtain ⟨s1, hs1, hb1, hp1⟩ : ∃ s1 : BitS, (if (8 - s.pos % 8) % 8 ≠ 0 then moveTo s max (s.pos + (8 - s.pos % 8) % 8) else s) = s1 ∧
      s1.buf = s.buf ∧ s1.pos = 8 * ((s.pos + 7) / 8) := by
    split
    · refine ⟨_, rfl, rfl, ?_⟩
      unfold moveTo
      rw [if_neg (by omega)]
      dsimp only
      omega
    · exact ⟨_, rfl, rfl, by omega⟩
  have hpos1 : s1.pos ≤ 8 * s1.buf.length := by rw [hb1, hp1]; omega
  unfold setBags at h
  dsimp only at h
  rw [hs1] at h
  have key : ∀ (cs : List (Nat × Nat)) (w : Nat) (s2 : BitS), putAll s1 cs = some s2 → (callBits cs).length = 8 * w →
      Holds (moveTo s2 max s.pos) l ∧ (moveTo s2 max s.pos).buf.length = s.buf.length ∧ (s.pos + 7) / 8 + w ≤ s.buf.length ∧
      8 * ((s.pos + 7) / 8 + w) = s2.pos := by
    intro cs w s2 hp hlen
    obtain ⟨r, -⟩ := putAll_room hpos1 hp
    obtain ⟨e1, e2, e3, -⟩ := putAll_effect hpos1 hp
    rw [hb1] at r e2
    unfold moveTo
    rw [if_neg (by omega)]
    refine ⟨⟨h1, by dsimp only; omega, ?_⟩, e2, by omega, by omega⟩
    dsimp only
    have := congrArg (List.take s.pos) e3
    rw [List.take_take, List.take_take, Nat.min_eq_left (by omega), hb1] at this
    rw [this, h3]
  have sig : bags < 2 ^ 31 → Dyn.signed 4 bags = bags := by
    intro h
    unfold Dyn.signed
    rw [if_pos (by omega)]
  split at h
  · simp only [Option.map_eq_some_iff] at h
    obtain ⟨s2, hp, h⟩ := h
    cases h
    obtain ⟨k1, k2, k3, k4⟩ := key _ 1 s2 hp (by simp [callBits])
    refine ⟨k1, k2, k3, by omega, by omega, ?_⟩
    obtain ⟨s3, g⟩ := get_tail (pre := []) (post := []) hpos1 hp rfl (by omega) (by omega) k4
    unfold getBags
    have hlen : (s2.buf.take ((s.pos + 7) / 8 + 1)).length = (s.pos + 7) / 8 + 1 := by
      rw [List.length_take]
      have : (moveTo s2 max s.pos).buf.length = s2.buf.length := rfl
      omega
    have : 8 * ((s.pos + 7) / 8 + 1) - 8 = s1.pos + (callBits []).length := by rw [hp1]; simp [callBits]; omega
    dsimp only
    rw [show (moveTo s2 max s.pos).buf = s2.buf from rfl, hlen, this, g]
    simp only [Option.bind_some]
    rw [Nat.mod_eq_of_lt (by omega), if_pos (by omega), sig (by omega)]
  · split at h
    · simp only [Option.map_eq_some_iff] at h
      obtain ⟨s2, hp, h⟩ := h
      cases h
      obtain ⟨k1, k2, k3, k4⟩ := key _ 3 s2 hp (by simp [callBits])
      refine ⟨k1, k2, k3, by omega, by omega, ?_⟩
      obtain ⟨s3, g⟩ := get_tail (pre := [(bags, 16)]) (post := []) hpos1 hp rfl (by omega) (by omega) k4
      obtain ⟨s4, g'⟩ := get_tail (pre := []) (post := [(251, 8)]) hpos1 hp rfl (by omega) (by omega) k4
      unfold getBags
      have hlen : (s2.buf.take ((s.pos + 7) / 8 + 3)).length = (s.pos + 7) / 8 + 3 := by
        rw [List.length_take]
        have : (moveTo s2 max s.pos).buf.length = s2.buf.length := rfl
        omega
      have e1 : 8 * ((s.pos + 7) / 8 + 3) - 8 = s1.pos + (callBits [(bags, 16)]).length := by rw [hp1]; simp [callBits]; omega
      have e2 : 8 * ((s.pos + 7) / 8 + 3) - 24 = s1.pos + (callBits []).length := by rw [hp1]; simp [callBits]; omega
      dsimp only
      rw [show (moveTo s2 max s.pos).buf = s2.buf from rfl, hlen, e1, g, e2, g']
      simp only [Option.bind_some, Option.map_some]
      rw [if_neg (by decide), if_pos (by decide), Nat.mod_eq_of_lt (a := bags) (by omega), sig (by omega)]
    · simp only [Option.map_eq_some_iff] at h
      obtain ⟨s2, hp, h⟩ := h
      cases h
      obtain ⟨k1, k2, k3, k4⟩ := key _ 5 s2 hp (by simp [callBits])
      refine ⟨k1, k2, k3, by omega, by omega, ?_⟩
      obtain ⟨s3, g⟩ := get_tail (pre := [(bags, 32)]) (post := []) hpos1 hp rfl (by omega) (by omega) k4
      obtain ⟨s4, g'⟩ := get_tail (pre := []) (post := [(252, 8)]) hpos1 hp rfl (by omega) (by omega) k4
      unfold getBags
      have hlen : (s2.buf.take ((s.pos + 7) / 8 + 5)).length = (s.pos + 7) / 8 + 5 := by
        rw [List.length_take]
        have : (moveTo s2 max s.pos).buf.length = s2.buf.length := rfl
        omega
      have e1 : 8 * ((s.pos + 7) / 8 + 5) - 8 = s1.pos + (callBits [(bags, 32)]).length := by rw [hp1]; simp [callBits]; omega
      have e2 : 8 * ((s.pos + 7) / 8 + 5) - 40 = s1.pos + (callBits []).length := by rw [hp1]; simp [callBits]; omega
      dsimp only
      rw [show (moveTo s2 max s.pos).buf = s2.buf from rfl, hlen, e1, g, e2, g']
      simp only [Option.bind_some, Option.map_some]
      rw [if_neg (by decide), if_neg (by decide), Nat.mod_eq_of_lt (a := bags) (by omega)]

/-- It can be written when six bytes are left. -/
theorem setBags_defined {s : BitS} {max bags : Nat} (hm : s.pos ≤ max) (hm8 : max % 8 = 0) (hroom : (s.pos + 7) / 8 + 5 ≤ s.buf.length) :
    ∃ r, setBags s max bags = some r := by
  obtain ⟨s1, hs1, hb1, hp1⟩ : ∃ s1 : BitS, (if (8 - s.pos % 8) % 8 ≠ 0 then moveTo s max (s.pos + (8 - s.pos % 8) % 8) else s) = s1 ∧
      s1.buf = s.buf ∧ s1.pos = 8 * ((s.pos + 7) / 8) := by
    split
    · refine ⟨_, rfl, rfl, ?_⟩
      unfold moveTo
      rw [if_neg (by omega)]
      dsimp only
      omega
    · exact ⟨_, rfl, rfl, by omega⟩
  have key : ∀ cs : List (Nat × Nat), Widths cs → (callBits cs).length ≤ 40 → ∃ s2, putAll s1 cs = some s2 := by
    intro cs hw hc
    obtain ⟨s2, h, -⟩ := putAll_spec cs s1 hw (by rw [hb1, hp1]; omega)
    exact ⟨s2, h⟩
  unfold setBags
  dsimp only
  rw [hs1]
  split
  · obtain ⟨s2, h⟩ := key [(bags, 8)] (by intro c hc; simp at hc; subst hc; exact Nat.le_of_ble_eq_true rfl) (by simp [callBits])
    exact ⟨_, by rw [h]; rfl⟩
  · split
    · obtain ⟨s2, h⟩ := key [(bags, 16), (251, 8)] (by intro c hc; simp at hc; rcases hc with rfl | rfl <;> exact Nat.le_of_ble_eq_true rfl) (by simp [callBits])
      exact ⟨_, by rw [h]; rfl⟩
    · obtain ⟨s2, h⟩ := key [(bags, 32), (252, 8)] (by intro c hc; simp at hc; rcases hc with rfl | rfl <;> exact Nat.le_of_ble_eq_true rfl) (by simp [callBits])
      exact ⟨_, by rw [h]; rfl⟩

/-! ### Records -/

/-- The calls `cs` code record `r` after record `a`. -/
def Codes (t : Tab) (a r : Bytes) (cs : List (Nat × Nat)) : Prop :=
  ∀ D, AgoRec t.db D a r → ∀ out ob, ob + t.db.size ≤ out.length → ∃ out' r', Rd (decRec t D ob t.fnums 0 out) (callBits cs) out' ∧ out'.length = out.length ∧
    (∀ q, (q < ob ∨ ob + t.db.size ≤ q) → out'[q]? = out[q]?) ∧ Dyn.elem out' ob t.db.size = some r' ∧ SameRec t.db r' r

theorem codes_of {t : Tab} (hp : Plain t.db) (hfn : t.fnums = t.db.fields.length) {mem src r a : Bytes} {mb sb : Nat} {cs : List (Nat × Nat)}
    (hr : Dyn.elem src sb t.db.size = some r) (ha : Dyn.elem mem mb t.db.size = some a) (h : recCalls t mem mb src sb = some cs) : Codes t a r cs := by
  intro D hD
  obtain ⟨cs', h1, h2, h3⟩ := rec_ok hp t rfl hfn hr ha hD
  rw [h] at h1
  cases h1
  exact h3

/-- The calls of consecutive records. -/
def CodesAll (t : Tab) : Bytes → List Bytes → List (List (Nat × Nat)) → Prop
  | _, [], css => css = []
  | a, r :: rs, css => ∃ cs css', css = cs :: css' ∧ Codes t a r cs ∧ CodesAll t r rs css'

theorem put_elem {out out' e : Bytes} {b : Nat} (h : Dyn.put out b (0, e) = some out') : Dyn.elem out' b e.length = some e := by
  have := elem_put h
  simpa using this

theorem put_flag {out out' : Bytes} {b : Nat} (h : Dyn.put out b (0, [1]) = some out') : out'[b]? = some 1 := by
  have := Dyn.put_in h 0
  simpa using this

theorem elem_keep {out out' : Bytes} {p n lo hi : Nat} (hl : out'.length = out.length) (h : ∀ q, (q < lo ∨ hi ≤ q) → out'[q]? = out[q]?)
    (hd : p + n ≤ lo ∨ hi ≤ p) : Dyn.elem out' p n = Dyn.elem out p n :=
  elem_same hl fun q h1 h2 => h q (by omega)

/-- The last record and its flag are kept. -/
theorem keep_ok {mem mem' mem'' r : Bytes} {b size : Nat} (hr : r.length = size) (h1 : Dyn.put mem (b + 1) (0, r) = some mem') (h2 : Dyn.put mem' b (0, [1]) = some mem'') :
    mem''.length = mem.length ∧ mem''[b]? = some 1 ∧ Dyn.elem mem'' (b + 1) size = some r ∧ ∀ q, (q < b ∨ b + 1 + size ≤ q) → mem''[q]? = mem[q]? := by
  have l1 := Dyn.put_length h1
  have l2 := Dyn.put_length h2
  refine ⟨by omega, put_flag h2, ?_, ?_⟩
  · rw [elem_keep (lo := b) (hi := b + 1) l2 (fun q hq => Dyn.put_out h2 q (by simpa using hq)) (by omega), ← hr]
    exact put_elem h1
  · intro q hq
    rw [Dyn.put_out h2 q (by simp; omega), Dyn.put_out h1 q (by simp; omega)]

theorem encRecs_ok {t : Tab} (hp : Plain t.db) (hfn : t.fnums = t.db.fields.length) (b : Nat) (src : Bytes) : ∀ (rs : List Bytes) (k : Nat) (mem : Bytes) (s : BitS) (a : Bytes)
    (mem' : Bytes) (s' : BitS), (∀ i r, rs[i]? = some r → Dyn.elem src ((k + i) * t.db.size) t.db.size = some r) → Dyn.elem mem (b + 1) t.db.size = some a →
    encRecs t b src rs.length k mem s = some (mem', s') →
    ∃ css, CodesAll t a rs css ∧ putAll s css.flatten = some s' ∧ mem'.length = mem.length ∧ (rs ≠ [] → mem'[b]? = some 1) ∧ (rs = [] → mem' = mem) ∧
      Dyn.elem mem' (b + 1) t.db.size = some (rs.getLast?.getD a) ∧ ∀ q, (q < b ∨ b + 1 + t.db.size ≤ q) → mem'[q]? = mem[q]? := by
  intro rs
  induction rs with
  | nil =>
    intro k mem s a mem' s' _ ha h
    simp only [List.length_nil, encRecs, Option.some.injEq, Prod.mk.injEq] at h
    obtain ⟨rfl, rfl⟩ := h
    exact ⟨[], rfl, rfl, rfl, fun h => absurd rfl h, fun _ => rfl, ha, fun _ _ => rfl⟩
  | cons r rs ih =>
    intro k mem s a mem' s' hrs ha h
    simp only [List.length_cons, encRecs, Option.bind_eq_some_iff] at h
    obtain ⟨cs, c1, s1, c2, r0, c3, m1, c4, m2, c5, h⟩ := h
    have hr0 := hrs 0 r rfl
    rw [Nat.add_zero, c3] at hr0
    cases hr0
    obtain ⟨k1, k2, k3, k4⟩ := keep_ok (Dyn.elem_some c3).2.2 c4 c5
    obtain ⟨css, d1, d2, d3, d4, d5, d6, d7⟩ := ih (k + 1) m2 s1 r mem' s' (by
      intro i r' hi
      have := hrs (i + 1) r' hi
      rwa [show k + (i + 1) = k + 1 + i by omega] at this) k3 h
    refine ⟨cs :: css, ⟨cs, css, rfl, codes_of hp hfn c3 ha c1, d1⟩, ?_, by omega, fun _ => ?_, fun h => absurd h (by simp), ?_, ?_⟩
    · rw [List.flatten_cons, putAll_append, c2]
      exact d2
    · by_cases he : rs = []
      · rw [d5 he]
        exact k2
      · exact d4 he
    · rw [d6, List.getLast?_cons]
      rfl
    · intro q hq
      rw [d7 q hq, k4 q hq]

/-- The records can be read by a reader that has `D`. -/
def Begun (db : Dyn.Db) (D : Option (Bytes × Nat)) (a : Bytes) : List Bytes → Prop
  | [] => True
  | r :: rs => Linked db r rs ∧ AgoRec db D a r

/-- The records of a whole block are read back. -/
theorem decAll_ok {t : Tab} : ∀ (rs : List Bytes) (a : Bytes) (css : List (List (Nat × Nat))) (k : Nat) (prev : Option Bytes) (out : Bytes),
    CodesAll t a rs css → (k + rs.length) * t.db.size ≤ out.length →
    Begun t.db (prev.map fun m => (m, 0)) a rs →
    ∃ out', Rd (decAll t rs.length k prev out) (callBits css.flatten) out' ∧ out'.length = out.length ∧ (∀ q < k * t.db.size, out'[q]? = out[q]?) ∧
      ∀ i r, rs[i]? = some r → ∃ r', Dyn.elem out' ((k + i) * t.db.size) t.db.size = some r' ∧ SameRec t.db r' r := by
  intro rs
  induction rs with
  | nil =>
    intro a css k prev out h _ _
    have : css = [] := h
    subst this
    exact ⟨out, Rd_pure _, rfl, fun _ _ => rfl, fun i r h => by simp at h⟩
  | cons r rs ih =>
    intro a css k prev out h hroom hlink
    obtain ⟨cs, css', rfl, hc, hcs⟩ := h
    obtain ⟨hl, hago⟩ := hlink
    have hm1 : (k + 1) * t.db.size ≤ (k + (rs.length + 1)) * t.db.size := Nat.mul_le_mul_right _ (by omega)
    rw [Nat.succ_mul] at hm1
    rw [List.length_cons] at hroom
    obtain ⟨o1, r1, q1, q2, q3, q4, q5⟩ := hc _ hago out (k * t.db.size) (by omega)
    have hr1l := (Dyn.elem_some q4).2.2
    obtain ⟨o2, p1, p2, p3, p4⟩ := ih r css' (k + 1) (some r1) o1 hcs (by rw [q2]; rw [show k + 1 + rs.length = k + (rs.length + 1) by omega]; exact hroom) (by
      cases rs with
      | nil => trivial
      | cons r2 rs =>
        refine ⟨hl.2, ⟨r1, ?_, q5⟩, hl.1⟩
        rw [elem_eq_some (by omega), List.drop_zero, ← hr1l, List.take_length])
    refine ⟨o2, ?_, by omega, ?_, ?_⟩
    · rw [List.flatten_cons, callBits_append]
      have := Rd_bind (g := fun o s => (Dyn.elem o (k * t.db.size) t.db.size).bind fun r => decAll t rs.length (k + 1) (some r) o s) q1
        (l₂ := callBits css'.flatten) (b := o2) (by
          intro s rest hv
          dsimp only
          rw [q4, Option.bind_some]
          exact p1 s rest hv)
      exact this
    · intro q hq
      rw [p3 q (by rw [Nat.succ_mul]; omega), q3 q (by omega)]
    · intro i r' hi
      cases i with
      | zero =>
        simp only [List.getElem?_cons_zero, Option.some.injEq] at hi
        subst hi
        refine ⟨r1, ?_, q5⟩
        rw [Nat.add_zero, ← q4]
        refine elem_same p2 fun q h1 h2 => p3 q ?_
        rw [Nat.succ_mul]
        exact h2
      | succ i =>
        obtain ⟨r2, h1, h2⟩ := p4 i r' (by simpa using hi)
        refine ⟨r2, ?_, h2⟩
        rw [show k + (i + 1) = k + 1 + i by omega]
        exact h1

end Sis.Zip
