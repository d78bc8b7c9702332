import Verif.Dyn.DynLemmas
import Verif.Dyn.DynSpec
/-
Lemmas about the conversion of records.
-/
namespace Sis.Dyn
open Sis

/-- The byte the writes leave at a place of the record; `none` when none of them covers it. -/
def over : List W → Nat → Option UInt8
  | [], _ => none
  | w :: ws, p => (over ws p).or (if w.1 ≤ p then w.2[p - w.1]? else none)

/-- A write covers a place. -/
def covers (w : W) (p : Nat) : Prop := w.1 ≤ p ∧ p < w.1 + w.2.length

theorem over_none {ws : List W} {p : Nat} (h : ∀ w ∈ ws, ¬ covers w p) : over ws p = none := by
  induction ws with
  | nil => rfl
  | cons w ws ih =>
    have h1 := h w (by simp)
    rw [over, ih fun w hw => h w (by simp [hw])]
    simp only [Option.none_or]
    split
    · rename_i h2
      apply List.getElem?_eq_none
      unfold covers at h1
      omega
    · rfl

theorem over_mem {ws : List W} {p : Nat} {w : W} (hw : w ∈ ws) (hc : covers w p) (h : ∀ w' ∈ ws, covers w' p → w' = w) :
    over ws p = w.2[p - w.1]? := by
  induction ws with
  | nil => cases hw
  | cons w₀ ws ih =>
    rw [over]
    by_cases hin : w ∈ ws
    · rw [ih hin fun w' hw' => h w' (by simp [hw'])]
      unfold covers at hc
      rw [List.getElem?_eq_getElem (by omega)]
      rfl
    · have h0 : w = w₀ := by simpa [hin] using hw
      subst h0
      have hno : ∀ w' ∈ ws, ¬ covers w' p := by
        intro w' hw' hc'
        have := h w' (List.mem_cons_of_mem _ hw') hc'
        rw [this] at hw'
        exact hin hw'
      rw [over_none hno]
      rw [if_pos hc.1]
      rfl

theorem put_some {out out' : Bytes} {base : Nat} {w : W} (h : put out base w = some out') :
    base + w.1 + w.2.length ≤ out.length ∧ out' = out.take (base + w.1) ++ w.2 ++ out.drop (base + w.1 + w.2.length) := by
  unfold put at h
  split at h
  · rename_i hle
    exact ⟨hle, by cases h; rfl⟩
  · cases h

theorem put_length {out out' : Bytes} {base : Nat} {w : W} (h : put out base w = some out') : out'.length = out.length := by
  obtain ⟨hle, rfl⟩ := put_some h
  simp; omega

theorem put_in {out out' : Bytes} {base : Nat} {w : W} (h : put out base w = some out') (p : Nat) :
    out'[base + p]? = (if w.1 ≤ p then w.2[p - w.1]? else none).or out[base + p]? := by
  obtain ⟨hle, rfl⟩ := put_some h
  by_cases h1 : w.1 ≤ p
  · rw [if_pos h1]
    by_cases h2 : p < w.1 + w.2.length
    · rw [List.getElem?_append_left (by simp; omega), List.getElem?_append_right (by simp; omega)]
      have : base + p - (out.take (base + w.1)).length = p - w.1 := by simp; omega
      rw [this, List.getElem?_eq_getElem (show p - w.1 < w.2.length by omega)]
      rfl
    · rw [List.getElem?_append_right (by simp; omega), List.getElem?_eq_none (show w.2.length ≤ p - w.1 by omega), List.getElem?_drop]
      simp only [Option.none_or]
      congr 1
      simp; omega
  · rw [if_neg h1, List.append_assoc, List.getElem?_append_left (by simp; omega), List.getElem?_take_of_lt (by omega)]
    rfl

theorem put_out {out out' : Bytes} {base : Nat} {w : W} (h : put out base w = some out') (p : Nat)
    (hp : p < base + w.1 ∨ base + w.1 + w.2.length ≤ p) : out'[p]? = out[p]? := by
  obtain ⟨hle, rfl⟩ := put_some h
  rcases hp with hp | hp
  · rw [List.append_assoc, List.getElem?_append_left (by simp; omega), List.getElem?_take_of_lt (by omega)]
  · rw [List.getElem?_append_right (by simp; omega), List.getElem?_drop]
    congr 1
    simp; omega

theorem puts_length {ws : List W} : ∀ {out out' : Bytes} {base : Nat}, puts out base ws = some out' → out'.length = out.length := by
  induction ws with
  | nil => intro out out' base h; cases h; rfl
  | cons w ws ih =>
    intro out out' base h
    simp only [puts, Option.bind_eq_some_iff] at h
    obtain ⟨o, h1, h2⟩ := h
    rw [ih h2, put_length h1]

theorem puts_in {ws : List W} : ∀ {out out' : Bytes} {base : Nat}, puts out base ws = some out' → ∀ p, out'[base + p]? = (over ws p).or out[base + p]? := by
  induction ws with
  | nil => intro out out' base h p; cases h; rfl
  | cons w ws ih =>
    intro out out' base h p
    simp only [puts, Option.bind_eq_some_iff] at h
    obtain ⟨o, h1, h2⟩ := h
    rw [ih h2, put_in h1, over, Option.or_assoc]

theorem puts_out {ws : List W} {size : Nat} : ∀ {out out' : Bytes} {base : Nat}, puts out base ws = some out' → (∀ w ∈ ws, w.1 + w.2.length ≤ size) →
    ∀ p, (p < base ∨ base + size ≤ p) → out'[p]? = out[p]? := by
  induction ws with
  | nil => intro out out' base h _ p _; cases h; rfl
  | cons w ws ih =>
    intro out out' base h hw p hp
    simp only [puts, Option.bind_eq_some_iff] at h
    obtain ⟨o, h1, h2⟩ := h
    have := hw w (by simp)
    rw [ih h2 (fun w hw' => hw w (by simp [hw'])) p hp, put_out h1 p (by omega)]

theorem puts_some {ws : List W} {size : Nat} : ∀ {out : Bytes} {base : Nat}, (∀ w ∈ ws, w.1 + w.2.length ≤ size) → base + size ≤ out.length →
    ∃ out', puts out base ws = some out' := by
  induction ws with
  | nil => intro out base _ _; exact ⟨out, rfl⟩
  | cons w ws ih =>
    intro out base hw hb
    have := hw w (by simp)
    have h1 : put out base w = some (out.take (base + w.1) ++ w.2 ++ out.drop (base + w.1 + w.2.length)) := by
      rw [put, if_pos (by omega)]
    simp only [puts, h1, Option.bind_some]
    exact ih (fun w hw' => hw w (by simp [hw'])) (by rw [put_length h1]; exact hb)

theorem collect_mem {α : Type} {xs : List (Option (List α))} : ∀ {l : List α}, collect xs = some l →
    (∀ x ∈ xs, ∃ a, x = some a ∧ ∀ w ∈ a, w ∈ l) ∧ ∀ w ∈ l, ∃ a, some a ∈ xs ∧ w ∈ a := by
  induction xs with
  | nil => intro l h; cases h; exact ⟨by simp, by simp⟩
  | cons x xs ih =>
    intro l h
    simp only [collect, Option.bind_eq_some_iff, Option.map_eq_some_iff] at h
    obtain ⟨a, h1, b, h2, rfl⟩ := h
    obtain ⟨h3, h4⟩ := ih h2
    refine ⟨?_, ?_⟩
    · intro y hy
      rcases List.mem_cons.1 hy with rfl | hy
      · exact ⟨a, h1, fun w hw => by simp [hw]⟩
      · obtain ⟨c, h5, h6⟩ := h3 y hy
        exact ⟨c, h5, fun w hw => by simp [h6 w hw]⟩
    · intro w hw
      rcases List.mem_append.1 hw with hw | hw
      · exact ⟨a, by simp [h1], hw⟩
      · obtain ⟨c, h5, h6⟩ := h4 w hw
        exact ⟨c, by simp [h5], h6⟩

theorem collect_some {α : Type} {xs : List (Option (List α))} (h : ∀ x ∈ xs, ∃ a, x = some a) : ∃ l, collect xs = some l := by
  induction xs with
  | nil => exact ⟨[], rfl⟩
  | cons x xs ih =>
    obtain ⟨a, ha⟩ := h x (by simp)
    obtain ⟨b, hb⟩ := ih fun x hx => h x (by simp [hx])
    exact ⟨a ++ b, by simp [collect, ha, hb]⟩

theorem elem_some {buf e : Bytes} {pos len : Nat} (h : elem buf pos len = some e) : e = (buf.drop pos).take len ∧ pos + len ≤ buf.length ∧ e.length = len := by
  unfold elem at h
  split at h
  · rename_i hle
    cases h
    exact ⟨rfl, hle, by simp; omega⟩
  · cases h

/-- A write of element `i` of the field. -/
def ElemW (f : Field) (i : Nat) (w : W) : Prop := w.1 = f.offset + i * f.len ∧ w.2.length ≤ f.len

theorem setNum_elem {f : Field} {n i : Nat} {w : W} (h : w ∈ setNum f 0 n i) : ElemW f i w := by
  unfold setNum at h
  split at h
  · simp only [List.mem_singleton] at h
    subst h
    exact ⟨by simp, by simp⟩
  · cases h

theorem setFloat_elem {fl : Float} {g f : Field} {src : Bytes} {base i : Nat} {ws : List W} (h : setFloat fl g f src base i = some ws) :
    ∀ w ∈ ws, ElemW f i w := by
  unfold setFloat at h
  obtain ⟨e, _, h⟩ := Option.bind_eq_some_iff.1 h
  split at h
  · split at h
    · cases h
      intro w hw
      simp only [List.mem_singleton] at hw
      subst hw
      exact ⟨rfl, by simp⟩
    · cases h
  · cases h
    exact fun w hw => setNum_elem hw

theorem convElem_elem {v : Time.Env} {fl : Float} {g f : Field} {src : Bytes} {ib i : Nat} {ws : List W}
    (h : convElem v fl g f src ib i = some ws) : ∀ w ∈ ws, ElemW f i w := by
  unfold convElem at h
  split at h
  · obtain ⟨e, h1, rfl⟩ := Option.map_eq_some_iff.1 h
    intro w hw
    simp only [List.mem_singleton] at hw
    subst hw
    exact ⟨rfl, by rw [(elem_some h1).2.2]; exact Nat.min_le_right _ _⟩
  · cases h; simp
  · cases h; simp
  · cases h; simp
  · cases h; simp
  · exact setFloat_elem h
  · obtain ⟨n, _, rfl⟩ := Option.map_eq_some_iff.1 h
    exact fun w hw => setNum_elem hw
  · exact setFloat_elem h
  · exact setFloat_elem h
  · split at h
    · exact setFloat_elem h
    · obtain ⟨n, _, h⟩ := Option.bind_eq_some_iff.1 h
      split at h
      · obtain ⟨m, _, rfl⟩ := Option.map_eq_some_iff.1 h
        exact fun w hw => setNum_elem hw
      · cases h
        exact fun w hw => setNum_elem hw

theorem setNum_one (f : Field) (n i : Nat) : (setNum f 0 n i).length ≤ 1 := by
  unfold setNum; split <;> simp

theorem setFloat_one {fl : Float} {g f : Field} {src : Bytes} {base i : Nat} {ws : List W} (h : setFloat fl g f src base i = some ws) : ws.length ≤ 1 := by
  unfold setFloat at h
  obtain ⟨e, _, h⟩ := Option.bind_eq_some_iff.1 h
  split at h
  · split at h
    · cases h; simp
    · cases h
  · cases h; exact setNum_one _ _ _

theorem convElem_one {v : Time.Env} {fl : Float} {g f : Field} {src : Bytes} {ib i : Nat} {ws : List W}
    (h : convElem v fl g f src ib i = some ws) : ws.length ≤ 1 := by
  unfold convElem at h
  split at h
  · obtain ⟨e, h1, rfl⟩ := Option.map_eq_some_iff.1 h
    simp
  · cases h; simp
  · cases h; simp
  · cases h; simp
  · cases h; simp
  · exact setFloat_one h
  · obtain ⟨n, _, rfl⟩ := Option.map_eq_some_iff.1 h
    exact setNum_one _ _ _
  · exact setFloat_one h
  · exact setFloat_one h
  · split at h
    · exact setFloat_one h
    · obtain ⟨n, _, h⟩ := Option.bind_eq_some_iff.1 h
      split at h
      · obtain ⟨m, _, rfl⟩ := Option.map_eq_some_iff.1 h
        exact setNum_one _ _ _
      · cases h
        exact setNum_one _ _ _

theorem one_eq {α : Type} {l : List α} (h : l.length ≤ 1) {a b : α} (ha : a ∈ l) (hb : b ∈ l) : a = b := by
  match l, h with
  | [], _ => cases ha
  | [x], _ => simp at ha hb; rw [ha, hb]
  | _ :: _ :: _, h => simp at h

theorem same_elem {o i j len p m m' : Nat} (h1 : o + i * len ≤ p) (h2 : p < o + i * len + m) (h3 : o + j * len ≤ p) (h4 : p < o + j * len + m')
    (hm : m ≤ len) (hm' : m' ≤ len) : i = j := by
  rcases Nat.lt_trichotomy i j with h | h | h
  · have : (i + 1) * len ≤ j * len := Nat.mul_le_mul_right _ (by omega)
    rw [Nat.succ_mul] at this
    omega
  · exact h
  · have : (j + 1) * len ≤ i * len := Nat.mul_le_mul_right _ (by omega)
    rw [Nat.succ_mul] at this
    omega

theorem shift_unique {v : Time.Env} {fl : Float} {c : Conv} {src : Bytes} {ib : Nat} {ws : List W} (h : shift v fl c src ib = some ws)
    {w w' : W} (hw : w ∈ ws) (hw' : w' ∈ ws) {p : Nat} (hc : covers w p) (hc' : covers w' p) : w = w' := by
  unfold shift at h
  split at h
  · cases h; cases hw
  · rename_i g hg
    split at h
    · obtain ⟨a, h1, h2⟩ := (collect_mem h).2 w hw
      obtain ⟨i, hi, hia⟩ := List.mem_map.1 h1
      obtain ⟨a', h1', h2'⟩ := (collect_mem h).2 w' hw'
      obtain ⟨j, hj, hja⟩ := List.mem_map.1 h1'
      obtain ⟨h3, h4⟩ := convElem_elem hia w h2
      obtain ⟨h3', h4'⟩ := convElem_elem hja w' h2'
      obtain ⟨c1, c2⟩ := hc
      obtain ⟨c3, c4⟩ := hc'
      rw [h3] at c1 c2
      rw [h3'] at c3 c4
      have : i = j := same_elem c1 c2 c3 c4 h4 h4'
      subst this
      rw [hia] at hja
      cases hja
      exact one_eq (convElem_one hia) h2 h2'
    · obtain ⟨e, h1, rfl⟩ := Option.map_eq_some_iff.1 h
      simp at hw hw'
      rw [hw, hw']

/-- The transfers stay in their field. -/
theorem shift_in {v : Time.Env} {fl : Float} {c : Conv} {src : Bytes} {ib : Nat} {ws : List W} (h : shift v fl c src ib = some ws)
    (hc : c.conv = false → ∀ g, c.g = some g → g.len = c.f.len) :
    ∀ w ∈ ws, c.f.offset ≤ w.1 ∧ w.1 + w.2.length ≤ c.f.offset + c.f.len * c.f.count := by
  unfold shift at h
  split at h
  · cases h; simp
  · rename_i g hg
    split at h
    · intro w hw
      obtain ⟨a, h1, h2⟩ := (collect_mem h).2 w hw
      obtain ⟨i, hi, hia⟩ := List.mem_map.1 h1
      have hi' : i < min g.count c.f.count := by simpa using hi
      obtain ⟨h3, h4⟩ := convElem_elem hia w h2
      have : (i + 1) * c.f.len ≤ c.f.count * c.f.len := Nat.mul_le_mul_right _ (by omega)
      rw [Nat.succ_mul] at this
      rw [Nat.mul_comm c.f.len]
      omega
    · rename_i hcv
      obtain ⟨e, h1, rfl⟩ := Option.map_eq_some_iff.1 h
      intro w hw
      simp only [List.mem_singleton] at hw
      subst hw
      have h2 := (elem_some h1).2.2
      have h3 := hc (by simpa using hcv) g hg
      have : g.len * min g.count c.f.count ≤ c.f.len * c.f.count := by rw [h3]; exact Nat.mul_le_mul_left _ (Nat.min_le_right _ _)
      dsimp only
      omega

theorem matchOne_some {gdb : Db} {f : Field} {c : Conv} {b : Bool} (h : matchOne gdb f = some (c, b)) :
    c.f = f ∧ c.g = field gdb f.fname ∧ (c.conv = false → ∀ g, c.g = some g → g.len = f.len ∧ g.style = f.style) ∧
    (c.conv = true → ∃ g, c.g = some g ∧ (g.style ≠ f.style ∨ g.len ≠ f.len)) ∧
    (b = true ↔ ∃ g, c.g = some g ∧ ¬ (g.style = f.style ∧ g.len = f.len ∧ g.count = f.count)) := by
  unfold matchOne at h
  unfold field
  split at h
  · rename_i hn
    cases h
    exact ⟨rfl, by simp [hn], by simp, by simp, by simp⟩
  · rename_i a ha
    obtain ⟨g, hg, h⟩ := Option.map_eq_some_iff.1 h
    rw [ha, Option.bind_some, hg]
    by_cases h1 : g.style = f.style <;> by_cases h2 : g.len = f.len <;> by_cases h3 : g.count = f.count <;>
      simp [h1, h2, h3] at h <;> obtain ⟨rfl, rfl⟩ := h <;> simp [h1, h2, h3]

theorem matchLoop_spec {gdb fdb : Db} {rest : List (Bytes × Nat)} : ∀ {l l' : List (Bytes × Conv)} {ch ch' : Bool},
    matchLoop gdb fdb rest l ch = some (l', ch') →
    (∀ e ∈ rest, ∀ f, unit fdb e.2 = some f → sameN f.fname e.1 = true) →
    rest.Pairwise (fun e e' => sameN e.1 e'.1 = false) →
    (∀ x ∈ l, ∀ e ∈ rest, sameN x.1 e.1 = false) →
    (∀ c, c ∈ l'.map (·.2) ↔ c ∈ l.map (·.2) ∨ ∃ e ∈ rest, ∃ f b, unit fdb e.2 = some f ∧ matchOne gdb f = some (c, b)) ∧
    (ch' = true ↔ ch = true ∨ ∃ e ∈ rest, ∃ f c, unit fdb e.2 = some f ∧ matchOne gdb f = some (c, true)) ∧
    (∀ e ∈ rest, ∃ f c b, unit fdb e.2 = some f ∧ matchOne gdb f = some (c, b)) := by
  induction rest with
  | nil => intro l l' ch ch' h _ _ _; cases h; simp
  | cons e rest ih =>
    intro l l' ch ch' h hf hp hl
    simp only [matchLoop, Option.bind_eq_some_iff] at h
    obtain ⟨f, h1, ⟨c, b⟩, h2, h3⟩ := h
    have hfe := hf e (by simp) f h1
    have hset : setN l f.fname c = (l ++ [(f.fname, c)], none) := by
      rcases setN_spec l f.fname c with ⟨_, h⟩ | ⟨i, x, hx, hs, -⟩
      · exact h
      · exfalso
        have := hl x (List.mem_of_getElem? hx) e (by simp)
        rw [← Bool.not_eq_true, sameN_iff] at this
        rw [sameN_iff] at hs hfe
        exact this (hs.symm.trans hfe)
    rw [hset] at h3
    obtain ⟨hp1, hp2⟩ := List.pairwise_cons.1 hp
    have := ih h3 (fun e' he' => hf e' (by simp [he'])) hp2 (by
      intro x hx e' he'
      rcases List.mem_append.1 hx with hx | hx
      · exact hl x hx e' (by simp [he'])
      · simp only [List.mem_singleton] at hx
        subst hx
        have := hp1 e' he'
        rw [← Bool.not_eq_true, sameN_iff] at this ⊢
        rw [sameN_iff] at hfe
        exact fun h => this (hfe.symm.trans h))
    obtain ⟨h4, h5, h6⟩ := this
    refine ⟨?_, ?_, ?_⟩
    · intro c'
      rw [h4]
      simp only [List.map_append, List.mem_append, List.map_cons, List.map_nil, List.mem_singleton]
      simp only [List.mem_cons]
      constructor
      · rintro ((h | rfl) | ⟨e', he', r⟩)
        · exact .inl h
        · exact .inr ⟨e, .inl rfl, f, b, h1, h2⟩
        · exact .inr ⟨e', .inr he', r⟩
      · rintro (h | ⟨e', (rfl | he'), f', b', r1, r2⟩)
        · exact .inl (.inl h)
        · rw [h1] at r1; cases r1
          rw [h2] at r2; cases r2
          exact .inl (.inr rfl)
        · exact .inr ⟨e', he', f', b', r1, r2⟩
    · rw [h5, Bool.or_eq_true, or_assoc]
      apply or_congr_right
      simp only [List.mem_cons]
      constructor
      · rintro (rfl | ⟨e', he', r⟩)
        · exact ⟨e, .inl rfl, f, c, h1, h2⟩
        · exact ⟨e', .inr he', r⟩
      · rintro ⟨e', (rfl | he'), f', c', r1, r2⟩
        · rw [h1] at r1; cases r1
          rw [h2] at r2; cases r2
          exact .inl rfl
        · exact .inr ⟨e', he', f', c', r1, r2⟩
    · intro e' he'
      rcases List.mem_cons.1 he' with rfl | he'
      · exact ⟨f, c, b, h1, h2⟩
      · exact h6 e' he'

/-- The names of the table are short enough to be kept whole. -/
def Short (db : Db) : Prop := ∀ e ∈ db.fields, e.1.length ≤ 31

theorem lay_pairwise {heap fields off} (L : Lay heap fields off) : fields.Pairwise (fun e e' => sameN e.1 e'.1 = false) := by
  rw [List.pairwise_iff_getElem]
  intro i j hi hj hij
  exact (L.diff i j _ _ (List.getElem?_eq_getElem hi) (List.getElem?_eq_getElem hj) (by omega)).1

theorem lay_fname {db : Db} (L : Lay db.heap db.fields db.size) (hs : Short db) {e : Bytes × Nat} (he : e ∈ db.fields) {f : Field}
    (hf : unit db e.2 = some f) : sameN f.fname e.1 = true := by
  obtain ⟨i, hi⟩ := List.mem_iff_getElem?.1 he
  obtain ⟨f', h1, _, _, _, h2⟩ := L.live i e hi
  unfold unit at hf
  rw [h1] at hf; cases hf
  rw [List.take_of_length_le (hs e he)] at h2
  exact h2

theorem matchDb_spec {gdb fdb : Db} (L : Lay fdb.heap fdb.fields fdb.size) (hs : Short fdb) {cs : List (Bytes × Conv)} {ch : Bool}
    (h : matchDb gdb fdb = some (cs, ch)) :
    (∀ c, c ∈ cs.map (·.2) ↔ ∃ e ∈ fdb.fields, ∃ f b, unit fdb e.2 = some f ∧ matchOne gdb f = some (c, b)) ∧
    (ch = true ↔ (fdb.size ≠ gdb.size ∨ fdb.fields.length ≠ gdb.fields.length) ∨ ∃ e ∈ fdb.fields, ∃ f c, unit fdb e.2 = some f ∧ matchOne gdb f = some (c, true)) ∧
    (∀ e ∈ fdb.fields, ∃ f c b, unit fdb e.2 = some f ∧ matchOne gdb f = some (c, b)) := by
  unfold matchDb at h
  have := matchLoop_spec h (fun e he f hf => lay_fname L hs he hf) (lay_pairwise L) (by simp)
  obtain ⟨h1, h2, h3⟩ := this
  refine ⟨fun c => by rw [h1]; simp, by rw [h2]; simp, h3⟩

theorem matchDb_some {gdb fdb : Db} (G : Lay gdb.heap gdb.fields gdb.size) (L : Lay fdb.heap fdb.fields fdb.size) : ∃ r, matchDb gdb fdb = some r := by
  unfold matchDb
  have key : ∀ (rest : List (Bytes × Nat)) (l : List (Bytes × Conv)) (ch : Bool), (∀ e ∈ rest, e ∈ fdb.fields) → ∃ r, matchLoop gdb fdb rest l ch = some r := by
    intro rest
    induction rest with
    | nil => intro l ch _; exact ⟨_, rfl⟩
    | cons e rest ih =>
      intro l ch h
      obtain ⟨i, hi⟩ := List.mem_iff_getElem?.1 (h e (by simp))
      obtain ⟨f, h1, -⟩ := L.live i e hi
      have h1' : unit fdb e.2 = some f := h1
      have : ∃ c b, matchOne gdb f = some (c, b) := by
        unfold matchOne
        split
        · exact ⟨_, _, rfl⟩
        · rename_i a ha
          obtain ⟨j, e', h3, h4, _⟩ := getN_some ha
          obtain ⟨g, h5, -⟩ := G.live j e' h3
          have h6 : unit gdb a = some g := by rw [← h4]; exact h5
          rw [h6]
          exact ⟨_, _, rfl⟩
      obtain ⟨c, b, h2⟩ := this
      simp only [matchLoop, h1', h2, Option.bind_some]
      exact ih _ _ fun e' he' => h e' (by simp [he'])
  exact key _ _ _ fun e he => he

theorem mul_lt_apart {r i s : Nat} (h : r ≠ i) (p : Nat) (hp : p < s) : r * s + p < i * s ∨ i * s + s ≤ r * s + p := by
  rcases Nat.lt_or_gt_of_ne h with h | h
  · left
    have : (r + 1) * s ≤ i * s := Nat.mul_le_mul_right _ (by omega)
    rw [Nat.succ_mul] at this
    omega
  · right
    have : (i + 1) * s ≤ r * s := Nat.mul_le_mul_right _ (by omega)
    rw [Nat.succ_mul] at this
    omega

theorem owner_spec {v : Time.Env} {fl : Float} {gsize fsize : Nat} {cs : List (Bytes × Conv)} {src : Bytes}
    (hw : ∀ ib ws, collect (cs.map fun c => shift v fl c.2 src ib) = some ws → ∀ w ∈ ws, w.1 + w.2.length ≤ fsize) :
    ∀ (n i : Nat) (out out' : Bytes), owner v fl gsize fsize cs src n i out = some out' →
      out'.length = out.length ∧
      (∀ r, i ≤ r → r < i + n → ∃ ws, collect (cs.map fun c => shift v fl c.2 src (r * gsize)) = some ws ∧
        ∀ p, p < fsize → out'[r * fsize + p]? = (over ws p).or out[r * fsize + p]?) ∧
      ∀ r, (r < i ∨ i + n ≤ r) → ∀ p, p < fsize → out'[r * fsize + p]? = out[r * fsize + p]? := by
  intro n
  induction n with
  | zero => intro i out out' h; cases h; exact ⟨rfl, fun r h1 h2 => by omega, fun r _ p _ => rfl⟩
  | succ n ih =>
    intro i out out' h
    simp only [owner, Option.bind_eq_some_iff] at h
    obtain ⟨ws, h1, o, h2, h3⟩ := h
    obtain ⟨h4, h5, h6⟩ := ih (i + 1) o out' h3
    have hws := hw _ _ h1
    have hout : ∀ r, r ≠ i → ∀ p, p < fsize → o[r * fsize + p]? = out[r * fsize + p]? :=
      fun r hr p hp => puts_out h2 hws _ (mul_lt_apart hr p hp)
    refine ⟨by rw [h4, puts_length h2], ?_, ?_⟩
    · intro r hr1 hr2
      by_cases hr : r = i
      · subst hr
        refine ⟨ws, h1, fun p hp => ?_⟩
        rw [h6 r (by omega) p hp, puts_in h2]
      · obtain ⟨ws', h7, h8⟩ := h5 r (by omega) (by omega)
        exact ⟨ws', h7, fun p hp => by rw [h8 p hp, hout r hr p hp]⟩
    · intro r hr p hp
      rw [h6 r (by omega) p hp, hout r (by omega) p hp]

theorem owner_some {v : Time.Env} {fl : Float} {gsize fsize : Nat} {cs : List (Bytes × Conv)} {src : Bytes}
    (hw : ∀ ib ws, collect (cs.map fun c => shift v fl c.2 src ib) = some ws → ∀ w ∈ ws, w.1 + w.2.length ≤ fsize) :
    ∀ (n i : Nat) (out : Bytes), (∀ r, r < i + n → ∃ ws, collect (cs.map fun c => shift v fl c.2 src (r * gsize)) = some ws) →
      (i + n) * fsize ≤ out.length → ∃ out', owner v fl gsize fsize cs src n i out = some out' := by
  intro n
  induction n with
  | zero => intro i out _ _; exact ⟨out, rfl⟩
  | succ n ih =>
    intro i out h hl
    obtain ⟨ws, h1⟩ := h i (by omega)
    have h2 : (i + 1) * fsize ≤ out.length := Nat.le_trans (Nat.mul_le_mul_right _ (by omega)) hl
    rw [Nat.succ_mul] at h2
    obtain ⟨o, h3⟩ := puts_some (hw _ _ h1) h2
    simp only [owner, h1, h3, Option.bind_some]
    exact ih (i + 1) o (fun r hr => h r (by omega)) (by rw [puts_length h3]; have : i + 1 + n = i + (n + 1) := by omega
                                                        rw [this]; exact hl)

/-- The writes of a field of a record are those of its own transfer. -/
theorem over_field {v : Time.Env} {fl : Float} {gdb fdb : Db} (L : Lay fdb.heap fdb.fields fdb.size) (hs : Short fdb)
    {cs : List (Bytes × Conv)} {ch : Bool} (h : matchDb gdb fdb = some (cs, ch)) {src : Bytes} {ib : Nat} {ws : List W}
    (hw : collect (cs.map fun c => shift v fl c.2 src ib) = some ws) {i : Nat} {f : Field} (hf : fieldAt fdb i = some f) {c : Conv} {b : Bool}
    (hc : matchOne gdb f = some (c, b)) :
    ∃ a, shift v fl c src ib = some a ∧ (∀ w ∈ a, w ∈ ws) ∧
      ∀ q, q < f.len * f.count → ∀ w ∈ ws, covers w (f.offset + q) → w ∈ a := by
  obtain ⟨e, he, hfe⟩ := fieldAt_some.1 hf
  obtain ⟨m1, m2, m3⟩ := matchDb_spec L hs h
  have hmem : c ∈ cs.map (·.2) := (m1 c).2 ⟨e, List.mem_of_getElem? he, f, b, hfe, hc⟩
  obtain ⟨x, hx, hxc⟩ := List.mem_map.1 hmem
  obtain ⟨a, h1, h2⟩ := (collect_mem hw).1 (shift v fl c src ib) (List.mem_map.2 ⟨x, hx, by rw [hxc]⟩)
  refine ⟨a, h1, h2, ?_⟩
  intro q hq w hwm hcov
  obtain ⟨a', h3, h4⟩ := (collect_mem hw).2 w hwm
  obtain ⟨x', hx', hxa⟩ := List.mem_map.1 h3
  obtain ⟨e', he', f', b', hf', hc'⟩ := (m1 x'.2).1 (List.mem_map.2 ⟨x', hx', rfl⟩)
  obtain ⟨j, hj⟩ := List.mem_iff_getElem?.1 he'
  obtain ⟨hcf', _, hcl', _⟩ := matchOne_some hc'
  have hin := shift_in hxa (fun hcv g hg => by rw [hcf']; exact (hcl' hcv g hg).1) w h4
  rw [hcf'] at hin
  by_cases hij : i = j
  · subst hij
    rw [he] at hj; cases hj
    rw [hfe] at hf'; cases hf'
    rw [hc] at hc'; cases hc'
    rw [hxa] at h1; cases h1
    exact h4
  · exfalso
    have := L.apart i j e e' f f' he hj hij hfe hf'
    unfold covers at hcov
    omega

theorem all_in {v : Time.Env} {fl : Float} {gdb fdb : Db} (L : Lay fdb.heap fdb.fields fdb.size) (hs : Short fdb)
    {cs : List (Bytes × Conv)} {ch : Bool} (h : matchDb gdb fdb = some (cs, ch)) {src : Bytes} (ib : Nat) (ws : List W)
    (hw : collect (cs.map fun c => shift v fl c.2 src ib) = some ws) : ∀ w ∈ ws, w.1 + w.2.length ≤ fdb.size := by
  intro w hwm
  obtain ⟨m1, _, _⟩ := matchDb_spec L hs h
  obtain ⟨a', h3, h4⟩ := (collect_mem hw).2 w hwm
  obtain ⟨x', hx', hxa⟩ := List.mem_map.1 h3
  obtain ⟨e', he', f', b', hf', hc'⟩ := (m1 x'.2).1 (List.mem_map.2 ⟨x', hx', rfl⟩)
  obtain ⟨j, hj⟩ := List.mem_iff_getElem?.1 he'
  obtain ⟨hcf', _, hcl', _⟩ := matchOne_some hc'
  have hin := shift_in hxa (fun hcv g hg => by rw [hcf']; exact (hcl' hcv g hg).1) w h4
  rw [hcf'] at hin
  obtain ⟨f'', h5, h6, -⟩ := L.live j e' hj
  have : unit fdb e'.2 = some f'' := h5
  rw [hf'] at this; cases this
  omega

/-- A byte of a field of a converted record. -/
theorem convert_byte {v : Time.Env} {fl : Float} {gdb fdb : Db} (L : Lay fdb.heap fdb.fields fdb.size) (hs : Short fdb)
    {cs : List (Bytes × Conv)} (h : matchDb gdb fdb = some (cs, true)) {src out out' : Bytes} (hcv : convert v fl gdb fdb src out = some (0, out'))
    {r : Nat} (hr : r < src.length / gdb.size) {i : Nat} {f : Field} (hf : fieldAt fdb i = some f) :
    ∃ c b a, matchOne gdb f = some (c, b) ∧ shift v fl c src (r * gdb.size) = some a ∧
      ∀ q, q < f.len * f.count →
        (∀ w ∈ a, covers w (f.offset + q) → out'[r * fdb.size + f.offset + q]? = w.2[f.offset + q - w.1]?) ∧
        ((∀ w ∈ a, ¬ covers w (f.offset + q)) → out'[r * fdb.size + f.offset + q]? = some 0) := by
  unfold convert at hcv
  rw [h, Option.bind_some] at hcv
  dsimp only at hcv
  split at hcv
  · cases hcv
  split at hcv
  · cases hcv
  split at hcv
  · cases hcv
  split at hcv
  · cases hcv
  rename_i h1 h2 h3 h4
  rw [if_pos rfl] at hcv
  obtain ⟨o, ho, hoo⟩ := Option.map_eq_some_iff.1 hcv
  cases hoo
  obtain ⟨h5, h6, h7⟩ := owner_spec (all_in L hs h) _ _ _ _ ho
  obtain ⟨ws, h8, h9⟩ := h6 r (by omega) (by omega)
  obtain ⟨e, he, hfe⟩ := fieldAt_some.1 hf
  obtain ⟨m1, _, m3⟩ := matchDb_spec L hs h
  obtain ⟨f', c, b, h10, h11⟩ := m3 e (List.mem_of_getElem? he)
  rw [hfe] at h10; cases h10
  obtain ⟨a, h12, h13, h14⟩ := over_field L hs h h8 hf h11
  refine ⟨c, b, a, h11, h12, fun q hq => ?_⟩
  obtain ⟨f'', h15, h16, -⟩ := L.live i e he
  have : unit fdb e.2 = some f'' := h15
  rw [hfe] at this; cases this
  rw [Nat.add_assoc, h9 _ (by omega)]
  have hz : (List.replicate out.length (0 : UInt8))[r * fdb.size + (f.offset + q)]? = some 0 := by
    rw [List.getElem?_replicate, if_pos]
    have hlen : (src.length / gdb.size) * fdb.size = out.length := by
      rcases Nat.decEq (src.length / gdb.size * fdb.size) out.length with hne | he
      · exact absurd hne h4
      · exact he
    rw [← hlen]
    have : (r + 1) * fdb.size ≤ src.length / gdb.size * fdb.size := Nat.mul_le_mul_right _ (by omega)
    rw [Nat.succ_mul] at this
    omega
  rw [hz]
  refine ⟨fun w hw hc => ?_, fun hno => ?_⟩
  · rw [over_mem (h13 w hw) hc fun w' hw' hc' => shift_unique h12 (h14 q hq w' hw' hc') hw hc' hc]
    unfold covers at hc
    rw [List.getElem?_eq_getElem (by omega)]
    rfl
  · rw [over_none fun w hw hc => hno w (h14 q hq w hw hc) hc]
    rfl

theorem slot_get {size : Nat} {buf : Bytes} {r : Nat} {f : Field} {e b : Nat} (hb : b < f.len) :
    (slot size buf r f e)[b]? = buf[r * size + f.offset + (e * f.len + b)]? := by
  unfold slot
  rw [List.getElem?_take_of_lt hb, List.getElem?_drop]
  congr 1; omega

theorem slot_len (size : Nat) (buf : Bytes) (r : Nat) (f : Field) (e : Nat) : (slot size buf r f e).length ≤ f.len := by
  unfold slot; simp; omega

/-- The bytes of an element decide it. -/
theorem slot_ext {size : Nat} {buf : Bytes} {r : Nat} {f : Field} {e : Nat} {l : Bytes} (hl : l.length = f.len)
    (h : ∀ b, b < f.len → buf[r * size + f.offset + (e * f.len + b)]? = l[b]?) : slot size buf r f e = l := by
  apply List.ext_getElem?
  intro b
  by_cases hb : b < f.len
  · rw [slot_get hb, h b hb]
  · rw [List.getElem?_eq_none (by have := slot_len size buf r f e; omega), List.getElem?_eq_none (by omega)]

theorem elem_lt {e b len count : Nat} (he : e < count) (hb : b < len) : e * len + b < len * count := by
  have : (e + 1) * len ≤ count * len := Nat.mul_le_mul_right _ (by omega)
  rw [Nat.succ_mul] at this
  rw [Nat.mul_comm len]
  omega

/-- What `convert_byte` says of the bytes of a field. -/
def Bytewise (a : List W) (size : Nat) (out : Bytes) (r : Nat) (f : Field) : Prop :=
  ∀ q, q < f.len * f.count →
    (∀ w ∈ a, covers w (f.offset + q) → out[r * size + f.offset + q]? = w.2[f.offset + q - w.1]?) ∧
    ((∀ w ∈ a, ¬ covers w (f.offset + q)) → out[r * size + f.offset + q]? = some 0)

theorem slot_zero {a : List W} {size : Nat} {out : Bytes} {r : Nat} {f : Field} (hB : Bytewise a size out r f) {e : Nat} (he : e < f.count)
    (hno : ∀ w ∈ a, ∀ b, b < f.len → ¬ covers w (f.offset + (e * f.len + b))) : slot size out r f e = List.replicate f.len 0 := by
  apply slot_ext (by simp)
  intro b hb
  rw [(hB _ (elem_lt he hb)).2 fun w hw => hno w hw b hb, List.getElem?_replicate, if_pos hb]

theorem slot_write {a : List W} {size : Nat} {out : Bytes} {r : Nat} {f : Field} (hB : Bytewise a size out r f) {e : Nat} (he : e < f.count)
    {bs : Bytes} (hm : (f.offset + e * f.len, bs) ∈ a) (hbs : bs.length ≤ f.len)
    (hu : ∀ w ∈ a, ∀ b, b < f.len → covers w (f.offset + (e * f.len + b)) → w = (f.offset + e * f.len, bs)) :
    slot size out r f e = bs ++ List.replicate (f.len - bs.length) 0 := by
  apply slot_ext (by simp; omega)
  intro b hb
  have hq := hB _ (elem_lt he hb)
  by_cases hbb : b < bs.length
  · rw [hq.1 _ hm ⟨by dsimp only; omega, by dsimp only; omega⟩, List.getElem?_append_left hbb]
    dsimp only
    congr 1; omega
  · have hno : ∀ w ∈ a, ¬ covers w (f.offset + (e * f.len + b)) := by
      intro w hw hc
      have := hu w hw b hb hc
      subst this
      obtain ⟨_, h⟩ := hc
      dsimp only at h
      omega
    rw [hq.2 hno, List.getElem?_append_right (by omega), List.getElem?_replicate, if_pos (by omega)]

/-- What becomes of the elements of a field that is converted one by one. -/
theorem slot_conv {v : Time.Env} {fl : Float} {c : Conv} {g : Field} {src : Bytes} {ib : Nat} {a : List W} {size : Nat} {out : Bytes} {r : Nat}
    (hg : c.g = some g) (hcv : c.conv = true) (h : shift v fl c src ib = some a) (hB : Bytewise a size out r c.f) :
    (∀ e, g.count ≤ e → e < c.f.count → slot size out r c.f e = List.replicate c.f.len 0) ∧
    ∀ e, e < min g.count c.f.count → ∃ ws, convElem v fl g c.f src ib e = some ws ∧
      (ws = [] → slot size out r c.f e = List.replicate c.f.len 0) ∧
      ∀ bs, ws = [(c.f.offset + e * c.f.len, bs)] → slot size out r c.f e = bs ++ List.replicate (c.f.len - bs.length) 0 := by
  have hsh := h
  unfold shift at h
  rw [hg] at h
  dsimp only at h
  rw [if_pos hcv] at h
  have hof : ∀ w ∈ a, ∀ e b, b < c.f.len → covers w (c.f.offset + (e * c.f.len + b)) →
      e < min g.count c.f.count ∧ ∃ ws, convElem v fl g c.f src ib e = some ws ∧ w ∈ ws := by
    intro w hw e b hb hc
    obtain ⟨ws, h1, h2⟩ := (collect_mem h).2 w hw
    obtain ⟨i, hi, hia⟩ := List.mem_map.1 h1
    obtain ⟨h3, h4⟩ := convElem_elem hia w h2
    obtain ⟨c1, c2⟩ := hc
    rw [h3] at c1 c2
    have : i = e := same_elem (p := c.f.offset + (e * c.f.len + b)) (m' := c.f.len) c1 c2 (by omega) (by omega) h4 (Nat.le_refl _)
    subst this
    exact ⟨by simpa using hi, ws, hia, h2⟩
  refine ⟨?_, ?_⟩
  · intro e h1 h2
    apply slot_zero hB h2
    intro w hw b hb hc
    have := (hof w hw e b hb hc).1
    omega
  · intro e he
    obtain ⟨ws, h1, h2⟩ := (collect_mem h).1 (convElem v fl g c.f src ib e) (List.mem_map.2 ⟨e, by simpa using he, rfl⟩)
    refine ⟨ws, h1, ?_, ?_⟩
    · rintro rfl
      apply slot_zero hB (by omega)
      intro w hw b hb hc
      obtain ⟨_, ws', h3, h4⟩ := hof w hw e b hb hc
      rw [h1] at h3; cases h3
      cases h4
    · rintro bs rfl
      have hel := convElem_elem h1 (c.f.offset + e * c.f.len, bs) (by simp)
      apply slot_write hB (by omega) (h2 _ (by simp)) hel.2
      intro w hw b hb hc
      obtain ⟨_, ws', h3, h4⟩ := hof w hw e b hb hc
      rw [h1] at h3; cases h3
      simpa using h4

/-- What becomes of the elements of a field that is copied. -/
theorem slot_copy {v : Time.Env} {fl : Float} {c : Conv} {g : Field} {src : Bytes} {gsize : Nat} {a : List W} {size : Nat} {out : Bytes} {r : Nat}
    (hg : c.g = some g) (hcv : c.conv = false) (hlen : g.len = c.f.len) (h : shift v fl c src (r * gsize) = some a) (hB : Bytewise a size out r c.f) :
    (∀ e, g.count ≤ e → e < c.f.count → slot size out r c.f e = List.replicate c.f.len 0) ∧
    ∀ e, e < min g.count c.f.count → slot size out r c.f e = slot gsize src r g e := by
  unfold shift at h
  rw [hg] at h
  dsimp only at h
  rw [if_neg (by rw [hcv]; simp)] at h
  obtain ⟨bs, h1, rfl⟩ := Option.map_eq_some_iff.1 h
  obtain ⟨h2, h3, h4⟩ := elem_some h1
  refine ⟨?_, ?_⟩
  · intro e he1 he2
    apply slot_zero hB he2
    intro w hw b hb hc
    simp only [List.mem_singleton] at hw
    subst hw
    obtain ⟨_, c2⟩ := hc
    dsimp only at c2
    rw [h4, hlen] at c2
    have : min g.count c.f.count * c.f.len ≤ e * c.f.len := Nat.mul_le_mul_right _ (by omega)
    rw [Nat.mul_comm] at this
    omega
  · intro e he
    have hsl : (slot gsize src r g e).length = c.f.len := by
      have h5 := elem_lt (b := 0) (len := g.len) (e := e) (count := min g.count c.f.count) he
      have h6 : (e + 1) * g.len ≤ min g.count c.f.count * g.len := Nat.mul_le_mul_right _ (by omega)
      rw [Nat.succ_mul] at h6
      rw [Nat.mul_comm g.len] at h3
      unfold slot
      simp; omega
    apply slot_ext hsl
    intro b hb
    have hlt : e * c.f.len + b < bs.length := by
      rw [h4, hlen]; exact elem_lt he hb
    rw [slot_get (by omega)]
    rw [(hB _ (elem_lt (by omega) hb)).1 (c.f.offset, bs) (by simp) ⟨by dsimp only; omega, by dsimp only; omega⟩]
    dsimp only
    rw [h2, List.getElem?_take_of_lt (by rw [h4] at hlt; omega), List.getElem?_drop, hlen]
    congr 1; omega

end Sis.Dyn
