import Verif.Csv.ReadLemmas
import Verif.Rec.PickLemmas
/-
Helper facts: the lines made of records.
-/
namespace Sis.Csv
open Sis
open Sis.Dyn (Db Field St slot num elem Made)
open Sis.Rec (Fl Val Counts Texted decInt dec valOf valsOf FieldsAre)

theorem digits_dec (v : Nat) : (digits v).reverse = dec v := by
  induction v using Nat.strongRecOn with
  | ind v ih =>
    rw [digits, Rec.dec]
    by_cases h : v < 10
    · rw [if_pos h, if_pos h, Nat.mod_eq_of_lt h]; rfl
    · rw [if_neg h, if_neg h, List.reverse_cons, ih _ (by omega)]

theorem ll2str_dec {v : Int} (h : -2 ^ 63 < v) : ll2str v = some (decInt v) := by
  rw [ll2str, if_neg (by omega), List.reverse_append, digits_dec, decInt]
  by_cases h0 : v < 0
  · rw [if_pos h0, if_pos h0]; rfl
  · rw [if_neg h0, if_neg h0]
    have : v.natAbs = v.toNat := by omega
    rw [this]; rfl

/-- A column added to a text. -/
def putCell (o t : Bytes) : Bytes := o ++ sep o ++ t

theorem sep_length (o : Bytes) : (sep o).length ≤ 1 := by
  rw [sep]; split <;> simp

theorem cstr_zeros {s : Bytes} (h : ∀ c ∈ s, c ≠ 0) (k : Nat) : Json.cstrOf (s ++ List.replicate k 0) = s := by
  unfold Json.cstrOf
  rw [List.takeWhile_append_of_pos fun c hc => by simpa using h c hc]
  cases k <;> simp [List.replicate_succ]

theorem makeStr_zeros {o s : Bytes} {k n : Nat} (h : ∀ c ∈ s, c ≠ 0) (hn : 1 ≤ n) (hl : s.length + k = n) :
    makeStr o (s ++ List.replicate k 0) n = some (putCell o s) := by
  rw [makeStr, if_neg (by omega)]
  cases k with
  | zero =>
    have hlt : n - 1 < s.length := by omega
    have : (s ++ List.replicate 0 0)[n - 1]? = some s[n - 1] := by
      rw [List.replicate_zero, List.append_nil, List.getElem?_eq_getElem hlt]
    rw [this]
    simp only
    rw [if_neg (h _ (List.getElem_mem hlt))]
    simp [putCell, ← hl]
  | succ k =>
    have : (s ++ List.replicate (k + 1) 0)[n - 1]? = some 0 := by
      rw [List.getElem?_append_right (by omega), List.getElem?_replicate, if_pos (by omega)]
    rw [this]
    simp only [if_true, cstr_zeros h]
    rfl

theorem valOf_counts {fl : Fl} {f : Field} {b : Bytes} (hc : Counts f) : valOf fl f b = .num (num f b) := by
  unfold valOf
  rw [if_neg, if_neg]
  · rcases hc.1 with h | h | h | h | h | h <;> simp [h]
  · rcases hc.1 with h | h | h | h | h | h <;> simp [h]

theorem cell_val {fl : Fl} {f : Field} {size : Nat} {buf : Bytes} {r e : Nat} (h : (r + 1) * size ≤ buf.length)
    (hf : f.offset + f.len * f.count ≤ size) (hl1 : 1 ≤ f.len) (he : e < f.count) (hv : Shows fl f (slot size buf r f e)) (o : Bytes) :
    cell fl f buf (r * size) e o = some (putCell o (shown (valOf fl f (slot size buf r f e)))) := by
  have hel := Rec.elem_slot h hf he
  rcases hv with ⟨hc, hmin⟩ | ⟨hc, s, k, hs, hb⟩ | ⟨hc, hl, h14, h10⟩
  · have hi := Rec.intLen_counts hc
    rw [valOf_counts hc]
    have hn : f.style ≠ .int → (Dyn.getUint f buf (r * size) e).map (makeUint o) = some (putCell o (shown (.num (num f (slot size buf r f e))))) := by
      intro h1
      have hu : num f (slot size buf r f e) = (leVal (slot size buf r f e) : Int) := by unfold num; rw [if_neg (fun h2 => h1 h2.1)]
      rw [Dyn.getUint, if_pos hi, hel, hu]
      simp only [Option.map_some, makeUint, ull2str, digits_dec, putCell, shown, decInt]
      rw [if_neg (by omega)]
      simp
    unfold cell
    rcases hc.1 with h1 | h1 | h1 | h1 | h1 | h1
    · simp only [h1, Dyn.getInt, hi, if_true, hel]
      rw [Option.map_some, Rec.signed_num h1 hl1, Option.bind_some, makeInt, ll2str_dec hmin]
      rfl
    all_goals
      simp only [h1]
      exact hn (by rw [h1]; nofun)
  · have hlen := Rec.slot_length h hf he
    have hval : valOf fl f (slot size buf r f e) = .text s := by
      have h1 : valOf fl f (slot size buf r f e) = .text ((slot size buf r f e).takeWhile (· ≠ 0)) := by
        unfold valOf; simp [hc]
      rw [h1, hb]
      congr 1
      have := cstr_zeros (fun c hc => (hs c hc).1) k
      unfold Json.cstrOf at this
      rw [← this]
      congr 1
      · funext c; simp [bne]; rfl
      · rw [this]
    rw [hval, cell]
    simp only [hc, hel, Option.bind_some]
    rw [hb] at hlen ⊢
    exact makeStr_zeros (fun c hc => (hs c hc).1) hl1 (by simpa using hlen)
  · have hval : valOf fl f (slot size buf r f e) = .raw (fl.toText f (slot size buf r f e)) := by
      unfold valOf; rw [if_pos hc]
    rw [hval]
    have : cell fl f buf (r * size) e o = some (makeDouble o (fl.toText f (slot size buf r f e))) := by
      rcases hc with h1 | h1 <;> simp only [cell, h1, hel, Option.map_some]
    rw [this, makeDouble, List.take_of_length_le]
    · simp [putCell, shown]
    · have := sep_length o
      simp; omega

/-- Columns added to a text. -/
def putCells (o : Bytes) (ts : List Bytes) : Bytes := ts.foldl putCell o

theorem cells_val {fl : Fl} {f : Field} {size : Nat} {buf : Bytes} {r : Nat} (h : (r + 1) * size ≤ buf.length)
    (hf : f.offset + f.len * f.count ≤ size) (hl1 : 1 ≤ f.len) : ∀ (todo i : Nat) (o : Bytes), i + todo ≤ f.count →
    (∀ e, i ≤ e → e < i + todo → Shows fl f (slot size buf r f e)) →
    cells fl f buf (r * size) todo i o = some (putCells o ((List.range' i todo).map fun e => shown (valOf fl f (slot size buf r f e)))) := by
  intro todo
  induction todo with
  | zero => intro i o _ _; rfl
  | succ n ih =>
    intro i o hi hv
    rw [cells, cell_val h hf hl1 (by omega) (hv i (by omega) (by omega)), Option.bind_some,
      ih (i + 1) _ (by omega) (fun e h1 h2 => hv e (by omega) (by omega)), List.range'_succ]
    rfl

theorem line_val {fl : Fl} {size : Nat} {buf : Bytes} {r : Nat} (h : (r + 1) * size ≤ buf.length) : ∀ (fs : List Field) (o : Bytes),
    (∀ f ∈ fs, f.offset + f.len * f.count ≤ size ∧ 1 ≤ f.len ∧ ∀ e, e < f.count → Shows fl f (slot size buf r f e)) →
    line fl buf (r * size) (fs.map some) o = some (putCells o ((valsOf fl fs size buf r).map shown)) := by
  intro fs
  induction fs with
  | nil => intro o _; rfl
  | cons f fs ih =>
    intro o hf
    obtain ⟨h1, h2, h3⟩ := hf f (by simp)
    rw [List.map_cons, line, cells_val h h1 h2 f.count 0 o (by omega) (fun e _ he => h3 e (by omega)), Option.bind_some,
      ih _ (fun g hg => hf g (by simp [hg]))]
    simp [putCells, valsOf, List.range_eq_range', List.map_map, Function.comp_def]

/-- A text that stands behind the end of a line. -/
def AtStart (o : Bytes) : Prop := o = [] ∨ o.getLast? = some 10

theorem sep_start {o : Bytes} (h : AtStart o) : sep o = [] := by
  rw [sep, if_neg]
  rintro ⟨h1, h2⟩
  rcases h with rfl | h
  · simp at h1
  · exact h2 h

theorem sep_more {o t : Bytes} (ht : t ≠ []) (h10 : (10 : UInt8) ∉ t) : sep (o ++ t) = [44] := by
  rw [sep, if_pos]
  refine ⟨by rw [List.length_append]; have := List.length_pos_iff.2 ht; omega, ?_⟩
  rw [List.getLast?_append]
  cases hg : t.getLast? with
  | none => exact absurd (List.getLast?_eq_none_iff.1 hg) ht
  | some x =>
    intro hx
    have : x = 10 := by simpa using hx
    exact h10 (this ▸ List.mem_of_getLast? hg)

theorem putCells_more : ∀ (ts : List Bytes) (o t : Bytes), t ≠ [] → (10 : UInt8) ∉ t → (∀ x ∈ ts, (10 : UInt8) ∉ x) →
    putCells (o ++ t) ts = o ++ t ++ ts.flatMap fun x => 44 :: x := by
  intro ts
  induction ts with
  | nil => intro o t _ _ _; simp [putCells]
  | cons x ts ih =>
    intro o t ht h10 hx
    have hx1 := hx x (by simp)
    have := ih (o ++ t) (44 :: x) (by simp) (by simp [hx1]) (fun y hy => hx y (by simp [hy]))
    rw [putCells, List.foldl_cons, putCell, sep_more ht h10]
    show putCells _ ts = _
    have he : o ++ t ++ [44] ++ x = o ++ t ++ 44 :: x := by simp
    rw [he, this]
    simp

theorem join_more (t : Bytes) (ts : List Bytes) : join 44 (t :: ts) = t ++ ts.flatMap fun x => 44 :: x := by
  induction ts generalizing t with
  | nil => simp [join]
  | cons x ts ih => rw [join, ih]; simp; nofun

theorem putCells_start {o : Bytes} (ho : AtStart o) {t : Bytes} {ts : List Bytes} (ht : t ≠ []) (h : ∀ x ∈ t :: ts, (10 : UInt8) ∉ x) :
    putCells o (t :: ts) = o ++ join 44 (t :: ts) := by
  rw [putCells, List.foldl_cons, putCell, sep_start ho, List.append_nil]
  have := putCells_more ts o t ht (h t (by simp)) (fun x hx => h x (by simp [hx]))
  rw [putCells] at this
  rw [this, join_more]
  simp

theorem end_start (o : Bytes) : AtStart (makeEnd o) := by
  right; simp [makeEnd]

/-- The columns of a line that is made as it is meant to be. -/
def LineOk (ts : List Bytes) : Prop := (∃ t r, ts = t :: r ∧ t ≠ []) ∧ ∀ x ∈ ts, (10 : UInt8) ∉ x

theorem putCells_line {o : Bytes} (ho : AtStart o) {ts : List Bytes} (h : LineOk ts) : putCells o ts = o ++ join 44 ts := by
  obtain ⟨⟨t, r, rfl, ht⟩, h2⟩ := h
  exact putCells_start ho ht h2

theorem lines_val {fl : Fl} {fs : List Field} {size : Nat} {buf : Bytes} (hf : ∀ f ∈ fs, f.offset + f.len * f.count ≤ size ∧ 1 ≤ f.len) :
    ∀ (todo r : Nat) (o : Bytes), AtStart o → (r + todo) * size ≤ buf.length →
    (∀ r', r ≤ r' → r' < r + todo → (∀ f ∈ fs, ∀ e, e < f.count → Shows fl f (slot size buf r' f e)) ∧
      LineOk ((valsOf fl fs size buf r').map shown)) →
    lines fl (fs.map some) size buf todo r o =
      some (o ++ textOf 44 [13, 10] ((List.range' r todo).map fun r' => (valsOf fl fs size buf r').map shown)) := by
  intro todo
  induction todo with
  | zero => intro r o _ _ _; simp [lines, textOf]
  | succ n ih =>
    intro r o ho hb hv
    have hb1 : (r + 1) * size ≤ buf.length := Nat.le_trans (Nat.mul_le_mul_right _ (by omega)) hb
    obtain ⟨v1, v2⟩ := hv r (by omega) (by omega)
    rw [lines, line_val hb1 fs o (fun f hf' => ⟨(hf f hf').1, (hf f hf').2, v1 f hf'⟩), Option.bind_some,
      ih (r + 1) _ (end_start _) (by rw [show r + 1 + n = r + (n + 1) by omega]; exact hb) (fun r' h1 h2 => hv r' (by omega) (by omega)),
      putCells_line ho v2]
    simp [List.range'_succ, textOf, makeEnd]

theorem names_val : ∀ (ns : List Bytes) (o : Bytes), (∀ n ∈ ns, n ≠ [] ∧ ∀ c ∈ n, c ≠ 0) → names ns o = some (putCells o ns) := by
  intro ns
  induction ns with
  | nil => intro o _; rfl
  | cons n ns ih =>
    intro o h
    obtain ⟨h1, h2⟩ := h n (by simp)
    have hl := List.length_pos_iff.2 h1
    have : makeStr o (n ++ [0]) n.length = some (putCell o n) := by
      have hlt : n.length - 1 < n.length := by omega
      rw [makeStr, if_neg (by omega), List.getElem?_append_left hlt, List.getElem?_eq_getElem hlt]
      simp only
      rw [if_neg (h2 _ (List.getElem_mem hlt))]
      simp [putCell]
    rw [names, this, Option.bind_some, ih _ (fun m hm => h m (by simp [hm]))]
    rfl

theorem head_val : ∀ (fs : List Field) (o : Bytes), (∀ f ∈ fs, ∀ n ∈ nameCells f, n ≠ [] ∧ ∀ c ∈ n, c ≠ 0) →
    head (fs.map some) o = some (makeEnd (putCells o (fs.flatMap nameCells))) := by
  intro fs
  induction fs with
  | nil => intro o _; rfl
  | cons f fs ih =>
    intro o h
    rw [List.map_cons, head, names_val _ _ (h f (by simp)), Option.bind_some, ih _ (fun g hg => h g (by simp [hg]))]
    simp [putCells]

theorem nameCells_heads {fs : List Field} (h : ∀ f ∈ fs, 1 ≤ f.count ∧ f.count ≤ 65536 ∧ f.fname.length ≤ 31) : fs.flatMap nameCells = heads fs := by
  unfold heads
  apply List.flatMap_congr
  intro f hf
  obtain ⟨h1, h2, h3⟩ := h f hf
  unfold nameCells
  have hn : ∀ e, e < f.count → Rec.nameOf f e = Rec.elemName f e := fun e he => Rec.nameOf_elem h3 (by omega)
  unfold Rec.nameOf at hn
  split
  · rename_i hc
    apply List.map_congr_left
    intro e he
    have := hn e (by simpa using he)
    rwa [if_pos hc] at this
  · rename_i hc
    have : f.count = 1 := by omega
    rw [this]
    simp [Rec.elemName, this]

end Sis.Csv
