import Verif.Io.StepLemmas
import Verif.Csv.CsvTheorems
/-
Lemmas on formats: what the records of a series are shown as, all columns of them or some.
-/
namespace Sis.Io
open Sis
open Sis.Dyn (Db Field slot getN)
open Sis.Rec

/-- What a buffer of records holds. -/
structure BufOf (fl : Fl) (cols : List Col) (size : Nat) (buf : Bytes) (rows : List (List Val)) : Prop where
  length : buf.length = rows.length * size
  holds : ∀ (r : Nat) (row : List Val), rows[r]? = some row → row.length = cols.length ∧ ∀ (i : Nat) (f : Field), (layout 0 cols)[i]? = some f →
    ∃ v, row[i]? = some v ∧ Exact fl f v ∧ slot size buf r f 0 = target fl f (some v)

theorem recs_buf {fl : Fl} {cols : List Col} {j : Nat} {db : Db} (ht : Tab cols j db) {recs : List Bytes} {rows : List (List Val)}
    (h : List.Forall₂ (IsRec fl cols j db) recs rows) : BufOf fl cols db.size recs.flatten rows := by
  have hlen : ∀ x ∈ recs, x.length = db.size := by
    intro x hx
    obtain ⟨i, hi, rfl⟩ := List.getElem_of_mem hx
    exact ((List.forall₂_iff_get.1 h).2 i hi (by rw [← h.length_eq]; exact hi)).length
  constructor
  · rw [← h.length_eq]
    clear h
    induction recs with
    | nil => simp
    | cons x recs ih =>
      rw [List.flatten_cons, List.length_append, ih fun x hx => hlen x (by simp [hx]), hlen x (by simp), List.length_cons, Nat.succ_mul, Nat.add_comm]
  · intro r row hrow
    obtain ⟨hr, he⟩ := List.getElem?_eq_some_iff.1 hrow
    have hr' : r < recs.length := by rw [h.length_eq]; exact hr
    have hrec := (List.forall₂_iff_get.1 h).2 r hr' hr
    simp only [List.get_eq_getElem, he] at hrec
    refine ⟨hrec.row.length, fun i f hf => ?_⟩
    have hi : i < row.length := by
      rw [hrec.row.length, ← layout_length cols 0]
      exact (List.getElem?_eq_some_iff.1 hf).1
    have hfit := layout_fits ht f (List.mem_of_getElem? hf)
    refine ⟨_, List.getElem?_eq_getElem hi, hrec.row.exact i f _ hf (List.getElem?_eq_getElem hi), ?_⟩
    rw [slot_flatten hlen (List.getElem?_eq_getElem hr') hfit.2 hfit.1]
    exact hrec.holds i f _ hf (List.getElem?_eq_getElem hi)

theorem shows_target {fl : Fl} {f : Field} {v : Val} (h : Exact fl f v) (hv : ∀ t, v = .raw t → t.length ≤ 14) : Csv.Shows fl f (target fl f (some v)) := by
  obtain ⟨h, h2⟩ := h
  have hh := holds_target h
  cases v with
  | num n =>
    refine .inl ⟨h.1, ?_⟩
    rw [show Dyn.num f (target fl f (some (.num n))) = n from hh]
    exact h2
  | text s =>
    have hh : target fl f (some (.text s)) = s.take f.len ++ List.replicate (f.len - s.length) 0 := hh
    refine .inr (.inl ⟨h.1, s.take f.len, f.len - s.length, ?_, hh⟩)
    intro c hc
    have := (h.2 c (List.mem_of_mem_take hc)).1
    constructor
    · rintro rfl; revert this; decide
    · rintro rfl; revert this; decide
  | raw t =>
    have h2 : fl.toText f (leBytes f.len (fl.ofText f t)) = t := h2
    have ht : target fl f (some (.raw t)) = leBytes f.len (fl.ofText f t) := by
      rcases h.1 with e | e <;> simp only [target, e, content]
    refine .inr (.inr ⟨h.1, h.2.1, ?_, ?_⟩)
    · rw [ht, h2]; exact hv t rfl
    · rw [ht, h2]
      intro hc
      rcases h.2.2.1.2 10 hc with e | e | e <;> revert e <;> decide

/-- The fields of some columns. -/
def fieldsAt (cols : List Col) (is : List Nat) : List Field := is.filterMap ((layout 0 cols)[·]?)

theorem fieldsAt_mem {cols : List Col} {is : List Nat} {f : Field} (h : f ∈ fieldsAt cols is) : ∃ i ∈ is, (layout 0 cols)[i]? = some f :=
  List.mem_filterMap.1 h

theorem filterMap_range {α : Type} (l : List α) : (List.range l.length).filterMap (l[·]?) = l := by
  induction l with
  | nil => rfl
  | cons a l ih =>
    rw [List.length_cons, List.range_succ_eq_map, List.filterMap_cons, List.filterMap_map]
    simp only [List.getElem?_cons_zero]
    congr 1

theorem fieldsAt_all (cols : List Col) : fieldsAt cols (List.range cols.length) = layout 0 cols := by
  rw [← layout_length cols 0]
  exact filterMap_range _

theorem vals_pick {fl : Fl} {cols : List Col} {size : Nat} {buf : Bytes} {rows : List (List Val)} (h : BufOf fl cols size buf rows) (is : List Nat)
    {r : Nat} {row : List Val} (hr : rows[r]? = some row) : valsOf fl (fieldsAt cols is) size buf r = picked is row := by
  obtain ⟨hlen, hat⟩ := h.holds r row hr
  rw [valsOf_one fun f hf => by obtain ⟨i, -, hi⟩ := fieldsAt_mem hf; exact layout_count 0 f (List.mem_of_getElem? hi)]
  unfold fieldsAt picked
  rw [List.map_filterMap]
  refine List.filterMap_congr fun i _ => ?_
  cases hf : (layout 0 cols)[i]? with
  | none =>
    rw [List.getElem?_eq_none_iff, layout_length, ← hlen] at hf
    rw [Option.map_none, eq_comm, List.getElem?_eq_none_iff]
    exact hf
  | some f =>
    obtain ⟨v, h1, h2, h3⟩ := hat i f hf
    rw [h1, Option.map_some, h3, valOf_exact h2]

theorem vals_rows {fl : Fl} {cols : List Col} {size : Nat} {buf : Bytes} {rows : List (List Val)} (h : BufOf fl cols size buf rows) (is : List Nat) :
    (List.range rows.length).map (valsOf fl (fieldsAt cols is) size buf) = rows.map (picked is) := by
  refine List.ext_getElem (by simp) fun i h1 h2 => ?_
  simp only [List.getElem_map, List.getElem_range]
  exact vals_pick h is (List.getElem?_eq_getElem _)

theorem picked_all {cols : List Col} {row : List Val} (h : row.length = cols.length) : picked (List.range cols.length) row = row := by
  rw [← h]
  exact filterMap_range _

theorem picked_exact {fl : Fl} {cols : List Col} {size : Nat} {buf : Bytes} {rows : List (List Val)} (h : BufOf fl cols size buf rows) (is : List Nat)
    {r : Nat} {row : List Val} (hr : rows[r]? = some row) : ∀ v ∈ picked is row, ∃ f, Exact fl f v := by
  obtain ⟨hlen, hat⟩ := h.holds r row hr
  intro v hv
  obtain ⟨i, _, hi⟩ := List.mem_filterMap.1 hv
  have hi2 : i < (layout 0 cols).length := by
    rw [layout_length, ← hlen]
    exact (List.getElem?_eq_some_iff.1 hi).1
  obtain ⟨v', h1, h2, -⟩ := hat i _ (List.getElem?_eq_getElem hi2)
  rw [hi] at h1
  cases h1
  exact ⟨_, h2⟩

theorem shows_pick {fl : Fl} {cols : List Col} {size : Nat} {buf : Bytes} {rows : List (List Val)} (h : BufOf fl cols size buf rows) (is : List Nat)
    (hline : ∀ row ∈ rows, LineOk (picked is row)) {r : Nat} (hr : r < rows.length) :
    (∀ f ∈ fieldsAt cols is, ∀ e, e < f.count → Csv.Shows fl f (slot size buf r f e)) ∧
    ∀ v, (valsOf fl (fieldsAt cols is) size buf r).head? = some v → Csv.shown v ≠ [] := by
  have hrow := List.getElem?_eq_getElem hr
  have hl := hline _ (List.getElem_mem hr)
  constructor
  · intro f hf e he
    obtain ⟨i, hi1, hi2⟩ := fieldsAt_mem hf
    have hc := layout_count 0 f (List.mem_of_getElem? hi2)
    have he0 : e = 0 := by omega
    subst he0
    obtain ⟨v, h1, h2, h3⟩ := (h.holds r _ hrow).2 i f hi2
    rw [h3]
    refine shows_target h2 fun t ht => ?_
    subst ht
    exact hl.1 t (List.mem_filterMap.2 ⟨i, hi1, h1⟩)
  · intro v hv
    rw [vals_pick h is hrow] at hv
    exact hl.2 v hv

theorem layout_names (cols : List Col) : ∀ (off : Nat) (i : Nat), ((layout off cols)[i]?).map Field.fname = (cols[i]?).map Col.name := by
  induction cols with
  | nil => intro _ _; rfl
  | cons c cols ih =>
    intro off i
    cases i with
    | zero => rfl
    | succ i => exact ih _ i

theorem fieldsAt_names (cols : List Col) (is : List Nat) : (fieldsAt cols is).map Field.fname = names cols is := by
  unfold fieldsAt names
  rw [List.map_filterMap, List.map_filterMap]
  exact List.filterMap_congr fun i _ => layout_names cols 0 i

/-! ### Names -/

theorem load_names {ns : List Bytes} (h : ∀ n ∈ ns, Csv.Clean 44 n ∧ n ≠ []) : Csv.loadList 44 (Csv.join 44 ns) = ns := by
  have hp : Csv.pieces 44 [] (Csv.join 44 ns) = ns := by
    induction ns with
    | nil => rfl
    | cons a l ih =>
      have ha : (44 : UInt8) ∉ a := fun hx => ((h a (by simp)).1.plain _ hx).2.2 rfl
      cases l with
      | nil =>
        have := Csv.pieces_run 44 [] a [] ha
        simp only [List.append_nil] at this
        simp [Csv.join, this, Csv.pieces, (h a (by simp)).2]
      | cons b l =>
        rw [Csv.join, Csv.pieces_run 44 _ a [] ha, Csv.pieces, if_pos rfl, ih fun n hn => h n (by simp [hn])]
        · simp
        · nofun
  rw [Csv.loadList, hp]
  refine List.ext_getElem (by simp) fun i h1 h2 => ?_
  rw [List.getElem_map]
  have := Csv.clean_load (h _ (List.getElem_mem h2)).1 (w := []) (by simp)
  rwa [List.append_nil] at this

theorem asked_clean {cols : List Col} (hc : ∀ c ∈ cols, ColOk c) {n : Bytes} {i : Nat} (h : Asked cols n i) : Csv.Clean 44 n ∧ n ≠ [] := by
  refine ⟨⟨?_, fun c hc => (h.ends.1 c hc).1, h.ends.2⟩, ?_⟩
  · intro c hc
    have := (h.plain.1 c hc).1
    refine ⟨?_, ?_, h.plain.2 c hc⟩ <;> rintro rfl <;> revert this <;> decide
  · rintro rfl
    obtain ⟨c, h1, h2⟩ := h.same
    have := (hc c (List.mem_of_getElem? h1)).name.1
    cases hn : c.name with
    | nil => exact this hn
    | cons a b => rw [hn] at h2; cases h2

theorem asked_field {cols : List Col} {j : Nat} {db : Db} (ht : Tab cols j db) {ns : List Bytes} {is : List Nat} (h : List.Forall₂ (Asked cols) ns is) :
    ns.map (Dyn.field db) = (fieldsAt cols is).map some := by
  induction h with
  | nil => rfl
  | cons h _ ih =>
    rename_i n i ns is h0
    obtain ⟨c, h1, h2⟩ := h.same
    have hf := ht.names i c h1 n h2
    have hi : i < (layout 0 cols).length := by
      rw [layout_length]
      exact (List.getElem?_eq_some_iff.1 h1).1
    unfold fieldsAt at ih ⊢
    rw [List.map_cons, ih, hf, List.filterMap_cons, List.getElem?_eq_getElem hi]
    rfl

theorem join_plain {ns : List Bytes} (h : ∀ n ∈ ns, PlainText n) : PlainText (Csv.join 44 ns) := by
  induction ns with
  | nil => intro c hc; cases hc
  | cons a l ih =>
    cases l with
    | nil => exact h a (by simp)
    | cons b l =>
      intro c hc
      rw [Csv.join] at hc
      rcases List.mem_append.1 hc with hc | hc
      · exact h a (by simp) c hc
      · rcases List.mem_cons.1 hc with rfl | hc
        · decide
        · exact ih (fun n hn => h n (by simp [hn])) c hc
      · nofun

theorem join_head {a : Bytes} {l : List Bytes} (ha : a ≠ []) : (Csv.join 44 (a :: l)).head? = a.head? := by
  cases l with
  | nil => rfl
  | cons b l =>
    rw [Csv.join, List.head?_append]
    · cases a with
      | nil => exact absurd rfl ha
      | cons x y => rfl
    · nofun

/-! ### Queries -/

section
variable {e : Env} {cols : List Col} {j : Nat} {db : Db} (ht : Tab cols j db) {tname key : Bytes} {c : Cxt} {rows : List (List Val)}
  (hi : Inv e cols j db tname key c rows) (hl : rows.length * (cols.map Col.len).sum < 2 ^ 31) {q : Cond} (hq : q.Ok (timeOf j) rows)
  (hf : q.found (timeOf j) rows ≠ [])
include ht hi hl hq hf

theorem get_with {more : List (Bytes × Val)} (hm : ∀ m ∈ more, m.1 ≠ [] ∧ PlainText m.1 ∧ Rec.Readable m.2) (hw : NoWords more) :
    ∃ part, List.Forall₂ (IsRec e.fl cols j db) part (q.found (timeOf j) rows) ∧ part.length < 2 ^ 31 ∧
      get e c key (some (askText q more)) =
        render e db key (fmtOf (some (askNode q more))) (fieldsOf (some (askNode q more))) part.flatten := by
  obtain ⟨h1, h2⟩ := get_render ht hi hl hq hm hw
  by_cases hg : getN c.sers key = none
  · obtain ⟨h0, -⟩ := h1 hg
    subst h0
    exact absurd (found_nil q _) hf
  · obtain ⟨part, p1, p2, p3⟩ := h2 hg
    exact ⟨part, recs_all p1, p2, p3⟩

theorem get_format {fmt : String} {ch : UInt8} {r : Bytes} (he : fmt.toUTF8.toList = ch :: r) (hp : PlainText fmt.toUTF8.toList) :
    ∃ part, List.Forall₂ (IsRec e.fl cols j db) part (q.found (timeOf j) rows) ∧ part.length < 2 ^ 31 ∧
      get e c key (some (formatText q fmt)) = render e db key (fmtCh ch) none part.flatten := by
  obtain ⟨w1, w2, w3, w4, w5, w6, w7, w8⟩ := word_bytes
  have hC : ∀ m ∈ [("format".toUTF8.toList, Val.text fmt.toUTF8.toList)], CStr m.1 := by
    intro m hm
    rw [List.mem_singleton.1 hm]
    unfold CStr; rw [w7]; dsimp only; decide
  obtain ⟨part, h1, h2, h3⟩ := get_with ht hi hl hq hf (more := [("format".toUTF8.toList, .text fmt.toUTF8.toList)]) (by
      intro m hm
      rw [List.mem_singleton.1 hm]
      refine ⟨?_, ?_, hp⟩
      · rw [w7]; nofun
      · rw [w7]; unfold PlainText; dsimp only; decide) (by
      intro m hm
      rw [List.mem_singleton.1 hm]
      rw [w7, w1, w2]; dsimp only; decide)
  refine ⟨part, h1, h2, ?_⟩
  rw [formatText, h3, fmtOf_ask q hC, fieldsOf_ask q hC]
  have l1 : look [("format".toUTF8.toList, Val.text fmt.toUTF8.toList)] "format".toUTF8.toList = some (.text fmt.toUTF8.toList) := by
    rw [w7]; rfl
  have l2 : look [("format".toUTF8.toList, Val.text fmt.toUTF8.toList)] "fields".toUTF8.toList = none := by
    rw [w7, w8]; rfl
  rw [l1, l2, he]
  rfl

theorem get_fields (hc : ∀ c ∈ cols, ColOk c) {fmt : String} {ch : UInt8} {r : Bytes} (he : fmt.toUTF8.toList = ch :: r) (hp : PlainText fmt.toUTF8.toList)
    {ns : List Bytes} {is : List Nat} (hn : List.Forall₂ (Asked cols) ns is) (hne : ns ≠ []) :
    ∃ part, List.Forall₂ (IsRec e.fl cols j db) part (q.found (timeOf j) rows) ∧ part.length < 2 ^ 31 ∧
      get e c key (some (fieldsText q ns fmt)) = render e db key (fmtCh ch) (some ns) part.flatten := by
  obtain ⟨w1, w2, w3, w4, w5, w6, w7, w8⟩ := word_bytes
  have hclean : ∀ n ∈ ns, Csv.Clean 44 n ∧ n ≠ [] ∧ PlainText n ∧ n.head? ≠ some 42 := by
    intro n hx
    obtain ⟨k, hk, rfl⟩ := List.getElem_of_mem hx
    have ha := (List.forall₂_iff_get.1 hn).2 k hk (by rw [← hn.length_eq]; exact hk)
    have := asked_clean hc ha
    exact ⟨this.1, this.2, ha.plain.1, fun hh => (ha.ends.1 42 hh).2 rfl⟩
  have hC : ∀ m ∈ [("fields".toUTF8.toList, Val.text (Csv.join 44 ns)), ("format".toUTF8.toList, Val.text fmt.toUTF8.toList)], CStr m.1 := by
    intro m hm
    rcases List.mem_cons.1 hm with rfl | hm
    · unfold CStr; rw [w8]; dsimp only; decide
    · rw [List.mem_singleton.1 hm]
      unfold CStr; rw [w7]; dsimp only; decide
  obtain ⟨part, h1, h2, h3⟩ := get_with ht hi hl hq hf
    (more := [("fields".toUTF8.toList, .text (Csv.join 44 ns)), ("format".toUTF8.toList, .text fmt.toUTF8.toList)]) (by
      intro m hm
      rcases List.mem_cons.1 hm with rfl | hm
      · refine ⟨?_, ?_, join_plain fun n hn => (hclean n hn).2.2.1⟩
        · rw [w8]; nofun
        · rw [w8]; unfold PlainText; dsimp only; decide
      · rw [List.mem_singleton.1 hm]
        refine ⟨?_, ?_, hp⟩
        · rw [w7]; nofun
        · rw [w7]; unfold PlainText; dsimp only; decide) (by
      intro m hm
      rcases List.mem_cons.1 hm with rfl | hm
      · rw [w8, w1, w2]; dsimp only; decide
      · rw [List.mem_singleton.1 hm]
        rw [w7, w1, w2]; dsimp only; decide)
  refine ⟨part, h1, h2, ?_⟩
  rw [fieldsText, h3, fmtOf_ask q hC, fieldsOf_ask q hC]
  have l1 : look [("fields".toUTF8.toList, Val.text (Csv.join 44 ns)), ("format".toUTF8.toList, Val.text fmt.toUTF8.toList)] "format".toUTF8.toList =
      some (.text fmt.toUTF8.toList) := by
    rw [w7, w8]; rfl
  have l2 : look [("fields".toUTF8.toList, Val.text (Csv.join 44 ns)), ("format".toUTF8.toList, Val.text fmt.toUTF8.toList)] "fields".toUTF8.toList =
      some (.text (Csv.join 44 ns)) := by
    rw [w7, w8]; rfl
  have hload := load_names (ns := ns) fun n hn => ⟨(hclean n hn).1, (hclean n hn).2.1⟩
  rw [l1, l2, he]
  simp only [Option.map_some, content]
  cases ns with
  | nil => exact absurd rfl hne
  | cons a l =>
    have hh := join_head (l := l) (hclean a (by simp)).2.1
    have h42 := (hclean a (by simp)).2.2.2
    rw [← hh] at h42
    split
    · rename_i h; cases h
    · rename_i x h
      injection h with h
      rw [h] at h42
      exact absurd rfl h42
    · rename_i h
      injection h with h
      rw [← h, hload]

end

end Sis.Io
