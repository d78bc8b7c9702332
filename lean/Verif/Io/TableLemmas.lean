import Verif.Io.IoSpec
import Verif.Sdb.TabTheorems
import Verif.Rec.RecTheorems
/-
Lemmas on tables: what `create` makes of the text of columns.
-/
namespace Sis.Io
open Sis Sis.Num
open Sis.Json (Node Ok OkElems OkMembers)
open Sis.Dyn (Db Def Field St Made Named Timed Main)
open Sis.Rec (Val FieldsAre inNode inNodes item obj PlainText)

/-- The definition of a column. -/
def Col.toDef (c : Col) : Def := ⟨some c.name, some c.style, c.len, 1, c.index, c.digits, false⟩

/-! ### The document -/

/-- The values in the text of a column. -/
def colVals (c : Col) : List Val := [.text [letter c.style], .num c.len, .num 1, .num c.digits, .text (if c.index then [73] else [])]

/-- The document of a column. -/
def colNode (c : Col) : Node := .mk .array (some c.name) none (inNodes 0 (colVals c))

theorem colVals_readable (c : Col) : ∀ v ∈ colVals c, Rec.Readable v := by
  intro v hv
  simp only [colVals, List.mem_cons, List.not_mem_nil, or_false] at hv
  rcases hv with rfl | rfl | rfl | rfl | rfl
  · cases c.style <;> (show PlainText _; unfold PlainText; decide)
  · trivial
  · trivial
  · trivial
  · show PlainText _
    unfold PlainText
    cases c.index <;> decide

theorem load_obj {ns : List Node} {ms : List (Bytes × Bytes)} (hok : OkMembers ns)
    (h : List.Forall₂ (fun (n : Node) (m : Bytes × Bytes) => n.key = some m.1 ∧ Json.toValue false (0 + 1) n = some m.2) ns ms)
    (hp : ∀ m ∈ ms, PlainText m.1) : Json.load (obj ms) = some (some (.mk .object none none ns)) := by
  obtain ⟨t, h1, h2⟩ := Json.load_text (fmt := false) (n := .mk .object none none ns) ⟨rfl, hok⟩ (.inr rfl) []
  rw [Rec.text_object h hp] at h1
  cases h1
  rw [List.append_nil] at h2
  exact h2

theorem okKey_plain {k : Bytes} (h1 : k ≠ []) (h2 : PlainText k) : Json.okKey k := ⟨h1, fun c hc => ⟨(h2 c hc).1, (h2 c hc).2.2, (h2 c hc).2.1⟩⟩

theorem colNode_text (d : Nat) (c : Col) : Json.toValue false d (colNode c) = some (colText c) :=
  Rec.text_array (Rec.inNodes_text _ 0 _ (colVals_readable c))

theorem load_table {cols : List Col} (h : ∀ c ∈ cols, ColOk c) : Json.load (tableText cols) =
    some (some (.mk .object none none [.mk .object (some "fields".toUTF8.toList) none (cols.map colNode)])) := by
  have hok : OkMembers (cols.map colNode) := by
    induction cols with
    | nil => trivial
    | cons c cols ih =>
      have hc := h c (by simp)
      exact Rec.okMembers_cons rfl (okKey_plain hc.name.1 hc.name.2.2) ⟨rfl, Rec.inNodes_ok 0 _ (colVals_readable c)⟩
        (ih fun c hc => h c (by simp [hc]))
  have htext : ∀ d, List.Forall₂ (fun (n : Node) (m : Bytes × Bytes) => n.key = some m.1 ∧ Json.toValue false d n = some m.2) (cols.map colNode)
      (cols.map fun c => (c.name, colText c)) := by
    intro d
    clear h hok
    induction cols with
    | nil => exact .nil
    | cons c cols ih => exact .cons ⟨rfl, colNode_text _ _⟩ ih
  have hfp : PlainText "fields".toUTF8.toList ∧ "fields".toUTF8.toList ≠ [] := by unfold PlainText; decide +kernel
  refine load_obj ?_ ?_ ?_
  · exact Rec.okMembers_cons rfl (okKey_plain hfp.2 hfp.1) ⟨rfl, hok⟩ trivial
  · refine .cons ⟨rfl, ?_⟩ .nil
    refine Rec.text_object (htext _) ?_
    intro m hm
    obtain ⟨c, hc, rfl⟩ := List.mem_map.1 hm
    exact (h c hc).name.2.2
  · intro m hm
    rw [List.mem_singleton.1 hm]
    exact hfp.1

theorem styleOf_letter (s : St) : Sdb.styleOf (some [letter s]) = some s := by cases s <;> decide +kernel

theorem defOf_col {c : Col} (h : ColOk c) : Sdb.defOf (colNode c) = c.toDef := by
  have k0 : llutoa 0 32 = [48] := by decide +kernel
  have k1 : llutoa 1 32 = [49] := by decide +kernel
  have k2 : llutoa 2 32 = [50] := by decide +kernel
  have k3 : llutoa 3 32 = [51] := by decide +kernel
  have k4 : llutoa 4 32 = [52] := by decide +kernel
  have n0 : "0".toUTF8.toList = [48] := by decide +kernel
  have n1 : "1".toUTF8.toList = [49] := by decide +kernel
  have n2 : "2".toUTF8.toList = [50] := by decide +kernel
  have n3 : "3".toUTF8.toList = [51] := by decide +kernel
  have n4 : "4".toUTF8.toList = [52] := by decide +kernel
  have hl := h.len
  have hd := h.digits
  have a1 : Num.atoll (Rec.decInt c.len) = c.len := by rw [Rec.atoll_dec]; unfold Rec.clamp; omega
  have a2 : Num.atoll (Rec.decInt 1) = 1 := by decide +kernel
  have a3 : Num.atoll (Rec.decInt c.digits) = c.digits := by rw [Rec.atoll_dec]; unfold Rec.clamp; omega
  have i1 : Sdb.int32 c.len = c.len := Sdb.int32_id (by omega)
  have i2 : Sdb.int32 1 = 1 := by decide +kernel
  have i3 : Sdb.int32 c.digits = c.digits := Sdb.int32_id (by omega)
  unfold Sdb.defOf Col.toDef
  rw [n0, n1, n2, n3, n4]
  rw [Sdb.getStr_member _ [48] (by decide), Sdb.getStr_member _ [52] (by decide), Sdb.getInt_member _ [49] _ (by decide),
    Sdb.getInt_member _ [50] _ (by decide), Sdb.getInt_member _ [51] _ (by decide)]
  have hch : (colNode c).child = inNodes 0 (colVals c) := rfl
  have hkey : (colNode c).key = some c.name := rfl
  rw [hch, hkey]
  simp only [colVals, inNodes, inNode, Nat.zero_add, k0, k1, k2, k3, k4, Nat.reduceAdd]
  cases hi : c.index <;>
  simp [Json.member, Json.named, caseEq, styleOf_letter, a1, a2, a3, i1, i2, i3, Sdb.flagged, Json.Node.key, Json.Node.value, lower]

/-! ### The table -/

theorem fieldOk_def {c : Col} (h : ColOk c) : Sdb.FieldOk c.toDef := by
  refine ⟨⟨c.name, rfl, h.name.1, h.name.2.1, h.name.2.2⟩, ?_, ?_⟩
  · have := h.len
    refine ⟨nofun, nofun, ?_, ?_, ?_, ?_⟩ <;> simp only [Col.toDef] <;> omega
  · have := h.digits
    simp only [Col.toDef]; omega

theorem width_def {c : Col} (h : ColOk c) : Dyn.width c.toDef = c.len := by
  rw [Dyn.width, Sdb.good_of (fieldOk_def h)]
  simp [Col.toDef]

theorem widths_cols {cols : List Col} (h : ∀ c ∈ cols, ColOk c) : Dyn.widths (cols.map Col.toDef) = (cols.map Col.len).sum := by
  induction cols with
  | nil => rfl
  | cons c cols ih =>
    have := ih fun c hc => h c (by simp [hc])
    simp only [Dyn.widths, List.map_cons, List.sum_cons] at this ⊢
    rw [this, width_def (h c (by simp))]

theorem fieldsFrom_cols {cols : List Col} (h : ∀ c ∈ cols, ColOk c) : ∀ off, off + (cols.map Col.len).sum ≤ 65536 →
    Sdb.fieldsFrom off (cols.map Col.toDef) = layout off cols := by
  induction cols with
  | nil => intro _ _; rfl
  | cons c cols ih =>
    intro off hs
    have hc := h c (by simp)
    simp only [List.map_cons, List.sum_cons] at hs
    rw [List.map_cons, Sdb.fieldsFrom, layout, width_def hc, ih (fun c hc => h c (by simp [hc])) _ (by omega)]
    congr 1
    have h1 := hc.len
    have h2 := hc.digits
    have hoff : off % 2 ^ 16 = off := Nat.mod_eq_of_lt (by omega)
    simp only [Dyn.mk, Col.toDef, Option.getD_some, List.take_of_length_le hc.name.2.1, hoff, Dyn.dotOf]
    congr 1
    by_cases hp : c.style = .price
    · by_cases h0 : c.digits = 0
      · simp [hp, h0]
      · simp [hp, h0]; omega
    · simp [hp]; omega

theorem layout_get {cols : List Col} : ∀ (off j : Nat) (c : Col), cols[j]? = some c →
    ∃ f, (layout off cols)[j]? = some f ∧ f.len = c.len ∧ f.offset = off + ((cols.take j).map Col.len).sum ∧ f.style = c.style := by
  induction cols with
  | nil => intro off j c h; cases h
  | cons d cols ih =>
    intro off j c h
    cases j with
    | zero => cases h; exact ⟨_, rfl, rfl, by simp, rfl⟩
    | succ j =>
      obtain ⟨f, h1, h2, h3, h4⟩ := ih (off + d.len) j c h
      exact ⟨f, h1, h2, by rw [h3]; simp; omega, h4⟩

theorem layout_count {cols : List Col} : ∀ off, ∀ f ∈ layout off cols, f.count = 1 := by
  induction cols with
  | nil => intro off f h; cases h
  | cons d cols ih =>
    intro off f h
    rcases List.mem_cons.1 h with rfl | h
    · rfl
    · exact ih _ f h

theorem layout_length (cols : List Col) : ∀ off, (layout off cols).length = cols.length := by
  induction cols with
  | nil => intro _; rfl
  | cons d cols ih => intro off; simp [layout, ih]

/-- What is known of a table made of columns. -/
structure Tab (cols : List Col) (j : Nat) (db : Db) : Prop where
  made : Made db
  fields : FieldsAre db (layout 0 cols)
  size : db.size = (cols.map Col.len).sum
  index : db.mindex.isSome = true
  time : ∀ f, (layout 0 cols)[j]? = some f → ∀ r : Bytes, r.length = db.size → (f.len = 1 ∨ f.len = 2 ∨ f.len = 4 ∨ f.len = 8) →
    Dyn.getMindex db 0 r = some (leVal (Dyn.slot db.size r 0 f 0))
  total : ∀ r : Bytes, r.length = db.size → Dyn.getMindex db 0 r ≠ none
  names : ∀ (i : Nat) (c : Col), cols[i]? = some c → ∀ n : Bytes, n.map lower = c.name.map lower → Dyn.field db n = (layout 0 cols)[i]?
  defs : Sdb.MadeOf (cols.map Col.toDef) db

theorem only_cols (cols : List Col) : onlyOf (cols.map Col.toDef) = [] := by
  unfold onlyOf
  rw [List.map_eq_nil_iff, List.filter_eq_nil_iff]
  rintro ⟨d, i⟩ hd
  have := List.mem_of_mem_filter (List.fst_mem_of_mem_zipIdx hd)
  obtain ⟨c, _, rfl⟩ := List.mem_map.1 this
  simp [Col.toDef]

theorem total_cols {cols : List Col} (h : ∀ c ∈ cols, ColOk c) : Dyn.total (cols.map Col.toDef) = (cols.map Col.len).sum := by
  rw [← Dyn.widths_total, widths_cols h]

theorem le_sum {cols : List Col} {c : Col} (h : c ∈ cols) : c.len ≤ (cols.map Col.len).sum := by
  induction cols with
  | nil => cases h
  | cons d cols ih =>
    rw [List.map_cons, List.sum_cons]
    rcases List.mem_cons.1 h with rfl | h
    · omega
    · have := ih h; omega

theorem table_made {cols : List Col} {j : Nat} (h : ColsOk cols) (hj : TimeAt cols j) :
    ∃ db, Dyn.create (cols.map Col.toDef) = some (some db) ∧ Tab cols j db := by
  obtain ⟨c, hc, ht⟩ := hj
  have hjl := (List.getElem?_eq_some_iff.1 hc).1
  have hce := (List.getElem?_eq_some_iff.1 hc).2
  have hsum : 1 ≤ (cols.map Col.len).sum := by
    have h1 := (h.each c (List.mem_of_getElem? hc)).len
    have h2 : c.len ≤ (cols.map Col.len).sum := le_sum (List.mem_of_getElem? hc)
    omega
  have h65 := h.size
  obtain ⟨db, hdb, hsz⟩ := (Dyn.C52_size (cols.map Col.toDef)).1 (by rw [total_cols h.each]; exact hsum) (by rw [total_cols h.each]; omega)
  rw [total_cols h.each] at hsz
  have hmo : Sdb.MadeOf (cols.map Col.toDef) db := by
    refine ⟨?_, ?_, hdb⟩
    · intro d hd
      obtain ⟨c, hc, rfl⟩ := List.mem_map.1 hd
      exact fieldOk_def (h.each c hc)
    · rw [List.pairwise_map]
      refine h.names.imp ?_
      intro a b hab heq
      simp only [Col.toDef, Option.map_some, Option.some.injEq] at heq
      exact hab heq
  have hshape := Sdb.made_shape hmo
  have hsplit : cols.map Col.toDef = (cols.take j).map Col.toDef ++ c.toDef :: (cols.drop (j + 1)).map Col.toDef := by
    rw [← hce, ← List.map_cons, ← List.drop_eq_getElem_cons hjl, ← List.map_append, List.take_append_drop]
  have hTimed : ∀ d : Col, ColOk d → (Timed d.toDef ↔ TimeStyle d.style) := by
    intro d hd
    unfold Timed TimeStyle
    have := (fieldOk_def hd).proper
    simp only [this, true_and]
    simp only [Col.toDef, Option.some.injEq]
  have hMain : ∀ d : Col, ColOk d → (Main d.toDef ↔ d.index = true) := by
    intro d hd
    unfold Main
    have := (fieldOk_def hd).proper
    simp only [this, true_and]
    rfl
  have hnamed : ∀ d' ∈ (cols.drop (j + 1)).map Col.toDef, ¬ Named c.name d' := by
    intro d' hd' hn
    obtain ⟨d, hd, rfl⟩ := List.mem_map.1 hd'
    obtain ⟨i, hi⟩ := List.getElem?_of_mem hd
    obtain ⟨-, k, hk, he⟩ := hn
    cases hk
    rw [List.getElem?_drop] at hi
    obtain ⟨hil, hie⟩ := List.getElem?_eq_some_iff.1 hi
    have := List.pairwise_iff_getElem.1 h.names j (j + 1 + i) hjl hil (by omega)
    rw [hce, hie] at this
    exact this he
  have hidx : db.mindex.isSome = true ∧ ∀ r : Bytes, r.length = db.size →
      Dyn.getMindex db 0 r = some (Dyn.valueAt db.size r 0 (Dyn.total ((cols.take j).map Col.toDef)) c.len) := by
    rw [hsplit] at hdb
    rcases ht with ⟨h1, h2⟩ | ⟨h1, h2, h3⟩
    · have htd : Timed c.toDef := (hTimed c (h.each c (List.mem_of_getElem? hc))).2 h1
      refine ⟨?_, fun r hr => ?_⟩
      · obtain ⟨db₀, e1, -, rfl⟩ := Dyn.create_some hdb
        obtain ⟨db1, db2, off2, e3, e4, e5⟩ := Dyn.addDefs_split e1
        have hne : db2.time ≠ none := by
          cases hq : db1.time with
          | none => rw [(Dyn.addDef_time e4).2.2 htd hq]; simp
          | some x => rw [(Dyn.addDef_time e4).2.1 (by rw [hq]; simp), hq]; simp
        have t := Dyn.addDefs_time_some e5 hne
        dsimp only
        rw [t]
        cases hq : db2.time with
        | none => exact absurd hq hne
        | some x => rfl
      · rw [Dyn.C79_index_time hdb (d := c.toDef) (by simp) htd]
        refine Dyn.C79_partial hdb (by omega) rfl htd ?_ hnamed (by rw [hr]; exact Nat.mod_self _) (by omega) (by omega)
        intro d' hd' hd2
        obtain ⟨d, hd, rfl⟩ := List.mem_map.1 hd'
        obtain ⟨i, hi⟩ := List.getElem?_of_mem hd
        obtain ⟨hil, hie⟩ := List.getElem?_eq_some_iff.1 hi
        rw [List.length_take] at hil
        rw [List.getElem?_take, if_pos (by omega)] at hi
        have := h2 i d hi ((hTimed d (h.each d (List.mem_of_getElem? hi))).1 hd2)
        omega
    · have hmn : Main c.toDef := (hMain c (h.each c (List.mem_of_getElem? hc))).2 h1
      have hlater : ∀ d' ∈ (cols.drop (j + 1)).map Col.toDef, ¬ Main d' := by
        intro d' hd' hd2
        obtain ⟨d, hd, rfl⟩ := List.mem_map.1 hd'
        obtain ⟨i, hi⟩ := List.getElem?_of_mem hd
        rw [List.getElem?_drop] at hi
        have := h3 _ d hi ((hMain d (h.each d (List.mem_of_getElem? hi))).1 hd2)
        omega
      have hnt : ∀ d' ∈ (cols.take j).map Col.toDef ++ c.toDef :: (cols.drop (j + 1)).map Col.toDef, ¬ Timed d' := by
        rw [← hsplit]
        intro d' hd' hd2
        obtain ⟨d, hd, rfl⟩ := List.mem_map.1 hd'
        exact h2 d hd ((hTimed d (h.each d hd)).1 hd2)
      refine ⟨?_, fun r hr => ?_⟩
      · obtain ⟨db₀, e1, -, rfl⟩ := Dyn.create_some hdb
        obtain ⟨db1, db2, off2, e3, e4, e5⟩ := Dyn.addDefs_split e1
        have t0 : db₀.time = none := Dyn.addDefs_time_none e1 hnt
        dsimp only
        rw [t0, Dyn.addDefs_main_none e5 hlater, (Dyn.addDef_main e4).2 hmn]
        rfl
      · exact Dyn.C79_index_partial hdb (by omega) rfl hmn hnt (fun d' hd' => ⟨hnamed d' hd', hlater d' hd'⟩)
          (by rw [hr]; exact Nat.mod_self _) (by omega) (by omega)
  have hmade : Made db := .create hdb (by omega)
  have hfields : FieldsAre db (layout 0 cols) := by
    intro i
    have h2 := hshape.2.1
    rw [fieldsFrom_cols h.each 0 (by omega)] at h2
    have h3 := congrArg (fun l => l[i]?.join) h2
    simp only [List.getElem?_map] at h3
    rw [Dyn.fieldAt]
    cases hq : (layout 0 cols)[i]? with
    | none =>
      rw [hq] at h3
      cases hp : db.fields[i]? with
      | none => rfl
      | some e => rw [hp] at h3; simpa using h3.symm
    | some f =>
      rw [hq] at h3
      cases hp : db.fields[i]? with
      | none => rw [hp] at h3; cases h3
      | some e => rw [hp] at h3; simpa using h3.symm
  refine ⟨db, hdb, hmade, hfields, hsz, hidx.1, ?_, ?_, ?_, hmo⟩
  · intro f hf r hr hl
    obtain ⟨f', g1, g2, g3, g4⟩ := layout_get 0 j c hc
    rw [hf] at g1
    cases g1
    rw [hidx.2 r hr, total_cols (fun c hc => h.each c (List.mem_of_mem_take hc)), Dyn.valueAt]
    rw [← g2]
    rw [Nat.zero_add] at g3
    rw [← g3]
    rw [if_pos hl]
    simp [Dyn.slot]
  · intro r hr
    rw [hidx.2 r hr]
    nofun
  · intro i d hd n hn
    obtain ⟨k1, k2, k3⟩ := hmo
    obtain ⟨db₀, k4, -, e⟩ := Dyn.create_some k3
    obtain ⟨-, i2, -⟩ := Sdb.addDefs_apart _ k1 k2 _ _ _ _ (by intro d _ n _; rfl) k4
    have hf : db.fields[i]? = some (d.name, i) := by
      rw [e]
      dsimp only
      rw [i2]
      simp [List.getElem?_map, hd, Col.toDef]
    rw [hfields i, Dyn.field, Dyn.fieldAt, Dyn.getN_at (Dyn.made_lay hmade) hf (Dyn.sameN_iff.2 hn), hf]
    rfl

theorem create_table {cols : List Col} {j : Nat} (h : ColsOk cols) (hj : TimeAt cols j) (c : Cxt) {tname : Bytes}
    (hn : Dyn.getN c.tabs tname = none) :
    ∃ db, Tab cols j db ∧ create c tname (some (tableText cols)) = some ({ c with tabs := (Dyn.setN c.tabs tname ⟨db, []⟩).1 }, .ok) := by
  obtain ⟨db, h1, h2⟩ := table_made h hj
  refine ⟨db, h2, ?_⟩
  unfold create
  simp only [load_table h.each, Option.bind_eq_bind, Option.bind_some]
  have hch : child (.mk .object none none [.mk .object (some "fields".toUTF8.toList) none (cols.map colNode)]) "fields" =
      some (.mk .object (some "fields".toUTF8.toList) none (cols.map colNode)) := by
    have : caseEq "fields".toUTF8.toList "fields".toUTF8.toList = true := by decide +kernel
    unfold child
    generalize "fields".toUTF8.toList = F at *
    simp [Json.cmpChild, Json.Node.child, Json.Node.key, List.findIdx?_cons, this]
  have hdefs : (cols.map colNode).map Sdb.defOf = cols.map Col.toDef := by
    rw [List.map_map]
    apply List.map_congr_left
    intro c hc
    exact defOf_col (h.each c hc)
  unfold tblOf
  rw [hch]
  simp only [Json.Node.child, hdefs, h1, Option.map_some, only_cols, Option.bind_some, hn]

end Sis.Io
