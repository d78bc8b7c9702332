import Verif.Io.AskLemmas
/-
Lemmas on records: what the rows that are set become, and what is shown of them.
-/
namespace Sis.Io
open Sis
open Sis.Dyn (Db Field slot)
open Sis.Rec

/-- The bytes `r` are a record of the row `vs`. -/
structure IsRec (fl : Fl) (cols : List Col) (j : Nat) (db : Db) (r : Bytes) (vs : List Val) : Prop where
  length : r.length = db.size
  row : RowOk fl cols j vs
  vals : valsOf fl (layout 0 cols) db.size r 0 = vs
  holds : ∀ (i : Nat) (f : Field) (v : Val), (layout 0 cols)[i]? = some f → vs[i]? = some v → slot db.size r 0 f 0 = target fl f (some v)

theorem valOf_exact {fl : Fl} {f : Field} {v : Val} (h : Exact fl f v) : valOf fl f (target fl f (some v)) = v := by
  obtain ⟨h, h2⟩ := h
  have hh := holds_target h
  cases v with
  | num n =>
    obtain ⟨hc, -, -⟩ := h
    have h3 : ¬ (f.style = .float ∨ f.style = .price) ∧ ¬ f.style = .char := by
      rcases hc.1 with e | e | e | e | e | e <;> rw [e] <;> decide
    rw [valOf, if_neg h3.1, if_neg h3.2]
    exact congrArg Val.num hh
  | text s =>
    obtain ⟨hs, hp⟩ := h
    have hh : target fl f (some (.text s)) = s.take f.len ++ List.replicate (f.len - s.length) 0 := hh
    have h2 : s.length ≤ f.len := h2
    rw [valOf, if_neg (by rw [hs]; decide), if_pos hs, hh, List.take_of_length_le h2]
    have h0 : ∀ c ∈ s, decide (c ≠ 0) = true := fun c hc => by
      have := (hp c hc).1
      simp only [ne_eq, decide_eq_true_eq]
      rintro rfl
      revert this; decide
    rw [List.takeWhile_append_of_pos h0]
    cases f.len - s.length <;> simp [List.replicate_succ]
  | raw t =>
    obtain ⟨hs, -⟩ := h
    have h2 : fl.toText f (leBytes f.len (fl.ofText f t)) = t := h2
    rw [valOf, if_pos hs]
    have : target fl f (some (.raw t)) = leBytes f.len (fl.ofText f t) := by
      rcases hs with e | e <;> simp only [target, e, content]
    rw [this, h2]

theorem exact_plain {fl : Fl} {f : Field} {v : Val} (h : Exact fl f v) : Plain v := by
  obtain ⟨h, h2⟩ := h
  cases v with
  | num n => exact ⟨h2, by have := h.2.2; omega⟩
  | text s => exact h.2
  | raw t => exact h.2.2.1

theorem slot_piece {size : Nat} {out : Bytes} {r : Nat} {f : Field} (hf : f.offset + f.len * f.count ≤ size) (hc : f.count = 1) :
    slot size ((out.drop (r * size)).take size) 0 f 0 = slot size out r f 0 := by
  rw [hc] at hf
  unfold slot
  rw [Nat.zero_mul, Nat.zero_mul, Nat.add_zero, Nat.zero_add, Nat.add_zero, List.drop_take, List.take_take, List.drop_drop, Nat.min_eq_left (by omega)]

theorem slot_flatten {size : Nat} {recs : List Bytes} (hl : ∀ x ∈ recs, x.length = size) {r : Nat} {x : Bytes} (hx : recs[r]? = some x) {f : Field}
    (hf : f.offset + f.len * f.count ≤ size) (hc : f.count = 1) : slot size recs.flatten r f 0 = slot size x 0 f 0 := by
  have : (recs.flatten.drop (r * size)).take size = x := by
    induction recs generalizing r with
    | nil => cases hx
    | cons y recs ih =>
      have hy := hl y (by simp)
      cases r with
      | zero =>
        injection hx with hx
        subst hx
        rw [Nat.zero_mul, List.drop_zero, List.flatten_cons, List.take_append_of_le_length (by omega), List.take_of_length_le (by omega)]
      | succ r =>
        rw [List.flatten_cons, Nat.succ_mul, Nat.add_comm (r * size), ← List.drop_drop, List.drop_append_of_le_length (by omega),
          List.drop_of_length_le (Nat.le_of_eq hy), List.nil_append]
        exact ih (fun x hx => hl x (by simp [hx])) hx
  rw [← slot_piece hf hc, this]

theorem layout_mem (cols : List Col) (off : Nat) : ∀ f ∈ layout off cols, off ≤ f.offset ∧ f.offset + f.len ≤ off + (cols.map Col.len).sum := by
  induction cols generalizing off with
  | nil => intro f hf; cases hf
  | cons c cs ih =>
    intro f hf
    rw [layout] at hf
    simp only [List.map_cons, List.sum_cons]
    rcases List.mem_cons.1 hf with rfl | hf
    · dsimp only; omega
    · have := ih _ f hf
      omega

theorem layout_fits {cols : List Col} {j : Nat} {db : Db} (ht : Tab cols j db) : ∀ f ∈ layout 0 cols, f.count = 1 ∧ f.offset + f.len * f.count ≤ db.size := by
  intro f hf
  have h1 := layout_count 0 f hf
  have h2 := layout_mem cols 0 f hf
  rw [h1, ht.size]
  omega

theorem vals_piece {cols : List Col} {j : Nat} {db : Db} (ht : Tab cols j db) (fl : Fl) (out : Bytes) (r : Nat) :
    valsOf fl (layout 0 cols) db.size ((out.drop (r * db.size)).take db.size) 0 = valsOf fl (layout 0 cols) db.size out r := by
  rw [valsOf_one (layout_count 0), valsOf_one (layout_count 0)]
  refine List.map_congr_left fun f hf => ?_
  rw [slot_piece (layout_fits ht f hf).2 (layout_fits ht f hf).1]

theorem vals_flatten {cols : List Col} {j : Nat} {db : Db} (ht : Tab cols j db) (fl : Fl) {recs : List Bytes} (hl : ∀ x ∈ recs, x.length = db.size)
    {r : Nat} {x : Bytes} (hx : recs[r]? = some x) :
    valsOf fl (layout 0 cols) db.size recs.flatten r = valsOf fl (layout 0 cols) db.size x 0 := by
  rw [valsOf_one (layout_count 0), valsOf_one (layout_count 0)]
  refine List.map_congr_left fun f hf => ?_
  rw [slot_flatten hl hx (layout_fits ht f hf).2 (layout_fits ht f hf).1]

theorem vals_target {fl : Fl} {cols : List Col} {j : Nat} {size : Nat} {out : Bytes} {r : Nat} {vs : List Val} (h : RowOk fl cols j vs)
    (hs : ∀ (i : Nat) (f : Field) (v : Val), (layout 0 cols)[i]? = some f → vs[i]? = some v → slot size out r f 0 = target fl f (some v)) :
    valsOf fl (layout 0 cols) size out r = vs := by
  rw [valsOf_one (layout_count 0)]
  refine List.ext_getElem? fun i => ?_
  rw [List.getElem?_map]
  cases hf : (layout 0 cols)[i]? with
  | none =>
    rw [List.getElem?_eq_none_iff, layout_length, ← h.length] at hf
    rw [Option.map_none, eq_comm, List.getElem?_eq_none_iff]
    exact hf
  | some f =>
    have hi : i < vs.length := by
      rw [h.length, ← layout_length cols 0]
      exact (List.getElem?_eq_some_iff.1 hf).1
    have hv := List.getElem?_eq_getElem hi
    rw [Option.map_some, hs i f _ hf hv, valOf_exact (h.exact i f _ hf hv), hv]

theorem split_length (size : Nat) (b : Bytes) : (split size b).length = b.length / size := by simp [split]

theorem split_get {size : Nat} {b : Bytes} {i : Nat} (h : i < b.length / size) : (split size b)[i]? = some ((b.drop (i * size)).take size) := by
  simp [split, h]

theorem size_pos {cols : List Col} {j : Nat} {db : Db} (ht : Tab cols j db) : 1 ≤ db.size := (made_size ht.made).1

theorem piece_length {size n i : Nat} {out : Bytes} (h : out.length = n * size) (hi : i < n) : ((out.drop (i * size)).take size).length = size := by
  have : (i + 1) * size ≤ n * size := Nat.mul_le_mul_right _ hi
  rw [Nat.succ_mul] at this
  rw [List.length_take, List.length_drop]
  omega

theorem fields_texted {fl : Fl} {cols : List Col} {j : Nat} {vs : List Val} (h : RowOk fl cols j vs) : ∀ f ∈ layout 0 cols, f.count = 1 ∧ Texted f := by
  intro f hf
  obtain ⟨i, hi⟩ := List.getElem?_of_mem hf
  have hil : i < vs.length := by
    rw [h.length, ← layout_length cols 0]
    exact (List.getElem?_eq_some_iff.1 hi).1
  exact ⟨layout_count 0 f hf, (suits_readable (h.exact i f _ hi (List.getElem?_eq_getElem hil)).1).2⟩

theorem row_field {fl : Fl} {cols : List Col} {j : Nat} {vs : List Val} (h : RowOk fl cols j vs) {v : Val} (hv : v ∈ vs) :
    ∃ f ∈ layout 0 cols, Exact fl f v := by
  obtain ⟨i, hi⟩ := List.getElem?_of_mem hv
  have hil : i < (layout 0 cols).length := by
    rw [layout_length, ← h.length]
    exact (List.getElem?_eq_some_iff.1 hi).1
  exact ⟨_, List.getElem_mem hil, h.exact i _ v (List.getElem?_eq_getElem hil) hi⟩

theorem row_readable {fl : Fl} {cols : List Col} {j : Nat} {vs : List Val} (h : RowOk fl cols j vs) : ∀ v ∈ vs, Readable v := by
  intro v hv
  obtain ⟨f, _, hf⟩ := row_field h hv
  exact (suits_readable hf.1).1

theorem row_plain {fl : Fl} {cols : List Col} {j : Nat} {vs : List Val} (h : RowOk fl cols j vs) : ∀ v ∈ vs, Plain v := by
  intro v hv
  obtain ⟨f, _, hf⟩ := row_field h hv
  exact exact_plain hf

/-- Rows that are set become records of these rows. -/
theorem rows_set {fl : Fl} {cols : List Col} {j : Nat} {db : Db} (ht : Tab cols j db) {rows : List (List Val)} (hne : rows ≠ [])
    (hrows : ∀ vs ∈ rows, RowOk fl cols j vs) (h31 : rows.length * db.size < 2 ^ 31) :
    ∃ out, Rec.setChars fl db (rowsText rows) = some (some out) ∧ out.length = rows.length * db.size ∧
      List.Forall₂ (IsRec fl cols j db) (split db.size out) rows := by
  obtain ⟨vs0, hvs0⟩ := List.exists_mem_of_ne_nil _ hne
  obtain ⟨out, h1, h2, h3⟩ := set_rows (fl := fl) ht.made ht.fields (fields_texted (hrows vs0 hvs0)) hne
    (fun vs hv => ⟨by rw [(hrows vs hv).length, layout_length], row_readable (hrows vs hv)⟩) h31
  have hn : out.length / db.size = rows.length := by rw [h2, Nat.mul_div_cancel _ (size_pos ht)]
  refine ⟨out, h1, h2, ?_⟩
  rw [List.forall₂_iff_get]
  refine ⟨by rw [split_length, hn], fun i hi1 hi2 => ?_⟩
  have hi : i < rows.length := hi2
  have hg := split_get (size := db.size) (b := out) (i := i) (by omega)
  rw [List.getElem?_eq_getElem hi1] at hg
  injection hg with hg
  simp only [List.get_eq_getElem]
  rw [hg]
  have hrow := hrows rows[i] (List.getElem_mem hi)
  refine ⟨piece_length h2 hi, hrow, ?_, fun k f v hf hv => ?_⟩
  · rw [vals_piece ht]
    exact vals_target hrow fun k f v hf hv => h3 i _ k f v (List.getElem?_eq_getElem hi) hf hv
  · have hfit := layout_fits ht f (List.mem_of_getElem? hf)
    rw [slot_piece hfit.2 hfit.1]
    exact h3 i _ k f v (List.getElem?_eq_getElem hi) hf hv

/-- A row that is set becomes a record of this row. -/
theorem row_set {fl : Fl} {cols : List Col} {j : Nat} {db : Db} (ht : Tab cols j db) {vs : List Val} (h : RowOk fl cols j vs) :
    ∃ out, Rec.setChars fl db (rowText vs) = some (some out) ∧ out.length = db.size ∧ List.Forall₂ (IsRec fl cols j db) (split db.size out) [vs] := by
  obtain ⟨out, h1, h2, h3⟩ := set_row (fl := fl) ht.made ht.fields (fields_texted h) (by rw [h.length, layout_length]) (row_readable h)
  have hs : split db.size out = [out] := by
    have : out.length / db.size = 1 := by rw [h2, Nat.div_self (size_pos ht)]
    unfold split
    rw [this]
    simp [List.take_of_length_le (Nat.le_of_eq h2)]
  refine ⟨out, h1, h2, ?_⟩
  rw [hs]
  exact .cons ⟨h2, h, vals_target h h3, h3⟩ .nil

theorem isRec_time {fl : Fl} {cols : List Col} {j : Nat} {db : Db} (ht : Tab cols j db) {r : Bytes} {vs : List Val} (h : IsRec fl cols j db r vs) :
    (Dyn.getMindex db 0 r).getD 0 = timeOf j vs := by
  obtain ⟨n, h0, hn⟩ := h.row.time
  have hj : j < (layout 0 cols).length := by
    rw [layout_length, ← h.row.length]
    exact (List.getElem?_eq_some_iff.1 hn).1
  have hf := List.getElem?_eq_getElem hj
  obtain ⟨⟨hc, -, -⟩, -⟩ := h.row.exact j _ _ hf hn
  rw [ht.time _ hf r h.length hc.2]
  have hv : vs[j]? = some (valOf fl (layout 0 cols)[j] (slot db.size r 0 (layout 0 cols)[j] 0)) := by
    rw [← h.vals, valsOf_one (layout_count 0), List.getElem?_map, hf]
    rfl
  rw [hn] at hv
  injection hv with hv
  have h3 : ¬ ((layout 0 cols)[j].style = .float ∨ (layout 0 cols)[j].style = .price) ∧ ¬ (layout 0 cols)[j].style = .char := by
    rcases hc.1 with e | e | e | e | e | e <;> rw [e] <;> decide
  rw [valOf, if_neg h3.1, if_neg h3.2] at hv
  injection hv with hv
  unfold timeOf
  rw [hn]
  simp only [Option.getD_some]
  unfold Dyn.num at hv
  have hp : (0 : Int) < 2 ^ (8 * (layout 0 cols)[j].len) := Int.pow_pos (by decide)
  have hs : (slot db.size r 0 (layout 0 cols)[j] 0).length = (layout 0 cols)[j].len := by
    have hfit := layout_fits ht _ (List.getElem_mem hj)
    exact slot_length (by rw [h.length]; omega) hfit.2 (by rw [hfit.1]; decide)
  have hlt := leVal_lt (slot db.size r 0 (layout 0 cols)[j] 0)
  rw [hs, show 256 = 2 ^ 8 from rfl, ← Nat.pow_mul] at hlt
  have hlt : (leVal (slot db.size r 0 (layout 0 cols)[j] 0) : Int) < 2 ^ (8 * (layout 0 cols)[j].len) := by exact_mod_cast hlt
  split at hv <;> omega

/-- Records of rows are shown as these rows. -/
theorem told_recs {fl : Fl} {cols : List Col} {j : Nat} {db : Db} (ht : Tab cols j db) {recs : List Bytes} {rows : List (List Val)}
    (h : List.Forall₂ (IsRec fl cols j db) recs rows) (h31 : recs.length < 2 ^ 31) {key : Bytes} (hk : PlainText key) :
    (Rec.toArray fl db (some key) recs.flatten).map charsOf = some (told key rows) := by
  have hlen : ∀ x ∈ recs, x.length = db.size := by
    intro x hx
    obtain ⟨i, hi, rfl⟩ := List.getElem_of_mem hx
    exact ((List.forall₂_iff_get.1 h).2 i hi (by rw [← h.length_eq]; exact hi)).length
  have hfl : recs.flatten.length = recs.length * db.size := by
    clear h h31
    induction recs with
    | nil => simp
    | cons x recs ih =>
      rw [List.flatten_cons, List.length_append, ih fun x hx => hlen x (by simp [hx]), hlen x (by simp), List.length_cons, Nat.succ_mul, Nat.add_comm]
  have hv : ∀ (i : Nat) (hi : i < rows.length), valsOf fl (layout 0 cols) db.size recs.flatten i = rows[i] := by
    intro i hi
    have hi' : i < recs.length := by rw [h.length_eq]; exact hi
    rw [vals_flatten ht fl hlen (List.getElem?_eq_getElem hi')]
    exact ((List.forall₂_iff_get.1 h).2 i hi' hi).vals
  cases hr : rows with
  | nil =>
    subst hr
    cases h
    rw [List.flatten_nil, C86_empty_partial fl ht.made ht.fields]
    rfl
  | cons vs rows' =>
    have hok : RowOk fl cols j vs := by
      subst hr
      cases h with
      | cons h _ => exact h.row
    have hpos : 0 < rows.length := by rw [hr]; simp
    have hfne : layout 0 cols ≠ [] := by
      intro e
      have : cols.length = 0 := by rw [← layout_length cols 0, e]; rfl
      obtain ⟨n, _, hn⟩ := hok.time
      have := (List.getElem?_eq_some_iff.1 hn).1
      have := hok.length
      omega
    rw [C86_text_partial fl ht.made ht.fields hfne (fun f hf => (fields_texted hok f hf).2) hfl (by rw [h.length_eq]; omega) h31 ?_ _
      (fun k e => by cases e; exact hk)]
    · rw [h.length_eq]
      have hmap : (List.range rows.length).map (valsOf fl (layout 0 cols) db.size recs.flatten) = rows := by
        refine List.ext_getElem (by simp) fun i hi1 hi2 => ?_
        rw [List.getElem_map, List.getElem_range, hv i hi2]
      rw [hmap, Option.map_some, hv 0 hpos]
      subst hr
      cases rows' with
      | nil => rfl
      | cons a b => simp [charsOf, told]
    · intro r hr' v hv'
      rw [h.length_eq] at hr'
      rw [hv r hr'] at hv'
      have hr'' : r < recs.length := by rw [h.length_eq]; exact hr'
      exact row_plain ((List.forall₂_iff_get.1 h).2 r hr'' hr').row v hv'

end Sis.Io
