import Verif.Io.FormatLemmas
import Verif.Io.IoTheorems
/-
What clients of a database in memory get in other formats: C97.
-/
namespace Sis.Io
open Sis
open Sis.Dyn (Db Field)
open Sis.Fmap (Sorted)
open Sis.Rec (Fl Val rowText rowsText PlainText obj dec valsOf)

/-- C97: a query finds the same rows in all formats.  As arrays and as an object they are shown as without a format; as bytes there is
a record of each row, from which its values can be read; as CSV there is a line of each row.  For histories as in C96, queries that
find rows, and CSV values as in C92. -/
theorem C97_formats_partial {e : Env} {cols : List Col} {j : Nat} {tname key : Bytes} {pre : List Cmd} {acts : List Act} {c : Cxt} {rs : List Reply}
    (h : Reached e cols j tname key pre acts c rs) :
    ∃ rows, Sorted (timeOf j) rows ∧ rows.Perm (left (timeOf j) [] acts) ∧
      ∀ q : Cond, q.Ok (timeOf j) rows → q.found (timeOf j) rows ≠ [] →
        get e c key (some (askText q [])) = some (told key (q.found (timeOf j) rows)) ∧
        get e c key (some (formatText q "array")) = some (told key (q.found (timeOf j) rows)) ∧
        get e c key (some (formatText q "json")) = some (told key (q.found (timeOf j) rows)) ∧
        (∃ buf, get e c key (some (formatText q "bytes")) = some (.bytes buf) ∧
          buf.length = (q.found (timeOf j) rows).length * (cols.map Col.len).sum ∧
          ∀ i row, (q.found (timeOf j) rows)[i]? = some row → valsOf e.fl (layout 0 cols) (cols.map Col.len).sum buf i = row) ∧
        ((∀ row ∈ q.found (timeOf j) rows, LineOk row) → get e c key (some (formatText q "csv")) =
          some (.chars (Csv.textOf 44 [13, 10] ((q.found (timeOf j) rows).map fun row => row.map Csv.shown)))) := by
  obtain ⟨h1, db, rows, ht, hi, hp, hl, ho⟩ := reached_inv h
  refine ⟨rows, hi.sorted, hp, fun q hq hf => ⟨get_told ht h.name.2 hi hl hq, ?_, ?_, ?_, ?_⟩⟩
  · have he : "array".toUTF8.toList = [97, 114, 114, 97, 121] := by decide +kernel
    obtain ⟨part, p1, p2, p3⟩ := get_format ht hi hl hq hf he (by rw [he]; unfold PlainText; decide)
    rw [p3]
    exact told_recs ht p1 p2 h.name.2
  · have he : "json".toUTF8.toList = [106, 115, 111, 110] := by decide +kernel
    obtain ⟨part, p1, p2, p3⟩ := get_format ht hi hl hq hf he (by rw [he]; unfold PlainText; decide)
    rw [p3]
    exact told_recs ht p1 p2 h.name.2
  · have he : "bytes".toUTF8.toList = [98, 121, 116, 101, 115] := by decide +kernel
    obtain ⟨part, p1, p2, p3⟩ := get_format ht hi hl hq hf he (by rw [he]; unfold PlainText; decide)
    have hb := recs_buf ht p1
    refine ⟨part.flatten, by rw [p3]; rfl, by rw [← ht.size]; exact hb.length, fun i row hr => ?_⟩
    rw [← ht.size, ← fieldsAt_all, vals_pick hb _ hr, picked_all (hb.holds i row hr).1]
  · intro hline
    have he : "csv".toUTF8.toList = [99, 115, 118] := by decide +kernel
    obtain ⟨part, p1, p2, p3⟩ := get_format ht hi hl hq hf he (by rw [he]; unfold PlainText; decide)
    have hb := recs_buf ht p1
    have hall : ∀ row ∈ q.found (timeOf j) rows, picked (List.range cols.length) row = row := by
      intro row hr
      obtain ⟨i, hi⟩ := List.getElem?_of_mem hr
      exact picked_all (hb.holds i row hi).1
    have hsh := fun r => shows_pick hb (List.range cols.length) (fun row hr => by rw [hall row hr]; exact hline row hr) (r := r)
    have hvals := vals_rows hb (List.range cols.length)
    rw [fieldsAt_all] at hsh hvals
    have hne : layout 0 cols ≠ [] := by
      intro hn
      obtain ⟨c, hc, -⟩ := h.time
      have := layout_length cols 0
      rw [hn] at this
      rw [List.eq_nil_of_length_eq_zero (l := cols) this.symm] at hc
      cases hc
    rw [p3]
    show (Csv.toCsv e.fl db part.flatten).map Reply.chars = _
    rw [Csv.C92_text_partial e.fl ht.made ht.fields hne hb.length (by rw [← p1.length_eq]; exact p2) (fun r hr => (hsh r hr).1) (fun r hr => (hsh r hr).2)]
    have hmm : (List.range (q.found (timeOf j) rows).length).map (fun r => (valsOf e.fl (layout 0 cols) db.size part.flatten r).map Csv.shown) =
        (q.found (timeOf j) rows).map fun row => row.map Csv.shown := by
      have := congrArg (List.map fun row : List Val => row.map Csv.shown) hvals
      rw [List.map_map, List.map_map] at this
      refine this.trans (List.map_congr_left fun row hr => ?_)
      show (picked _ row).map _ = _
      rw [hall row hr]
    rw [hmm]
    rfl

/-- C97: if a query names columns, its answer has these columns of the same rows, in the order they are named: as arrays, as an object
that tells which column is which, and as CSV with their names in the first line. -/
theorem C97_fields_partial {e : Env} {cols : List Col} {j : Nat} {tname key : Bytes} {pre : List Cmd} {acts : List Act} {c : Cxt} {rs : List Reply}
    (h : Reached e cols j tname key pre acts c rs) {ns : List Bytes} {is : List Nat} (hn : List.Forall₂ (Asked cols) ns is) (hne : ns ≠ [])
    (hlen : ns.length < 2 ^ 31) :
    ∃ rows, Sorted (timeOf j) rows ∧ rows.Perm (left (timeOf j) [] acts) ∧
      ∀ q : Cond, q.Ok (timeOf j) rows → q.found (timeOf j) rows ≠ [] →
        get e c key (some (askText q [])) = some (told key (q.found (timeOf j) rows)) ∧
        get e c key (some (fieldsText q ns "array")) = some (.chars (rowsText ((q.found (timeOf j) rows).map (picked is)))) ∧
        get e c key (some (fieldsText q ns "json")) = some (.chars (obj
          [("fields".toUTF8.toList, obj ((names cols is).zipIdx.map fun p => (p.1, dec p.2))),
           (key, rowsText ((q.found (timeOf j) rows).map (picked is)))])) ∧
        ((∀ row ∈ q.found (timeOf j) rows, LineOk (picked is row)) → get e c key (some (fieldsText q ns "csv")) =
          some (.chars (Csv.textOf 44 [13, 10] (names cols is :: (q.found (timeOf j) rows).map fun row => (picked is row).map Csv.shown)))) := by
  obtain ⟨h1, db, rows, ht, hi, hp, hl, ho⟩ := reached_inv h
  have hnf := asked_field ht hn
  have hfm : ns.filterMap (Dyn.field db) = fieldsAt cols is := by
    have := congrArg (List.filterMap id) hnf
    rw [List.filterMap_map, List.filterMap_map] at this
    simpa using this
  have hfne : fieldsAt cols is ≠ [] := by
    intro h0
    rw [h0] at hnf
    exact hne (List.map_eq_nil_iff.1 hnf)
  have hcount : ∀ f ∈ fieldsAt cols is, f.count = 1 := by
    intro f hf
    obtain ⟨i, -, hi⟩ := fieldsAt_mem hf
    exact layout_count 0 f (List.mem_of_getElem? hi)
  have hfname : ∀ f ∈ fieldsAt cols is, f.fname ≠ [] ∧ PlainText f.fname := by
    intro f hf
    obtain ⟨i, -, hi⟩ := fieldsAt_mem hf
    have := layout_names cols 0 i
    rw [hi] at this
    obtain ⟨d, hd, he⟩ := Option.map_eq_some_iff.1 this.symm
    rw [← he]
    have := (h.table.each d (List.mem_of_getElem? hd)).name
    exact ⟨this.1, this.2.2⟩
  refine ⟨rows, hi.sorted, hp, fun q hq hf => ?_⟩
  have htext : ∀ {part : List Bytes}, List.Forall₂ (IsRec e.fl cols j db) part (q.found (timeOf j) rows) → (∀ f ∈ fieldsAt cols is, Rec.Texted f) ∧
      ∀ r, r < (q.found (timeOf j) rows).length → ∀ v ∈ valsOf e.fl (fieldsAt cols is) db.size part.flatten r, Rec.Plain v := by
    intro part p1
    have hb := recs_buf ht p1
    constructor
    · intro f hf'
      obtain ⟨i, -, hi⟩ := fieldsAt_mem hf'
      obtain ⟨row, hrow⟩ := List.exists_mem_of_ne_nil _ hf
      obtain ⟨r, hr⟩ := List.getElem?_of_mem hrow
      obtain ⟨v, -, hv, -⟩ := (hb.holds r row hr).2 i f hi
      exact (Rec.suits_readable hv.1).2
    · intro r hr v hv
      rw [vals_pick hb is (List.getElem?_eq_getElem hr)] at hv
      obtain ⟨f, hf⟩ := picked_exact hb is (List.getElem?_eq_getElem hr) v hv
      exact exact_plain hf
  refine ⟨get_told ht h.name.2 hi hl hq, ?_, ?_, ?_⟩
  · have he : "array".toUTF8.toList = [97, 114, 114, 97, 121] := by decide +kernel
    obtain ⟨part, p1, p2, p3⟩ := get_fields ht hi hl hq hf h.table.each he (by rw [he]; unfold PlainText; decide) hn hne
    have hb := recs_buf ht p1
    rw [p3]
    show (Rec.fieldsToArray e.fl db ns part.flatten).map charsOf = _
    rw [Rec.C91_array_partial e.fl ht.made (by rw [hfm]; exact (htext p1).1) hb.length (by rw [← p1.length_eq]; exact p2)
      (by rw [hfm]; exact (htext p1).2), hfm, vals_rows hb is]
    rfl
  · have he : "json".toUTF8.toList = [106, 115, 111, 110] := by decide +kernel
    obtain ⟨part, p1, p2, p3⟩ := get_fields ht hi hl hq hf h.table.each he (by rw [he]; unfold PlainText; decide) hn hne
    have hb := recs_buf ht p1
    rw [p3]
    show (Rec.fieldsToJson e.fl db key ns part.flatten).map charsOf = _
    rw [Rec.C91_object_partial e.fl ht.made hnf (fun f hf => ⟨hcount f hf, (htext p1).1 f hf, (hfname f hf).2⟩) hlen hb.length
      (by rw [← p1.length_eq]; exact p2) (htext p1).2 h.name.2, vals_rows hb is, ← fieldsAt_names]
    have : (fieldsAt cols is).zipIdx.map (fun p => (p.1.fname, dec p.2)) = ((fieldsAt cols is).map Field.fname).zipIdx.map fun p => (p.1, dec p.2) := by
      rw [List.zipIdx_map, List.map_map]
      rfl
    rw [this]
    rfl
  · intro hline
    have he : "csv".toUTF8.toList = [99, 115, 118] := by decide +kernel
    obtain ⟨part, p1, p2, p3⟩ := get_fields ht hi hl hq hf h.table.each he (by rw [he]; unfold PlainText; decide) hn hne
    have hb := recs_buf ht p1
    have hsh := fun r => shows_pick hb is hline (r := r)
    have hheads : Csv.heads (fieldsAt cols is) = names cols is := by
      rw [← fieldsAt_names]
      unfold Csv.heads
      generalize fieldsAt cols is = fs at hcount
      induction fs with
      | nil => rfl
      | cons f fs ih =>
        rw [List.flatMap_cons, hcount f (by simp), ih fun f hf => hcount f (by simp [hf])]
        simp [Rec.elemName, hcount f (by simp)]
    rw [p3]
    show (Csv.fieldsToCsv e.fl db ns part.flatten).map Reply.chars = _
    rw [Csv.C92_fields_partial e.fl ht.made hnf hfne (fun f hf => ⟨(hfname f hf).1, fun c hc => by
        have := ((hfname f hf).2 c hc).1
        constructor <;> rintro rfl <;> revert this <;> decide⟩) hb.length (by rw [← p1.length_eq]; exact p2)
      (fun r hr => (hsh r hr).1) (fun r hr => (hsh r hr).2), hheads]
    have hmm : (List.range (q.found (timeOf j) rows).length).map (fun r => (valsOf e.fl (fieldsAt cols is) db.size part.flatten r).map Csv.shown) =
        (q.found (timeOf j) rows).map fun row => (picked is row).map Csv.shown := by
      have := congrArg (List.map fun row : List Val => row.map Csv.shown) (vals_rows hb is)
      rwa [List.map_map, List.map_map] at this
    rw [hmm]
    rfl

theorem asked₀ : List.Forall₂ (Asked cols₀) ["NM".toUTF8.toList, "time".toUTF8.toList] [2, 0] := by
  have h : ∀ n ∈ ["NM".toUTF8.toList, "time".toUTF8.toList], (∀ c ∈ n, (32 ≤ c ∧ c ≠ 34 ∧ c ≠ 92) ∧ c ≠ 44 ∧ 32 < c ∧ c ≠ 42) := by decide +kernel
  have hok : ∀ n ∈ ["NM".toUTF8.toList, "time".toUTF8.toList], ∀ i, (∃ c, cols₀[i]? = some c ∧ n.map lower = c.name.map lower) → Asked cols₀ n i :=
    fun n hn i hs => ⟨hs, ⟨fun c hc => (h n hn c hc).1, fun c hc => (h n hn c hc).2.1⟩,
      fun c hc => (h n hn c (List.mem_of_head? hc)).2.2, fun c hc => (h n hn c (List.mem_of_getLast? hc)).2.2.1⟩
  exact .cons (hok _ (by simp) 2 ⟨_, rfl, by decide +kernel⟩) (.cons (hok _ (by simp) 0 ⟨_, rfl, by decide +kernel⟩) .nil)

example : (run e₀ .empty (pre₀ ++ .create "t".toUTF8.toList (some (tableText cols₀)) :: acts₀.map (Act.cmd key₀))).map (fun p =>
      (get e₀ p.1 key₀ (some (formatText (.range 1500 2000 false) "csv")),
       get e₀ p.1 key₀ (some (fieldsText (.range 1500 2000 false) ["NM".toUTF8.toList, "time".toUTF8.toList] "array")),
       get e₀ p.1 key₀ (some (fieldsText (.at 1500) ["NM".toUTF8.toList, "time".toUTF8.toList] "json")))) =
    some (some (.chars "1500,7,late\r\n2000,5,b\r\n2000,6,\r\n".toUTF8.toList),
      some (.chars "[[\"late\",1500],[\"b\",2000],[\"\",2000]]".toUTF8.toList),
      some (.chars "{\"fields\":{\"nm\":0,\"time\":1},\"K.t\":[[\"late\",1500]]}".toUTF8.toList)) := by
  decide +kernel

/-- C97 is violated by CSV lines that begin with an empty text: the comma behind it is missing, and the next value is in its column. -/
theorem C97_empty_violated : (run e₀ .empty (.create "t".toUTF8.toList (some (tableText cols₀)) ::
      [.row (row₀ 1500 7 "")].map (Act.cmd key₀))).map (fun p =>
      (get e₀ p.1 key₀ (some (fieldsText .latest ["nm".toUTF8.toList, "val".toUTF8.toList] "csv")),
       get e₀ p.1 key₀ (some (fieldsText .latest ["nm".toUTF8.toList, "val".toUTF8.toList] "array")))) =
    some (some (.chars "nm,val\r\n7\r\n".toUTF8.toList), some (.chars "[[\"\",7]]".toUTF8.toList)) := by
  decide +kernel

/-- C97 is violated by names a table does not have: the answer has fewer columns, and nothing says which are missing. -/
theorem C97_unknown_violated : (run e₀ .empty (.create "t".toUTF8.toList (some (tableText cols₀)) ::
      [.row (row₀ 1500 7 "a")].map (Act.cmd key₀))).map (fun p =>
       get e₀ p.1 key₀ (some (fieldsText .latest ["time".toUTF8.toList, "vol".toUTF8.toList, "val".toUTF8.toList] "array"))) =
    some (some (.chars "[[1500,7]]".toUTF8.toList)) := by
  decide +kernel

end Sis.Io
