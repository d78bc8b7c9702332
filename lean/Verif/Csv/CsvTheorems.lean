import Verif.Csv.MakeLemmas
import Verif.Rec.RecTheorems
/-
C92: records as CSV text.  C93: a CSV file opened.  C94: a CSV file read line by line.  C95: records written as CSV and read
again.
-/
namespace Sis.Csv
open Sis
open Sis.Dyn (Db Field St slot num Made Def)
open Sis.Rec (Fl Val Counts dec decInt valOf valsOf FieldsAre elemName fl₀ db₀ db₂ fid fnm fpx buf₀ made₀ fields₀)

theorem decInt_chars (v : Int) : decInt v ≠ [] ∧ ∀ c ∈ decInt v, c = 45 ∨ (48 ≤ c ∧ c ≤ 57) := by
  have hd : ∀ n, ∀ c ∈ dec n, (48 ≤ c ∧ c ≤ 57) := fun n c hc => by
    have := (Rec.dec_facts n).2.1 c hc
    simpa [Num.isDigit] using this
  unfold decInt
  split
  · refine ⟨by simp, ?_⟩
    intro c hc
    rcases List.mem_cons.1 hc with rfl | hc
    · exact .inl rfl
    · exact .inr (hd _ c hc)
  · exact ⟨(Rec.dec_facts _).1, fun c hc => .inr (hd _ c hc)⟩

theorem shows_line {fl : Fl} {f : Field} {b : Bytes} (h : Shows fl f b) : (10 : UInt8) ∉ shown (valOf fl f b) := by
  rcases h with ⟨hc, -⟩ | ⟨hc, s, k, hs, hb⟩ | ⟨hc, -, -, h10⟩
  · rw [valOf_counts hc]
    intro hx
    rcases (decInt_chars _).2 _ hx with h | h
    · exact absurd h (by decide)
    · exact absurd h.1 (by decide)
  · have h1 : valOf fl f b = .text (b.takeWhile (· ≠ 0)) := by unfold valOf; simp [hc]
    rw [h1]
    intro hx
    have hm := List.takeWhile_subset (p := fun c => decide (c ≠ 0)) hx
    rw [hb] at hm
    rcases List.mem_append.1 hm with h | h
    · exact (hs _ h).2 rfl
    · have := (List.mem_replicate.1 h).2
      exact absurd this (by decide)
  · have h1 : valOf fl f b = .raw (fl.toText f b) := by unfold valOf; rw [if_pos hc]
    rw [h1]
    exact h10

theorem row_ok {fl : Fl} {fs : List Field} {size : Nat} {buf : Bytes} {r : Nat} (hne : fs ≠ []) (hc : ∀ f ∈ fs, 1 ≤ f.count)
    (hs : ∀ f ∈ fs, ∀ e, e < f.count → Shows fl f (slot size buf r f e))
    (h0 : ∀ v, (valsOf fl fs size buf r).head? = some v → shown v ≠ []) : LineOk ((valsOf fl fs size buf r).map shown) := by
  refine ⟨?_, ?_⟩
  · cases hv : valsOf fl fs size buf r with
    | nil =>
      exfalso
      cases fs with
      | nil => exact hne rfl
      | cons f fs =>
        have := hc f (by simp)
        simp only [valsOf, List.flatMap_cons, List.append_eq_nil_iff, List.map_eq_nil_iff, List.range_eq_nil] at hv
        omega
    | cons v vs => exact ⟨_, _, rfl, h0 v (by rw [hv]; rfl)⟩
  · intro x hx
    obtain ⟨v, hv, rfl⟩ := List.mem_map.1 hx
    obtain ⟨f, hf, hv⟩ := List.mem_flatMap.1 hv
    obtain ⟨e, he, rfl⟩ := List.mem_map.1 hv
    exact shows_line (hs f hf e (by simpa using he))

theorem field_name {db : Db} (hm : Made db) {n : Bytes} {f : Field} (h : Dyn.field db n = some f) : f.fname.length ≤ 31 := by
  unfold Dyn.field at h
  obtain ⟨a, ha, hu⟩ := Option.bind_eq_some_iff.1 h
  unfold Dyn.getN at ha
  obtain ⟨e, he, rfl⟩ := Option.map_eq_some_iff.1 ha
  obtain ⟨i, hi⟩ := List.getElem?_of_mem (List.mem_of_find?_eq_some he)
  obtain ⟨f', h1, -, -, -, h5⟩ := (Dyn.made_lay hm).live i e hi
  have h1 : Dyn.unit db e.2 = some f' := h1
  rw [hu] at h1; cases h1
  have : f.fname.map lower = (e.1.take 31).map lower := by simpa [Dyn.sameN] using h5
  have := congrArg List.length this
  simp at this
  omega

/-! ### C92 -/

/-- C92: the CSV text of records has a line for each record, with the values of its elements in the order of the fields and
commas between them.  The first column must not be empty, numbers have at most 14 bytes. -/
theorem C92_text_partial (fl : Fl) {db : Db} {fs : List Field} (hm : Made db) (hfs : FieldsAre db fs) (hne : fs ≠ []) {buf : Bytes} {n : Nat}
    (hb : buf.length = n * db.size) (hn : n < 2 ^ 31) (hs : ∀ r, r < n → ∀ f ∈ fs, ∀ e, e < f.count → Shows fl f (slot db.size buf r f e))
    (h0 : ∀ r, r < n → ∀ v, (valsOf fl fs db.size buf r).head? = some v → shown v ≠ []) :
    toCsv fl db buf = some (textOf 44 [13, 10] ((List.range n).map fun r => (valsOf fl fs db.size buf r).map shown)) := by
  obtain ⟨h1, h2⟩ := Rec.fieldsOf_are hm hfs
  rw [toCsv, Rec.recCount_eq (Rec.made_size hm).1 hb hn, h1]
  simp only [Option.bind_eq_bind, Option.bind_some]
  rw [lines_val (fun f hf => ⟨(h2 f hf).1, (h2 f hf).2.1⟩) n 0 [] (.inl rfl) (by rw [hb]; simp), List.nil_append, List.range_eq_range']
  intro r _ hr
  exact ⟨hs r (by omega), row_ok hne (fun f hf => (h2 f hf).2.2.1) (hs r (by omega)) (h0 r (by omega))⟩

theorem heads_ok {fs : List Field} (hne : fs ≠ []) (hc : ∀ f ∈ fs, 1 ≤ f.count) (hnm : ∀ f ∈ fs, f.fname ≠ [] ∧ ∀ c ∈ f.fname, c ≠ 0 ∧ c ≠ 10) :
    (∀ x ∈ heads fs, x ≠ [] ∧ ∀ c ∈ x, c ≠ 0 ∧ c ≠ 10) ∧ heads fs ≠ [] := by
  refine ⟨?_, ?_⟩
  · intro x hx
    obtain ⟨f, hf, hx⟩ := List.mem_flatMap.1 hx
    obtain ⟨e, he, rfl⟩ := List.mem_map.1 hx
    obtain ⟨h1, h2⟩ := hnm f hf
    unfold elemName
    split
    · refine ⟨by simp [h1], ?_⟩
      intro c hc
      rcases List.mem_append.1 hc with hc | hc
      · exact h2 c hc
      · have := (Rec.dec_facts e).2.1 c hc
        have : (48 ≤ c ∧ c ≤ 57) := by simpa [Num.isDigit] using this
        constructor
        · rintro rfl; exact absurd this.1 (by decide)
        · rintro rfl; exact absurd this.1 (by decide)
    · exact ⟨h1, h2⟩
  · cases fs with
    | nil => exact absurd rfl hne
    | cons f fs =>
      have := hc f (by simp)
      intro hx
      simp only [heads, List.flatMap_cons, List.append_eq_nil_iff, List.map_eq_nil_iff, List.range_eq_nil] at hx
      omega

/-- The line of names. -/
theorem head_text {fs : List Field} (hne : fs ≠ []) (hin : ∀ f ∈ fs, 1 ≤ f.count ∧ f.count ≤ 65536 ∧ f.fname.length ≤ 31)
    (hnm : ∀ f ∈ fs, f.fname ≠ [] ∧ ∀ c ∈ f.fname, c ≠ 0 ∧ c ≠ 10) : head (fs.map some) [] = some (join 44 (heads fs) ++ [13, 10]) := by
  obtain ⟨h1, h2⟩ := heads_ok hne (fun f hf => (hin f hf).1) hnm
  have h3 := nameCells_heads hin
  rw [head_val, h3, makeEnd, putCells_line (.inl rfl), List.nil_append]
  · refine ⟨?_, fun x hx hc => ((h1 x hx).2 10 hc).2 rfl⟩
    cases hh : heads fs with
    | nil => exact absurd hh h2
    | cons t r => exact ⟨t, r, rfl, (h1 t (by rw [hh]; simp)).1⟩
  · intro f hf n hn
    have : n ∈ heads fs := by rw [← h3]; exact List.mem_flatMap.2 ⟨f, hf, hn⟩
    exact ⟨(h1 n this).1, fun c hc => ((h1 n this).2 c hc).1⟩

/-- C92: with the names of the fields, a line of names comes first; an element of a field of several has its number behind the
name. -/
theorem C92_names_partial (fl : Fl) {db : Db} {fs : List Field} (hm : Made db) (hfs : FieldsAre db fs) (hne : fs ≠ [])
    (hnm : ∀ f ∈ fs, f.fname ≠ [] ∧ ∀ c ∈ f.fname, c ≠ 0 ∧ c ≠ 10) {buf : Bytes} {n : Nat}
    (hb : buf.length = n * db.size) (hn : n < 2 ^ 31) (hs : ∀ r, r < n → ∀ f ∈ fs, ∀ e, e < f.count → Shows fl f (slot db.size buf r f e))
    (h0 : ∀ r, r < n → ∀ v, (valsOf fl fs db.size buf r).head? = some v → shown v ≠ []) :
    structToCsv fl db buf = some (textOf 44 [13, 10] (heads fs :: (List.range n).map fun r => (valsOf fl fs db.size buf r).map shown)) := by
  obtain ⟨h1, h2⟩ := Rec.fieldsOf_are hm hfs
  have hcnt := Rec.made_count hm hfs
  rw [structToCsv, h1]
  simp only [Option.bind_eq_bind, Option.bind_some]
  rw [head_text hne (fun f hf => ⟨(h2 f hf).2.2.1, hcnt f hf, (h2 f hf).2.2.2⟩) hnm, Option.bind_some,
    Rec.recCount_eq (Rec.made_size hm).1 hb hn, Option.bind_some,
    lines_val (fun f hf => ⟨(h2 f hf).1, (h2 f hf).2.1⟩) n 0 _ (.inr (by simp)) (by rw [hb]; simp), List.range_eq_range']
  · simp [textOf]
  · intro r _ hr
    exact ⟨hs r (by omega), row_ok hne (fun f hf => (h2 f hf).2.2.1) (hs r (by omega)) (h0 r (by omega))⟩

/-- C92: a query for some fields gives the columns of these fields in the order of the names, behind a line of names. -/
theorem C92_fields_partial (fl : Fl) {db : Db} (hm : Made db) {ns : List Bytes} {fs : List Field} (hnf : ns.map (Dyn.field db) = fs.map some)
    (hne : fs ≠ []) (hnm : ∀ f ∈ fs, f.fname ≠ [] ∧ ∀ c ∈ f.fname, c ≠ 0 ∧ c ≠ 10) {buf : Bytes} {n : Nat}
    (hb : buf.length = n * db.size) (hn : n < 2 ^ 31) (hs : ∀ r, r < n → ∀ f ∈ fs, ∀ e, e < f.count → Shows fl f (slot db.size buf r f e))
    (h0 : ∀ r, r < n → ∀ v, (valsOf fl fs db.size buf r).head? = some v → shown v ≠ []) :
    fieldsToCsv fl db ns buf = some (textOf 44 [13, 10] (heads fs :: (List.range n).map fun r => (valsOf fl fs db.size buf r).map shown)) := by
  have hin : ∀ f ∈ fs, f.offset + f.len * f.count ≤ db.size ∧ 1 ≤ f.len ∧ 1 ≤ f.count ∧ f.count ≤ 65536 ∧ f.fname.length ≤ 31 := by
    intro f hf
    have : some f ∈ ns.map (Dyn.field db) := by rw [hnf]; exact List.mem_map.2 ⟨f, hf, rfl⟩
    obtain ⟨nm, -, hnm⟩ := List.mem_map.1 this
    obtain ⟨h1, h2, h3⟩ := Rec.field_live hm hnm
    have hsz := (Rec.made_size hm).2
    have : 1 * f.count ≤ f.len * f.count := Nat.mul_le_mul_right _ h2
    exact ⟨h1, h2, h3, by omega, field_name hm hnm⟩
  rw [fieldsToCsv, Rec.pick_eq hm, hnf]
  simp only [Option.bind_eq_bind, Option.bind_some]
  rw [head_text hne (fun f hf => (hin f hf).2.2) hnm, Option.bind_some,
    Rec.recCount_eq (Rec.made_size hm).1 hb hn, Option.bind_some,
    lines_val (fun f hf => ⟨(hin f hf).1, (hin f hf).2.1⟩) n 0 _ (.inr (by simp)) (by rw [hb]; simp), List.range_eq_range']
  · simp [textOf]
  · intro r _ hr
    exact ⟨hs r (by omega), row_ok hne (fun f hf => (hin f hf).2.2.1) (hs r (by omega)) (h0 r (by omega))⟩

theorem shows₀ : ∀ r, r < 2 → ∀ f ∈ [fid, fnm, fpx], ∀ e, e < f.count → Shows fl₀ f (slot db₀.size buf₀ r f e) := by
  intro r hr f hf e he
  have hr : r = 0 ∨ r = 1 := by omega
  simp only [List.mem_cons, List.not_mem_nil, or_false] at hf
  rcases hf with rfl | rfl | rfl <;> (have he : e = 0 := by have : e < 1 := he; omega) <;> subst he <;> rcases hr with rfl | rfl
  · exact .inl ⟨⟨.inl rfl, .inr (.inr (.inl rfl))⟩, by decide +kernel⟩
  · exact .inl ⟨⟨.inl rfl, .inr (.inr (.inl rfl))⟩, by decide +kernel⟩
  · exact .inr (.inl ⟨rfl, [97, 98], 2, by decide, by decide⟩)
  · exact .inr (.inl ⟨rfl, [97, 98, 99, 100], 0, by decide, by decide⟩)
  · exact .inr (.inr ⟨.inl rfl, .inr rfl, by decide +kernel, by decide +kernel⟩)
  · exact .inr (.inr ⟨.inl rfl, .inr rfl, by decide +kernel, by decide +kernel⟩)

theorem first₀ : ∀ r, r < 2 → ∀ v, (valsOf fl₀ [fid, fnm, fpx] db₀.size buf₀ r).head? = some v → shown v ≠ [] := by
  intro r _ v hv
  have : v = .num (num fid (slot db₀.size buf₀ r fid 0)) := by
    simp [valsOf, valOf, fid] at hv
    exact hv.symm
  rw [this]
  exact (decInt_chars _).1

example : toCsv fl₀ db₀ buf₀ = some "-5,ab,7.0\r\n6,abcd,9.0\r\n".toUTF8.toList := by
  rw [C92_text_partial fl₀ made₀ fields₀ (by simp) (n := 2) (by decide) (by decide) shows₀ first₀]
  decide +kernel

example : structToCsv fl₀ db₀ buf₀ = some "id,nm,px\r\n-5,ab,7.0\r\n6,abcd,9.0\r\n".toUTF8.toList := by
  rw [C92_names_partial fl₀ made₀ fields₀ (by simp) (by decide +kernel) (n := 2) (by decide) (by decide) shows₀ first₀]
  decide +kernel

example : fieldsToCsv fl₀ db₀ ["PX".toUTF8.toList, "nm".toUTF8.toList] buf₀ = some "px,nm\r\n7.0,ab\r\n9.0,abcd\r\n".toUTF8.toList := by
  have hsub : ∀ f ∈ [fpx, fnm], f ∈ [fid, fnm, fpx] := by decide +kernel
  rw [C92_fields_partial fl₀ made₀ (fs := [fpx, fnm]) (by decide +kernel) (by simp) (by decide +kernel) (n := 2) (by decide) (by decide)
    (fun r hr f hf => shows₀ r hr f (hsub f hf)) ?_]
  · decide +kernel
  · intro r _ v hv
    have : v = .raw (fl₀.toText fpx (slot db₀.size buf₀ r fpx 0)) := by
      simp [valsOf, valOf, fpx] at hv
      exact hv.symm
    rw [this]
    simp [shown, fl₀]

/-- C92 is violated: when the first column is empty its comma is missing, and the others move; the bytes behind the end of a
text that fills its field are shown; the value of a week time is not shown. -/
theorem C92_violated_columns :
    (∃ db, Dyn.create [{ name := some [97], style := some .char, len := 2, count := 1 }, { name := some [98], style := some .uint, len := 1, count := 1 }] =
        some (some db) ∧
      toCsv fl₀ db [0, 0, 7] = some "7\r\n".toUTF8.toList) ∧
    (∃ db, Dyn.create [{ name := some [97], style := some .char, len := 3, count := 1 }] = some (some db) ∧
      toCsv fl₀ db [97, 0, 98] = some ([97, 0, 98] ++ [13, 10])) ∧
    ∃ db, Dyn.create [{ name := some [97], style := some .wsec, len := 8, count := 1 }] = some (some db) ∧
      toCsv fl₀ db [1, 2, 3, 4, 5, 6, 7, 8] = some " \r\n".toUTF8.toList :=
  ⟨⟨⟨[some ⟨[97], .char, 2, 1, 0, 0, false, false⟩, some ⟨[98], .uint, 1, 1, 2, 0, false, false⟩], [([97], 0), ([98], 1)], 3, none, none⟩,
      by decide +kernel, by decide +kernel⟩,
   ⟨⟨[some ⟨[97], .char, 3, 1, 0, 0, false, false⟩], [([97], 0)], 3, none, none⟩, by decide +kernel, by decide +kernel⟩,
   ⟨[some ⟨[97], .wsec, 8, 1, 0, 0, false, false⟩], [([97], 0)], 8, none, none⟩, by decide +kernel, by decide +kernel⟩

/-- C92 is violated: whatever `printf` makes of a floating point number, only the first 15 bytes of it are in the first column of
a line, and the first 14 in the others. -/
theorem C92_violated_long (o t : Bytes) : makeDouble [] t = t.take 15 ∧ makeDouble (o ++ [49]) t = o ++ [49] ++ 44 :: t.take 14 := by
  have h1 : sep [] = [] := rfl
  have h2 : sep (o ++ [49]) = [44] := sep_more (by simp) (by decide)
  constructor
  · rw [makeDouble, h1]; rfl
  · rw [makeDouble, h2]; rfl

/-- C92 is violated: a query for a name that is not a field uses a null pointer, whatever the records are. -/
theorem C92_violated_unknown (fl : Fl) {db : Db} (hm : Made db) {ns : List Bytes} {name : Bytes} (hn : name ∈ ns)
    (hf : Dyn.field db name = none) (buf : Bytes) : fieldsToCsv fl db ns buf = none := by
  have : ∀ (fs : List (Option Field)) (o : Bytes), none ∈ fs → head fs o = none := by
    intro fs
    induction fs with
    | nil => intro o h; simp at h
    | cons f fs ih =>
      intro o h
      cases f with
      | none => rfl
      | some f =>
        rw [head]
        cases names (nameCells f) o with
        | none => rfl
        | some o' => exact ih o' (by simpa using h)
  rw [fieldsToCsv, Rec.pick_eq hm]
  simp only [Option.bind_eq_bind, Option.bind_some]
  rw [this _ _ (List.mem_map.2 ⟨name, hn, hf⟩)]
  rfl

example : fieldsToCsv fl₀ db₀ [[122]] buf₀ = none := C92_violated_unknown fl₀ made₀ (name := [122]) (by simp) (by decide +kernel) _

/-! ### C93 -/

/-- C93: a file of lines of columns, read in whatever pieces, is opened with these lines: each column of each line is what the
text has there, and a name of the first line stands for its column (the last one of that name).  Each line has an end; columns
have no blanks at their ends, no zeros and no separators. -/
theorem C93_open_partial (junk c sign : UInt8) (hsign : sign = if c = 0 then 44 else c) {eol : Bytes} (he : Eol eol) (hs : sign ∉ eol)
    {hd : List Bytes} {rows : List (List Bytes)} (h : ∀ r ∈ hd :: rows, r ≠ [] ∧ ∀ x ∈ r, Clean sign x) (_hl : rows.length < 2 ^ 31)
    {reads : List Bytes} (hr : ∀ b ∈ reads, b ≠ []) (hf : reads.flatten = textOf sign eol (hd :: rows)) :
    ∃ o, openCsv junk c reads = some o ∧ size o = rows.length ∧ (∀ j : Nat, getHead o j = hd[j]?) ∧
      (∀ r j : Nat, r < 2 ^ 31 - 1 → fgetStr o r j = some (rows[r]?.bind (·[j]?))) ∧
      (∀ (r : Nat) name j, r < 2 ^ 31 - 1 → Column hd name j → getStr o r name = some (rows[r]?.bind (·[j]?))) ∧
      ∀ (r : Nat) name, r < 2 ^ 31 - 1 → (∀ x ∈ hd, x.map lower ≠ name.map lower) → getStr o r name = some none := by
  have hopen := open_rows junk c hsign he hs h (t := []) (by simp) hr (by simpa using hf)
  have hat : ∀ {α : Type} (l : List α) (j : Nat), at? l (j : Int) = l[j]? := by
    intro α l j
    rw [at?, if_pos (by omega)]
    simp
  have hget : ∀ r j : Nat, r < 2 ^ 31 - 1 → fgetStr ⟨headOf hd, hd :: rows⟩ r j = some (rows[r]?.bind (·[j]?)) := by
    intro r j hr
    rw [fgetStr, if_neg (by omega), show ((r : Int) + 1) = ((r + 1 : Nat) : Int) by omega, hat, List.getElem?_cons_succ]
    cases rows[r]? with
    | none => rfl
    | some x => simp [hat]
  refine ⟨_, hopen, by simp [size], ?_, hget, ?_, ?_⟩
  · intro j
    have : at? (hd :: rows) 0 = some hd := rfl
    rw [getHead, this, Option.bind_some, hat]
  · intro r name j hr hc
    rw [getStr, headOf_column hc]
    exact hget r j hr
  · intro r name hr hc
    rw [getStr, headOf_none hc]
    show fgetStr _ _ (-1) = _
    rw [fgetStr, if_neg (by omega)]
    cases at? (hd :: rows) (r + 1 : Int) with
    | none => rfl
    | some x => simp [at?]

/-- A file of three lines read in two pieces, cut in the middle of a column. -/
def reads₀ : List Bytes := ["a,b\n12,".toUTF8.toList, "x y\n,-3\n".toUTF8.toList]
def rows₀ : List (List Bytes) := [[[49, 50], [120, 32, 121]], [[], [45, 51]]]

theorem clean₀ : ∀ r ∈ [[97], [98]] :: rows₀, r ≠ [] ∧ ∀ x ∈ r, Clean 44 x := by
  intro r hr
  have h : ∀ r ∈ [[97], [98]] :: rows₀, r ≠ [] ∧ ∀ x ∈ r, (∀ c ∈ x, c ≠ 0 ∧ c ≠ 10 ∧ c ≠ 44) ∧ (x.head?.getD 33 > 32) ∧ x.getLast?.getD 33 > 32 := by decide
  obtain ⟨h1, h2⟩ := h r hr
  refine ⟨h1, fun x hx => ⟨(h2 x hx).1, ?_, ?_⟩⟩
  · intro c hc; have := (h2 x hx).2.1; rw [hc] at this; exact this
  · intro c hc; have := (h2 x hx).2.2; rw [hc] at this; exact this

example : ∃ o, openCsv 7 0 reads₀ = some o ∧ size o = 2 ∧ getStr o 1 [66] = some (some [45, 51]) ∧ fgetStr o 0 0 = some (some [49, 50]) := by
  obtain ⟨o, h1, h2, -, h4, h5, -⟩ := C93_open_partial 7 0 44 rfl (eol := [10]) (.inl rfl) (by decide) clean₀ (by decide) (reads := reads₀)
    (by decide +kernel) (by decide +kernel)
  refine ⟨o, h1, h2, ?_, h4 0 0 (by decide)⟩
  refine (h5 1 [66] 1 (by decide) ⟨⟨[98], rfl, by decide⟩, ?_⟩).trans rfl
  · intro k x hk hx
    match k with
    | 0 => omega
    | 1 => omega
    | k + 2 => simp at hx

/-- C93 is violated: what stands behind the last line end is lost, whatever the file is. -/
theorem C93_violated_tail (junk c sign : UInt8) (hsign : sign = if c = 0 then 44 else c) {eol : Bytes} (he : Eol eol) (hs : sign ∉ eol)
    {hd : List Bytes} {rows : List (List Bytes)} (h : ∀ r ∈ hd :: rows, r ≠ [] ∧ ∀ x ∈ r, Clean sign x) {tail : Bytes} (ht : (10 : UInt8) ∉ tail)
    {reads : List Bytes} (hr : ∀ b ∈ reads, b ≠ []) (hf : reads.flatten = textOf sign eol (hd :: rows) ++ tail) :
    ∃ o, openCsv junk c reads = some o ∧ size o = rows.length :=
  ⟨_, open_rows junk c hsign he hs h ht hr hf, by simp [size]⟩

example : ∃ o, openCsv 7 0 (reads₀ ++ ["5,6".toUTF8.toList]) = some o ∧ size o = 2 :=
  C93_violated_tail 7 0 44 rfl (eol := [10]) (.inl rfl) (by decide) clean₀ (tail := "5,6".toUTF8.toList) (by decide +kernel)
    (by decide +kernel) (by decide +kernel)

/-- C93 is violated: a column in quotes is cut at the separators in it, and blanks at the ends of columns go. -/
theorem C93_violated_quotes :
    (openCsv 7 0 ["a,b\n\"x,y\", 5 \n".toUTF8.toList]).map (·.list) =
      some [[[97], [98]], [[34, 120], [121, 34], [53]]] := by
  decide +kernel

/-! ### C94 -/

/-- C94: a subscriber to a file of lines of columns, read in whatever pieces, is called for each line that has an end, in their
order, with the columns of the line; the end of the line is part of the last one.  What stands behind the last end is left
out. -/
theorem C94_columns_partial (junk c sign : UInt8) (hsign : sign = if c = 0 then 44 else c) {eol : Bytes} (he : Eol eol) (hs : sign ∉ eol)
    {rows : List (List Bytes)} (h : ∀ r ∈ rows, r ≠ [] ∧ ∀ x ∈ r, sign ∉ x ∧ (10 : UInt8) ∉ x) {tail : Bytes} (ht : (10 : UInt8) ∉ tail)
    {reads : List Bytes} (hr : ∀ b ∈ reads, b ≠ []) (hf : reads.flatten = textOf sign eol rows ++ tail) :
    readSub junk c reads = some (rows.map (ended eol)) := by
  have hs10 : sign ≠ 10 := by
    rintro rfl
    apply hs
    rcases he with rfl | rfl <;> decide
  obtain ⟨ls, h1, h2, h3⟩ := text_feed (sign := sign) he hs10 (rows := rows) fun r hr x hx => ((h r hr).2 x hx).2
  rw [h1] at hf
  rw [readSub, file_lines junk hr hf h2 ht, h3, ← hsign, Option.map_some, List.map_map]
  congr 1
  apply List.map_congr_left
  intro r hr
  obtain ⟨g1, g2⟩ := h r hr
  have g3 : ∀ x ∈ r, sign ∉ x := fun x hx => (g2 x hx).1
  simp only [Function.comp_apply]
  rw [nums_join hs (eol_facts he).2 r g1 g3, cut_join hs r g1 g3]

example : readSub 7 0 (reads₀ ++ [[53]]) = some [[[97], [98, 10]], [[49, 50], [120, 32, 121, 10]], [[], [45, 51, 10]]] := by
  rw [C94_columns_partial 7 0 44 rfl (eol := [10]) (.inl rfl) (by decide) (rows := [[97], [98]] :: rows₀) (by decide) (tail := [53]) (by decide)
    (by decide +kernel) (by decide +kernel)]
  rfl

/-- C94: a number in a column of less than 62 bytes is read, whether it is the last of its line or not. -/
theorem C94_number_partial {v : Int} (h1 : -2 ^ 63 ≤ v) (h2 : v < 2 ^ 63) {eol : Bytes} (he : Eol eol) :
    colInt (decInt v) = some v ∧ colInt (decInt v ++ eol) = some v := by
  have hd : (decInt v).length ≤ 32 := by
    have hl : ∀ n, n < 10 ^ 31 → (dec n).length ≤ 31 := fun n hn => Rec.dec_length hn
    unfold decInt
    split
    · have := hl v.natAbs (by omega); simp; omega
    · have := hl v.toNat (by omega); omega
  have he2 : eol.length ≤ 2 := by rcases he with rfl | rfl <;> decide
  have hc : Clean 44 (decInt v) := by
    have hch := (decInt_chars v).2
    have hgt : ∀ c : UInt8, c = 45 ∨ (48 ≤ c ∧ c ≤ 57) → 32 < c ∧ c ≠ 0 ∧ c ≠ 10 ∧ c ≠ 44 := by
      have : ∀ n : Fin 256, (UInt8.ofNat n.val = 45 ∨ (48 ≤ UInt8.ofNat n.val ∧ UInt8.ofNat n.val ≤ 57)) →
          32 < UInt8.ofNat n.val ∧ UInt8.ofNat n.val ≠ 0 ∧ UInt8.ofNat n.val ≠ 10 ∧ UInt8.ofNat n.val ≠ 44 := by decide +kernel
      intro c
      have := this ⟨c.toNat, c.toNat_lt⟩
      simpa using this
    exact ⟨fun c hc => (hgt c (hch c hc)).2, fun c hc => (hgt c (hch c (List.mem_of_head? hc))).1,
      fun c hc => (hgt c (hch c (List.mem_of_getLast? hc))).1⟩
  have hclamp : Rec.clamp v = v := by unfold Rec.clamp; omega
  have hw : ∀ w : Bytes, w.length ≤ 2 → (∀ c ∈ w, c ≤ 32 ∧ c ≠ 0) → colInt (decInt v ++ w) = some v := by
    intro w hw hc'
    rw [colInt, if_neg (by rw [List.length_append]; omega), clean_load hc hc', Rec.atoll_dec, hclamp]
  exact ⟨by have := hw [] (by simp) (by simp); simpa using this, hw eol he2 (eol_facts he).1⟩

example : colInt (decInt (-3) ++ [10]) = some (-3) := (C94_number_partial (by decide) (by decide) (.inl rfl)).2

/-- C94 is violated: reading a number from a column of 64 bytes or more writes outside of its buffer. -/
theorem C94_violated_long (col : Bytes) (h : 64 ≤ col.length) : colInt col = none := by rw [colInt, if_pos h]

example : colInt (List.replicate 64 49) = none := C94_violated_long _ (by decide)

/-! ### C95 -/

/-- The elements of a record with their fields, in the order of the columns. -/
def elems (fs : List Field) : List (Field × Nat) := fs.flatMap fun f => (List.range f.count).map fun e => (f, e)

/-- C95: records written as CSV with their names, and opened as a file read in whatever pieces: under the name of an element each
line has the value of the element of its record.  Names are distinct, also when case is ignored. -/
theorem C95_roundtrip_partial (fl : Fl) {db : Db} {fs : List Field} (hm : Made db) (hfs : FieldsAre db fs) (hne : fs ≠ [])
    (hnm : ∀ f ∈ fs, f.fname ≠ [] ∧ Clean 44 f.fname) (hdist : ((heads fs).map (·.map lower)).Nodup) {buf : Bytes} {n : Nat}
    (hb : buf.length = n * db.size) (hn : n < 2 ^ 31)
    (hs : ∀ r, r < n → ∀ f ∈ fs, ∀ e, e < f.count → Shows fl f (slot db.size buf r f e) ∧ Clean 44 (shown (valOf fl f (slot db.size buf r f e))))
    (h0 : ∀ r, r < n → ∀ v, (valsOf fl fs db.size buf r).head? = some v → shown v ≠ []) :
    ∃ text, structToCsv fl db buf = some text ∧ ∀ (junk : UInt8) (reads : List Bytes), (∀ b ∈ reads, b ≠ []) → reads.flatten = text →
      ∃ o, openCsv junk 0 reads = some o ∧ size o = n ∧ ∀ r, r < n → r < 2 ^ 31 - 1 → ∀ f ∈ fs, ∀ e, e < f.count → ∀ name : Bytes,
        name.map lower = (elemName f e).map lower → getStr o r name = some (some (shown (valOf fl f (slot db.size buf r f e)))) := by
  have hin := (Rec.fieldsOf_are hm hfs).2
  refine ⟨_, C92_names_partial fl hm hfs hne (fun f hf => ⟨(hnm f hf).1, fun c hc => ⟨((hnm f hf).2.plain c hc).1, ((hnm f hf).2.plain c hc).2.1⟩⟩)
    hb hn (fun r hr f hf e he => (hs r hr f hf e he).1) h0, ?_⟩
  intro junk reads hreads hflat
  have hheads : heads fs = (elems fs).map fun q => elemName q.1 q.2 := by
    simp [heads, elems, List.map_flatMap, List.map_map, Function.comp_def]
  have hvals : ∀ r, (valsOf fl fs db.size buf r).map shown = (elems fs).map fun q => shown (valOf fl q.1 (slot db.size buf r q.1 q.2)) := by
    intro r
    simp [valsOf, elems, List.map_flatMap, List.map_map, Function.comp_def]
  have helem : ∀ q ∈ elems fs, q.1 ∈ fs ∧ q.2 < q.1.count := by
    intro q hq
    obtain ⟨f, hf, hq⟩ := List.mem_flatMap.1 hq
    obtain ⟨e, he, rfl⟩ := List.mem_map.1 hq
    exact ⟨hf, by simpa using he⟩
  have hnil : elems fs ≠ [] := by
    intro hx
    cases fs with
    | nil => exact hne rfl
    | cons f fs =>
      have := (hin f (by simp)).2.2.1
      simp only [elems, List.flatMap_cons, List.append_eq_nil_iff, List.map_eq_nil_iff, List.range_eq_nil] at hx
      omega
  have hclean : ∀ r ∈ heads fs :: (List.range n).map (fun r => (valsOf fl fs db.size buf r).map shown), r ≠ [] ∧ ∀ x ∈ r, Clean 44 x := by
    intro row hrow
    rcases List.mem_cons.1 hrow with rfl | hrow
    · refine ⟨by rw [hheads]; simpa using hnil, ?_⟩
      intro x hx
      rw [hheads] at hx
      obtain ⟨q, hq, rfl⟩ := List.mem_map.1 hx
      obtain ⟨hne', hc⟩ := hnm q.1 (helem q hq).1
      unfold elemName
      split
      · have hd : ∀ c ∈ dec q.2, (48 ≤ c ∧ c ≤ 57) := fun c hc => by
          have := (Rec.dec_facts q.2).2.1 c hc
          simpa [Num.isDigit] using this
        have hgt : ∀ c : UInt8, (48 ≤ c ∧ c ≤ 57) → 32 < c ∧ c ≠ 0 ∧ c ≠ 10 ∧ c ≠ 44 := by
          have : ∀ n : Fin 256, ((48 ≤ UInt8.ofNat n.val ∧ UInt8.ofNat n.val ≤ 57)) →
              32 < UInt8.ofNat n.val ∧ UInt8.ofNat n.val ≠ 0 ∧ UInt8.ofNat n.val ≠ 10 ∧ UInt8.ofNat n.val ≠ 44 := by decide +kernel
          intro c
          have := this ⟨c.toNat, c.toNat_lt⟩
          simpa using this
        refine ⟨?_, ?_, ?_⟩
        · intro c hc'
          rcases List.mem_append.1 hc' with h | h
          · exact hc.plain c h
          · exact (hgt c (hd c h)).2
        · intro c hc'
          cases hfn : q.1.fname with
          | nil => exact absurd hfn hne'
          | cons a t =>
            apply hc.first
            rw [hfn] at hc' ⊢
            simpa using hc'
        · intro c hc'
          rw [List.getLast?_append] at hc'
          cases hg : (dec q.2).getLast? with
          | none => exact absurd (List.getLast?_eq_none_iff.1 hg) (Rec.dec_facts q.2).1
          | some x =>
            rw [hg] at hc'
            have : x = c := by simpa using hc'
            exact (hgt c (hd c (this ▸ List.mem_of_getLast? hg))).1
      · exact hc
    · obtain ⟨r, hr, rfl⟩ := List.mem_map.1 hrow
      rw [hvals]
      refine ⟨by simpa using hnil, ?_⟩
      intro x hx
      obtain ⟨q, hq, rfl⟩ := List.mem_map.1 hx
      exact (hs r (by simpa using hr) q.1 (helem q hq).1 q.2 (helem q hq).2).2
  obtain ⟨o, h1, h2, -, -, h5, -⟩ := C93_open_partial junk 0 44 rfl (eol := [13, 10]) (.inr rfl) (by decide) hclean (by simpa using hn) hreads hflat
  refine ⟨o, h1, by simpa using h2, ?_⟩
  intro r hr hr31 f hf e he name hname
  have hq : (f, e) ∈ elems fs := List.mem_flatMap.2 ⟨f, hf, List.mem_map.2 ⟨e, by simpa using he, rfl⟩⟩
  obtain ⟨j, hj⟩ := List.getElem?_of_mem hq
  have hcol : Column (heads fs) name j := by
    refine ⟨⟨elemName f e, by rw [hheads, List.getElem?_map, hj]; rfl, hname.symm⟩, ?_⟩
    intro k x hk hx hsame
    have hjn : ((heads fs).map (·.map lower))[j]? = some ((elemName f e).map lower) := by
      rw [hheads, List.getElem?_map, List.getElem?_map, hj]; rfl
    have hkn : ((heads fs).map (·.map lower))[k]? = some ((elemName f e).map lower) := by
      rw [List.getElem?_map, hx, Option.map_some, hsame, hname]
    obtain ⟨a1, a2⟩ := List.getElem?_eq_some_iff.1 hjn
    obtain ⟨b1, b2⟩ := List.getElem?_eq_some_iff.1 hkn
    exact List.pairwise_iff_getElem.1 hdist j k a1 b1 hk (by rw [a2, b2])
  rw [h5 r name j hr31 hcol]
  simp [hr, List.getElem?_map, hvals, hj]

/-- C95: the number of an element of a field of whole numbers or times is read as it was. -/
theorem C95_number_partial {o : File} {r : Int} {name : Bytes} {v : Int} (h1 : -2 ^ 63 ≤ v) (h2 : v < 2 ^ 63)
    (h : getStr o r name = some (some (shown (.num v)))) (dflt : Int) : getInt o r name dflt = some v := by
  have hclamp : Rec.clamp v = v := by unfold Rec.clamp; omega
  rw [getInt, h]
  simp [shown, Rec.atoll_dec, hclamp]

theorem clean₁ : ∀ r, r < 2 → ∀ f ∈ [fid, fnm, fpx], ∀ e, e < f.count → Clean 44 (shown (valOf fl₀ f (slot db₀.size buf₀ r f e))) := by
  have hall : ∀ r, r < 2 → ∀ f ∈ [fid, fnm, fpx], ∀ e, e < 1 →
      (∀ c ∈ shown (valOf fl₀ f (slot db₀.size buf₀ r f e)), c ≠ 0 ∧ c ≠ 10 ∧ c ≠ 44) ∧
      ((shown (valOf fl₀ f (slot db₀.size buf₀ r f e))).head?.getD 33 > 32) ∧ (shown (valOf fl₀ f (slot db₀.size buf₀ r f e))).getLast?.getD 33 > 32 := by
    decide +kernel
  intro r hr f hf e he
  have he1 : e < 1 := by
    have : f.count = 1 := by
      simp only [List.mem_cons, List.not_mem_nil, or_false] at hf
      rcases hf with rfl | rfl | rfl <;> rfl
    omega
  obtain ⟨h1, h2, h3⟩ := hall r hr f hf e he1
  refine ⟨h1, ?_, ?_⟩
  · intro c hc; rw [hc] at h2; exact h2
  · intro c hc; rw [hc] at h3; exact h3

example : ∃ text, structToCsv fl₀ db₀ buf₀ = some text ∧ ∃ o, openCsv 7 0 [text] = some o ∧ size o = 2 ∧ getInt o 0 "ID".toUTF8.toList 0 = some (-5) := by
  have hcl : ∀ f ∈ [fid, fnm, fpx], f.fname ≠ [] ∧ Clean 44 f.fname := by
    intro f hf
    have h : ∀ f ∈ [fid, fnm, fpx], f.fname ≠ [] ∧ (∀ c ∈ f.fname, c ≠ 0 ∧ c ≠ 10 ∧ c ≠ 44) ∧ (f.fname.head?.getD 33 > 32) ∧ f.fname.getLast?.getD 33 > 32 := by
      decide +kernel
    obtain ⟨h1, h2, h3, h4⟩ := h f hf
    refine ⟨h1, h2, ?_, ?_⟩
    · intro c hc; rw [hc] at h3; exact h3
    · intro c hc; rw [hc] at h4; exact h4
  obtain ⟨text, h1, h2⟩ := C95_roundtrip_partial fl₀ made₀ fields₀ (by simp) hcl (by decide +kernel) (n := 2) (by decide) (by decide)
    (fun r hr f hf e he => ⟨shows₀ r hr f hf e he, clean₁ r hr f hf e he⟩) first₀
  have htext : text ≠ [] := by
    rintro rfl
    have : structToCsv fl₀ db₀ buf₀ ≠ some [] := by decide +kernel
    exact this h1
  obtain ⟨o, g1, g2, g3⟩ := h2 7 [text] (by simpa using htext) (by simp)
  refine ⟨text, h1, o, g1, g2, C95_number_partial (v := -5) (by decide) (by decide) ?_ 0⟩
  exact g3 0 (by decide) (by decide) fid (by simp) 0 (by decide) _ (by decide +kernel)

/-- C95 is violated: a comma in a text makes two columns of it, blanks around a text are lost, and the first
element of a field `a` is not found when there is a field `a0`. -/
theorem C95_violated :
    (∃ db, Dyn.create [{ name := some [97], style := some .char, len := 4, count := 1 }, { name := some [98], style := some .uint, len := 1, count := 1 }] =
        some (some db) ∧
      ((structToCsv fl₀ db [120, 44, 121, 0, 7]).bind fun t => (openCsv 7 0 [t]).bind fun o => getStr o 0 [98]) = some (some [121]) ∧
      ((structToCsv fl₀ db [32, 120, 0, 0, 7]).bind fun t => (openCsv 7 0 [t]).bind fun o => getStr o 0 [97]) = some (some [120])) ∧
    ∃ db, Dyn.create [{ name := some [97], style := some .uint, len := 1, count := 2 }, { name := some [97, 48], style := some .uint, len := 1, count := 1 }] =
        some (some db) ∧
      ((structToCsv fl₀ db [1, 2, 3]).bind fun t => (openCsv 7 0 [t]).bind fun o => getStr o 0 [97, 48]) = some (some [51]) :=
  ⟨⟨⟨[some ⟨[97], .char, 4, 1, 0, 0, false, false⟩, some ⟨[98], .uint, 1, 1, 4, 0, false, false⟩], [([97], 0), ([98], 1)], 5, none, none⟩,
      by decide +kernel, by decide +kernel, by decide +kernel⟩,
   ⟨[some ⟨[97], .uint, 1, 2, 0, 0, false, false⟩, some ⟨[97, 48], .uint, 1, 1, 2, 0, false, false⟩], [([97], 0), ([97, 48], 1)], 3, none, none⟩,
      by decide +kernel, by decide +kernel⟩

end Sis.Csv
