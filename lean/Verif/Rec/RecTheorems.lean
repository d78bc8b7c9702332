import Verif.Rec.PickLemmas
/-
C86: the text of records.  C87: records given as arrays.  C88: records that are returned and stored again.  C89: records
given as objects.  C90: selected fields in binary.  C91: selected fields as text.
-/
namespace Sis.Rec
open Sis
open Sis.Json (Node Ty)
open Sis.Dyn (Db Field St slot num Made Def)

/-! ### A table and records to show that the cases are there -/

/-- A way to write and read floating point numbers that keeps their bits. -/
def fl₀ : Fl := ⟨fun _ b => dec (leVal b) ++ [46, 48], fun _ t => Num.digVal (t.takeWhile Num.isDigit)⟩

/-- The definitions of a table with a number, a text and a floating point number. -/
def defs₀ : List Def :=
  [{ name := some "id".toUTF8.toList, style := some .int, len := 4, count := 1 },
   { name := some "nm".toUTF8.toList, style := some .char, len := 4, count := 1 },
   { name := some "px".toUTF8.toList, style := some .float, len := 8, count := 1, dot := 2 }]

def fid : Field := ⟨"id".toUTF8.toList, .int, 4, 1, 0, 0, false, false⟩
def fnm : Field := ⟨"nm".toUTF8.toList, .char, 4, 1, 4, 0, false, false⟩
def fpx : Field := ⟨"px".toUTF8.toList, .float, 8, 1, 8, 2, false, false⟩

def db₀ : Db := ⟨[some fid, some fnm, some fpx], [("id".toUTF8.toList, 0), ("nm".toUTF8.toList, 1), ("px".toUTF8.toList, 2)], 16, none, none⟩

theorem made₀ : Made db₀ := .create (ds := defs₀) (by decide +kernel) (by decide)

theorem fields₀ : FieldsAre db₀ [fid, fnm, fpx] := by
  intro i
  match i with
  | 0 => rfl
  | 1 => rfl
  | 2 => rfl
  | n + 3 => rfl

/-- Two records: -5, "ab", 7 and 6, "abcd", 9. -/
def buf₀ : Bytes := [251, 255, 255, 255, 97, 98, 0, 0, 7, 0, 0, 0, 0, 0, 0, 0, 6, 0, 0, 0, 97, 98, 99, 100, 9, 0, 0, 0, 0, 0, 0, 0]

/-- The same table with a number of two elements. -/
def defs₂ : List Def :=
  [{ name := some "id".toUTF8.toList, style := some .int, len := 2, count := 2 },
   { name := some "nm".toUTF8.toList, style := some .uint, len := 4, count := 1 }]

def fid₂ : Field := ⟨"id".toUTF8.toList, .int, 2, 2, 0, 0, false, false⟩
def fnm₂ : Field := ⟨"nm".toUTF8.toList, .uint, 4, 1, 4, 0, false, false⟩

def db₂ : Db := ⟨[some fid₂, some fnm₂], [("id".toUTF8.toList, 0), ("nm".toUTF8.toList, 1)], 8, none, none⟩

theorem made₂ : Made db₂ := .create (ds := defs₂) (by decide +kernel) (by decide)

theorem fields₂ : FieldsAre db₂ [fid₂, fnm₂] := by
  intro i
  match i with
  | 0 => rfl
  | 1 => rfl
  | n + 2 => rfl

/-! ### C86 -/

/-- C86: the text of one or more records is the array of the values of each of them, element by element in the order of the
fields; a single record is not put into an array of its own.  Fields of week times and numbers of other lengths than 1, 2, 4
and 8 bytes are excluded, and so are texts with quotes, backslashes and control characters and the smallest 64-bit number. -/
theorem C86_text_partial (fl : Fl) {db : Db} {fs : List Field} (hm : Made db) (hfs : FieldsAre db fs) (hne : fs ≠ []) (ht : ∀ f ∈ fs, Texted f)
    {buf : Bytes} {n : Nat} (hb : buf.length = n * db.size) (h1 : 1 ≤ n) (h2 : n < 2 ^ 31)
    (hv : ∀ r, r < n → ∀ v ∈ valsOf fl fs db.size buf r, Plain v) (key : Option Bytes) (hk : ∀ k, key = some k → PlainText k) :
    toArray fl db key buf = some (some (answer key
      (if n = 1 then rowText (valsOf fl fs db.size buf 0) else rowsText ((List.range n).map (valsOf fl fs db.size buf))))) :=
  toArray_eq hm hfs hne ht hb h1 h2 hv key hk

theorem texted₀ : ∀ f ∈ [fid, fnm, fpx], Texted f := by
  intro f hf
  simp only [List.mem_cons, List.not_mem_nil, or_false] at hf
  rcases hf with rfl | rfl | rfl
  · exact .inl ⟨.inl rfl, .inr (.inr (.inl rfl))⟩
  · exact .inr (.inl rfl)
  · exact .inr (.inr ⟨.inl rfl, .inr rfl⟩)

theorem dec_float (n : Nat) : FloatText (dec n ++ [46, 48]) := by
  have hd : ∀ c ∈ dec n, (48 ≤ c ∧ c ≤ 57) := fun c hc => by
    have := (dec_facts n).2.1 c hc
    simpa [Num.isDigit] using this
  refine ⟨?_, ?_⟩
  · cases he : dec n with
    | nil => exact absurd he (dec_facts n).1
    | cons c t => exact ⟨c, t ++ [46, 48], rfl, .inr (hd c (by rw [he]; simp))⟩
  · intro c hc
    rcases List.mem_append.1 hc with hc | hc
    · exact .inr (.inr (hd c hc))
    · simp only [List.mem_cons, List.not_mem_nil, or_false] at hc
      rcases hc with rfl | rfl
      · exact .inr (.inl rfl)
      · exact .inr (.inr (by decide))

theorem kept₀ : ∀ r, r < 2 → ∀ f ∈ [fid, fnm, fpx], Kept fl₀ f (slot 16 buf₀ r f 0) := by
  have hfl : ∀ b, Kept fl₀ fpx b := by
    intro b
    refine .inr (.inr ⟨.inl rfl, .inr rfl, dec_float _, ?_⟩)
    show Num.digVal ((dec (leVal b) ++ [46, 48]).takeWhile Num.isDigit) = leVal b
    have : (dec (leVal b) ++ [46, 48]).takeWhile Num.isDigit = dec (leVal b) := by
      rw [List.takeWhile_append_of_pos (dec_facts _).2.1]
      have : ([46, 48] : Bytes).takeWhile Num.isDigit = [] := by decide
      rw [this, List.append_nil]
    rw [this, (dec_facts _).2.2]
  have hid : Counts fid := ⟨.inl rfl, .inr (.inr (.inl rfl))⟩
  intro r hr f hf
  simp only [List.mem_cons, List.not_mem_nil, or_false] at hf
  have : r = 0 ∨ r = 1 := by omega
  rcases this with rfl | rfl <;> rcases hf with rfl | rfl | rfl
  · exact .inl ⟨hid, by decide +kernel, by decide +kernel⟩
  · refine .inr (.inl ⟨rfl, [97, 98], 2, by unfold PlainText; decide, by decide⟩)
  · exact hfl _
  · exact .inl ⟨hid, by decide +kernel, by decide +kernel⟩
  · refine .inr (.inl ⟨rfl, [97, 98, 99, 100], 0, by unfold PlainText; decide, by decide⟩)
  · exact hfl _

example : toArray fl₀ db₀ (some "k".toUTF8.toList) buf₀ = some (some
    "{\"k\":[[-5,\"ab\",7.0],[6,\"abcd\",9.0]]}".toUTF8.toList) := by
  rw [C86_text_partial fl₀ made₀ fields₀ (by simp) texted₀ (n := 2) (by decide) (by decide) (by decide) ?_ _ ?_]
  · decide +kernel
  · intro r hr v hv
    rw [valsOf_one (by decide)] at hv
    obtain ⟨f, hf, rfl⟩ := List.mem_map.1 hv
    exact kept_plain (kept₀ r hr f hf)
  · intro k hk
    cases hk
    unfold PlainText
    decide +kernel

/-- C86: no record gives no answer. -/
theorem C86_empty_partial (fl : Fl) {db : Db} {fs : List Field} (hm : Made db) (hfs : FieldsAre db fs) (key : Option Bytes) :
    toArray fl db key [] = some none := by
  rw [toArray, recCount_eq (n := 0) (made_size hm).1 (by simp) (by decide), (fieldsOf_are hm hfs).1]
  rfl

example : toArray fl₀ db₀ none [] = some none := C86_empty_partial fl₀ made₀ fields₀ none

/-- C86 is violated: the value of a week time is not in the text, and a number of three bytes is shown as 0. -/
theorem C86_violated_value :
    (∃ db, Dyn.create [{ name := some [97], style := some .wsec, len := 8, count := 1 }] = some (some db) ∧
      toArray fl₀ db none [1, 2, 3, 4, 5, 6, 7, 8] = some (some "[\" \"]".toUTF8.toList)) ∧
    ∃ db, Dyn.create [{ name := some [97], style := some .int, len := 3, count := 1 }] = some (some db) ∧
      toArray fl₀ db none [1, 2, 3] = some (some "[0]".toUTF8.toList) :=
  ⟨⟨⟨[some ⟨[97], .wsec, 8, 1, 0, 0, false, false⟩], [([97], 0)], 8, none, none⟩, by decide +kernel, by decide +kernel⟩,
   ⟨[some ⟨[97], .int, 3, 1, 0, 0, false, false⟩], [([97], 0)], 3, none, none⟩, by decide +kernel, by decide +kernel⟩

/-- C86 is violated: the text of the smallest 64-bit number is undefined behaviour. -/
theorem C86_violated_min :
    ∃ db, Dyn.create [{ name := some [97], style := some .int, len := 8, count := 1 }] = some (some db) ∧
      toArray fl₀ db none [0, 0, 0, 0, 0, 0, 0, 128] = none :=
  ⟨⟨[some ⟨[97], .int, 8, 1, 0, 0, false, false⟩], [([97], 0)], 8, none, none⟩, by decide +kernel, by decide +kernel⟩

/-! ### C87 -/

/-- C87: an array of rows, each with one value for every field, makes a record of each row that holds its values; for tables
whose fields have one element each, and values that suit their fields. -/
theorem C87_rows_partial (fl : Fl) {db : Db} {fs : List Field} (hm : Made db) (hfs : FieldsAre db fs) (hc : ∀ f ∈ fs, f.count = 1)
    {rows : List (List Val)} (hne : rows ≠ []) (hlen : ∀ vs ∈ rows, vs.length = fs.length)
    (hs : ∀ vs ∈ rows, ∀ (j : Nat) f v, fs[j]? = some f → vs[j]? = some v → Suits fl f v) (h31 : rows.length * db.size < 2 ^ 31) :
    ∃ out, setChars fl db (rowsText rows) = some (some out) ∧ out.length = rows.length * db.size ∧
      ∀ (r : Nat) vs (j : Nat) f v, rows[r]? = some vs → fs[j]? = some f → vs[j]? = some v → Holds fl f (slot db.size out r f 0) v := by
  have hpair : ∀ vs ∈ rows, ∀ v ∈ vs, ∃ f ∈ fs, Suits fl f v := by
    intro vs hvs v hv
    obtain ⟨j, hj⟩ := List.getElem?_of_mem hv
    have hl := hlen vs hvs
    have hjl : j < fs.length := by rw [← hl]; exact (List.getElem?_eq_some_iff.1 hj).1
    exact ⟨fs[j], by simp, hs vs hvs j _ v (List.getElem?_eq_getElem hjl) hj⟩
  have htext : ∀ f ∈ fs, f.count = 1 ∧ Texted f := by
    intro f hf
    obtain ⟨j, hj⟩ := List.getElem?_of_mem hf
    obtain ⟨vs, hvs⟩ := List.exists_mem_of_ne_nil _ hne
    have hjl : j < vs.length := by rw [hlen vs hvs]; exact (List.getElem?_eq_some_iff.1 hj).1
    exact ⟨hc f hf, (suits_readable (hs vs hvs j f _ hj (List.getElem?_eq_getElem hjl))).2⟩
  obtain ⟨out, h1, h2, h3⟩ := set_rows (fl := fl) hm hfs htext hne (rows := rows) (fun vs hvs => ⟨hlen vs hvs, fun v hv => by
    obtain ⟨f, _, h⟩ := hpair vs hvs v hv
    exact (suits_readable h).1⟩) h31
  refine ⟨out, h1, h2, ?_⟩
  intro r vs j f v hr hj hv
  rw [h3 r vs j f v hr hj hv]
  exact holds_target (hs vs (List.mem_of_getElem? hr) j f v hj hv)

/-- C87: an array of values makes one record. -/
theorem C87_row_partial (fl : Fl) {db : Db} {fs : List Field} (hm : Made db) (hfs : FieldsAre db fs) (hc : ∀ f ∈ fs, f.count = 1)
    {vs : List Val} (hlen : vs.length = fs.length) (hs : ∀ (j : Nat) f v, fs[j]? = some f → vs[j]? = some v → Suits fl f v) :
    ∃ out, setChars fl db (rowText vs) = some (some out) ∧ out.length = db.size ∧
      ∀ (j : Nat) f v, fs[j]? = some f → vs[j]? = some v → Holds fl f (slot db.size out 0 f 0) v := by
  have htext : ∀ f ∈ fs, f.count = 1 ∧ Texted f := by
    intro f hf
    obtain ⟨j, hj⟩ := List.getElem?_of_mem hf
    have hjl : j < vs.length := by rw [hlen]; exact (List.getElem?_eq_some_iff.1 hj).1
    exact ⟨hc f hf, (suits_readable (hs j f _ hj (List.getElem?_eq_getElem hjl))).2⟩
  obtain ⟨out, h1, h2, h3⟩ := set_row (fl := fl) hm hfs htext hlen (fun v hv => by
    obtain ⟨j, hj⟩ := List.getElem?_of_mem hv
    have hjl : j < fs.length := by rw [← hlen]; exact (List.getElem?_eq_some_iff.1 hj).1
    exact (suits_readable (hs j _ v (List.getElem?_eq_getElem hjl) hj)).1)
  refine ⟨out, h1, h2, ?_⟩
  intro j f v hj hv
  rw [h3 j f v hj hv]
  exact holds_target (hs j f v hj hv)

/-- The values of the first record of `buf₀`. -/
def vals₀ : List Val := [.num (-5), .text [97, 98], .raw (dec 7 ++ [46, 48])]

theorem suits₀ : ∀ (j : Nat) f v, [fid, fnm, fpx][j]? = some f → vals₀[j]? = some v → Suits fl₀ f v := by
  intro j f v hj hv
  match j with
  | 0 => cases hj; cases hv; exact ⟨⟨.inl rfl, .inr (.inr (.inl rfl))⟩, by unfold Dyn.Fits; decide +kernel, by decide⟩
  | 1 => cases hj; cases hv; exact ⟨rfl, by unfold PlainText; decide⟩
  | 2 => cases hj; cases hv; exact ⟨.inl rfl, .inr rfl, dec_float 7, by decide +kernel⟩
  | n + 3 => cases hj

example : ∃ out, setChars fl₀ db₀ (rowText vals₀) = some (some out) ∧ out = buf₀.take 16 := by
  obtain ⟨out, h, -⟩ := C87_row_partial fl₀ made₀ fields₀ (by decide) (by decide) suits₀
  refine ⟨out, h, ?_⟩
  have : setChars fl₀ db₀ (rowText vals₀) = some (some (buf₀.take 16)) := by decide +kernel
  rw [h] at this
  simpa using this

example : ∃ out, setChars fl₀ db₀ (rowsText [vals₀, vals₀]) = some (some out) ∧ out.length = 32 := by
  obtain ⟨out, h, h2, -⟩ := C87_rows_partial fl₀ made₀ fields₀ (by decide) (rows := [vals₀, vals₀]) (by simp) (by decide)
    (fun vs hvs => by
      have : vs = vals₀ := by simpa using hvs
      subst this
      exact suits₀) (by decide)
  exact ⟨out, h, h2⟩

/-- C87 is violated: a row with too few values is not refused: the rows behind it take its place, and as many records of zeros
are stored at the end; an empty array stores a record of zeros. -/
theorem C87_violated_short :
    setChars fl₀ db₀ "[[1,\"a\"],[2,\"b\",3.0]]".toUTF8.toList =
      some (some ([2, 0, 0, 0, 98, 0, 0, 0, 3, 0, 0, 0, 0, 0, 0, 0] ++ List.replicate 16 0)) ∧
    setChars fl₀ db₀ "[]".toUTF8.toList = some (some (List.replicate 16 0)) := by
  constructor <;> decide +kernel

/-- C87 is violated: no array gives values to a table that has a field of more than one element: with a value for each element a
record of zeros is stored, and with one for each field the last ones are missing. -/
theorem C87_violated_count :
    setChars fl₀ db₂ "[1,2,3]".toUTF8.toList = some (some [0, 0, 0, 0, 0, 0, 0, 0]) ∧
    setChars fl₀ db₂ "[1,2]".toUTF8.toList = some (some [1, 0, 2, 0, 0, 0, 0, 0]) := by
  constructor <;> decide +kernel

/-! ### C88 -/

/-- C88: when every field has one element and the text of each element says all of it, the text of the records can be stored
again, and the elements are the same. -/
theorem C88_roundtrip_partial (fl : Fl) {db : Db} {fs : List Field} (hm : Made db) (hfs : FieldsAre db fs) (hne : fs ≠ [])
    (hc : ∀ f ∈ fs, f.count = 1) {buf : Bytes} {n : Nat} (hb : buf.length = n * db.size) (h1 : 1 ≤ n) (h31 : n * db.size < 2 ^ 31)
    (hk : ∀ r, r < n → ∀ f ∈ fs, Kept fl f (slot db.size buf r f 0)) :
    ∃ text out, toArray fl db none buf = some (some text) ∧ setChars fl db text = some (some out) ∧ out.length = buf.length ∧
      ∀ r, r < n → ∀ f ∈ fs, slot db.size out r f 0 = slot db.size buf r f 0 := by
  have hsz := made_size hm
  have hn31 : n < 2 ^ 31 := by
    have : n * 1 ≤ n * db.size := Nat.mul_le_mul_left _ hsz.1
    omega
  have htext : ∀ f ∈ fs, f.count = 1 ∧ Texted f := fun f hf => ⟨hc f hf, kept_texted (hk 0 (by omega) f hf)⟩
  have hplain : ∀ r, r < n → ∀ v ∈ valsOf fl fs db.size buf r, Plain v := by
    intro r hr v hv
    rw [valsOf_one hc] at hv
    obtain ⟨f, hf, rfl⟩ := List.mem_map.1 hv
    exact kept_plain (hk r hr f hf)
  have hin := (fieldsOf_are hm hfs).2
  have hback : ∀ r, r < n → ∀ f ∈ fs, target fl f (some (valOf fl f (slot db.size buf r f 0))) = slot db.size buf r f 0 := by
    intro r hr f hf
    apply target_back (hk r hr f hf)
    apply slot_length _ (hin f hf).1 (by have := hc f hf; omega)
    rw [hb]
    exact Nat.mul_le_mul_right _ (by omega)
  have hval : ∀ r (j : Nat) f, fs[j]? = some f → (valsOf fl fs db.size buf r)[j]? = some (valOf fl f (slot db.size buf r f 0)) := by
    intro r j f hj
    rw [valsOf_one hc, List.getElem?_map, hj]
    rfl
  have hlen : ∀ r, (valsOf fl fs db.size buf r).length = fs.length := by
    intro r; rw [valsOf_one hc]; simp
  have ht := toArray_eq (fl := fl) hm hfs hne (fun f hf => (htext f hf).2) hb h1 hn31 hplain none nofun
  by_cases h : n = 1
  · rw [if_pos h] at ht
    obtain ⟨out, o1, o2, o3⟩ := set_row (fl := fl) hm hfs htext (hlen 0) (fun v hv => plain_readable (hplain 0 (by omega) v hv))
    refine ⟨_, out, ht, o1, by rw [o2, hb, h]; omega, ?_⟩
    intro r hr f hf
    have : r = 0 := by omega
    subst this
    obtain ⟨j, hj⟩ := List.getElem?_of_mem hf
    rw [o3 j f _ hj (hval 0 j f hj), hback 0 (by omega) f hf]
  · rw [if_neg h] at ht
    obtain ⟨out, o1, o2, o3⟩ := set_rows (fl := fl) hm hfs htext (rows := (List.range n).map (valsOf fl fs db.size buf)) (by
        intro he
        have := congrArg List.length he
        simp at this
        omega) (by
        intro vs hvs
        obtain ⟨r, hr, rfl⟩ := List.mem_map.1 hvs
        exact ⟨hlen r, fun v hv => plain_readable (hplain r (by simpa using hr) v hv)⟩) (by simpa using h31)
    refine ⟨_, out, ht, o1, by rw [o2, hb]; simp, ?_⟩
    intro r hr f hf
    obtain ⟨j, hj⟩ := List.getElem?_of_mem hf
    rw [o3 r (valsOf fl fs db.size buf r) j f _ (by simp [hr]) hj (hval r j f hj), hback r hr f hf]

example : ∃ text out, toArray fl₀ db₀ none buf₀ = some (some text) ∧ setChars fl₀ db₀ text = some (some out) ∧ out.length = buf₀.length ∧
    ∀ r, r < 2 → ∀ f ∈ [fid, fnm, fpx], slot 16 out r f 0 = slot 16 buf₀ r f 0 :=
  C88_roundtrip_partial fl₀ made₀ fields₀ (by simp) (by decide) (n := 2) (by decide) (by decide) (by decide) kept₀

/-- C88 is violated: an unsigned number from 2^63 on comes back as 2^63 - 1, the bytes behind the end of a text are lost, and
a backslash in a text comes back doubled. -/
theorem C88_violated :
    (∃ db, Dyn.create [{ name := some [97], style := some .uint, len := 8, count := 1 }] = some (some db) ∧
      (do setChars fl₀ db (← ← toArray fl₀ db none [1, 0, 0, 0, 0, 0, 0, 128])) = some (some [255, 255, 255, 255, 255, 255, 255, 127])) ∧
    ∃ db, Dyn.create [{ name := some [97], style := some .char, len := 4, count := 1 }] = some (some db) ∧
      (do setChars fl₀ db (← ← toArray fl₀ db none [97, 0, 98, 99])) = some (some [97, 0, 0, 0]) ∧
      (do setChars fl₀ db (← ← toArray fl₀ db none [97, 92, 98, 0])) = some (some [97, 92, 92, 98]) :=
  ⟨⟨⟨[some ⟨[97], .uint, 8, 1, 0, 0, false, false⟩], [([97], 0)], 8, none, none⟩, by decide +kernel, by decide +kernel⟩,
   ⟨[some ⟨[97], .char, 4, 1, 0, 0, false, false⟩], [([97], 0)], 4, none, none⟩, by decide +kernel, by decide +kernel, by decide +kernel⟩

/-- C88 is violated: the text of a record of a table that has a field of more than one element is stored as zeros. -/
theorem C88_violated_count : (do setChars fl₀ db₂ (← ← toArray fl₀ db₂ none [1, 0, 2, 0, 3, 0, 0, 0])) = some (some [0, 0, 0, 0, 0, 0, 0, 0]) := by
  decide +kernel

/-! ### C89 -/

/-- C89: an object makes one record: each element of a field holds the value given under its name, which is the name of the
field, with the number of the element behind it when there are several, in any order and with names in upper or lower case;
what is not given is zero.  The names of the fields have no points. -/
theorem C89_object_partial (fl : Fl) {db : Db} {fs : List Field} (hm : Made db) (hfs : FieldsAre db fs) (ht : ∀ f ∈ fs, Texted f)
    (hnm : ∀ f ∈ fs, ∀ c ∈ f.fname, c ≠ 46 ∧ c ≠ 0) {ms : List (Bytes × Val)} (hms : ∀ m ∈ ms, m.1 ≠ [] ∧ PlainText m.1)
    (hval : ∀ m ∈ ms, ∃ f ∈ fs, Suits fl f m.2)
    (hs : ∀ f ∈ fs, ∀ e, e < f.count → ∀ v, look ms (elemName f e) = some v → Suits fl f v) :
    ∃ out, setChars fl db (objText ms) = some (some out) ∧ out.length = db.size ∧
      ∀ f ∈ fs, ∀ e, e < f.count →
        (∀ v, look ms (elemName f e) = some v → Holds fl f (slot db.size out 0 f e) v) ∧
        (look ms (elemName f e) = none → slot db.size out 0 f e = List.replicate f.len 0) := by
  obtain ⟨out, h1, h2, h3⟩ := set_object (fl := fl) hm hfs (fun f hf => ⟨ht f hf, hnm f hf⟩) (ms := ms) (fun m hm => by
    obtain ⟨f, _, h⟩ := hval m hm
    exact ⟨(hms m hm).1, (hms m hm).2, (suits_readable h).1⟩)
  refine ⟨out, h1, h2, ?_⟩
  intro f hf e he
  refine ⟨?_, ?_⟩
  · intro v hv
    rw [h3 f hf e he, hv]
    exact holds_target (hs f hf e he v hv)
  · intro hv
    rw [h3 f hf e he, hv]
    rfl

/-- The members `ID1` and `nm`. -/
def mems₂ : List (Bytes × Val) := [([73, 68, 49], .num (-2)), ([110, 109], .num 9)]

example : ∃ out, setChars fl₀ db₂ (objText mems₂) = some (some out) ∧ out = [0, 0, 254, 255, 9, 0, 0, 0] := by
  have hid : Counts fid₂ := ⟨.inl rfl, .inr (.inl rfl)⟩
  have hnm : Counts fnm₂ := ⟨.inr (.inl rfl), .inr (.inr (.inl rfl))⟩
  have hmem : ∀ f, f ∈ [fid₂, fnm₂] → f = fid₂ ∨ f = fnm₂ := by intro f hf; simpa using hf
  obtain ⟨out, h, -⟩ := C89_object_partial fl₀ made₂ fields₂ (ms := mems₂)
    (fun f hf => by rcases hmem f hf with rfl | rfl <;> exact .inl ‹_›)
    (by decide +kernel)
    (fun m hm => by
      have : m = ([73, 68, 49], .num (-2)) ∨ m = ([110, 109], .num 9) := by simpa [mems₂] using hm
      rcases this with rfl | rfl <;> exact ⟨by simp, by unfold PlainText; decide⟩)
    (fun m hm => by
      have : m = ([73, 68, 49], .num (-2)) ∨ m = ([110, 109], .num 9) := by simpa [mems₂] using hm
      rcases this with rfl | rfl
      · exact ⟨fid₂, by simp, hid, by unfold Dyn.Fits; decide +kernel, by decide⟩
      · exact ⟨fnm₂, by simp, hnm, by unfold Dyn.Fits; decide +kernel, by decide⟩)
    (fun f hf e he v hv => by
      rcases hmem f hf with rfl | rfl
      · have he2 : e = 0 ∨ e = 1 := by have : e < 2 := he; omega
        rcases he2 with rfl | rfl
        · have : look mems₂ (elemName fid₂ 0) = none := by decide +kernel
          rw [this] at hv; cases hv
        · have : look mems₂ (elemName fid₂ 1) = some (.num (-2)) := by decide +kernel
          rw [this] at hv; cases hv
          exact ⟨hid, by unfold Dyn.Fits; decide +kernel, by decide⟩
      · have he2 : e = 0 := by have : e < 1 := he; omega
        subst he2
        have : look mems₂ (elemName fnm₂ 0) = some (.num 9) := by decide +kernel
        rw [this] at hv; cases hv
        exact ⟨hnm, by unfold Dyn.Fits; decide +kernel, by decide⟩)
  refine ⟨out, h, ?_⟩
  have : setChars fl₀ db₂ (objText mems₂) = some (some [0, 0, 254, 255, 9, 0, 0, 0]) := by decide +kernel
  rw [h] at this
  simpa using this

/-- C89 is violated: a field with a point in its name cannot be given a value; an element of a field of several elements is
given the value of another field, when that field has its name and number for a name. -/
theorem C89_violated :
    (∃ db, Dyn.create [{ name := some "a.b".toUTF8.toList, style := some .uint, len := 1, count := 1 }] = some (some db) ∧
      setChars fl₀ db "{\"a.b\":7}".toUTF8.toList = some (some [0])) ∧
    ∃ db, Dyn.create [{ name := some "a".toUTF8.toList, style := some .uint, len := 1, count := 2 },
        { name := some "a1".toUTF8.toList, style := some .uint, len := 1, count := 1 }] = some (some db) ∧
      setChars fl₀ db "{\"a1\":7}".toUTF8.toList = some (some [0, 7, 7]) :=
  ⟨⟨⟨[some ⟨"a.b".toUTF8.toList, .uint, 1, 1, 0, 0, false, false⟩], [("a.b".toUTF8.toList, 0)], 1, none, none⟩, by decide +kernel, by decide +kernel⟩,
   ⟨[some ⟨"a".toUTF8.toList, .uint, 1, 2, 0, 0, false, false⟩, some ⟨"a1".toUTF8.toList, .uint, 1, 1, 2, 0, false, false⟩],
     [("a".toUTF8.toList, 0), ("a1".toUTF8.toList, 1)], 3, none, none⟩, by decide +kernel, by decide +kernel⟩

/-! ### C90 -/

/-- C90: the answer to a query for fields in binary is, record by record, the bytes of the elements the names stand for; names
of no field add nothing. -/
theorem C90_select_partial {db : Db} (hm : Made db) {names : List Bytes} {ps : List (Option (Field × Nat))} (h : List.Forall₂ (Means db) names ps)
    {buf : Bytes} {n : Nat} (hb : buf.length = n * db.size) (hn : n < 2 ^ 31) :
    selectBin db names buf = some ((List.range n).flatMap fun r => (ps.filterMap id).flatMap fun q => slot db.size buf r q.1 q.2) := by
  rw [selectBin, recCount_eq (made_size hm).1 hb hn]
  simp only [Option.bind_eq_bind, Option.bind_some]
  by_cases h0 : n = 0
  · rw [if_pos h0, h0]; rfl
  · rw [if_neg h0]
    have hg : Sdb.every (names.map (getField db)) = some (ps.map fun p => p.map fun q => (q.1, (q.2 : Int))) := by
      rw [← Sdb.every_some]
      refine congrArg Sdb.every ?_
      clear hb hn h0
      induction h with
      | nil => rfl
      | cons h _ ih => rw [List.map_cons, List.map_cons, List.map_cons, means_get hm h, ih]
    rw [hg, Option.bind_some, selectRows_eq (made_size hm).2 _ n 0 (by rw [Nat.zero_add]; omega), ← List.range_eq_range']
    rintro p hp f i rfl
    obtain ⟨j, hj⟩ := List.getElem?_of_mem hp
    obtain ⟨hjl, hje⟩ := List.getElem?_eq_some_iff.1 hj
    have hjn : j < names.length := by rw [h.length_eq]; exact hjl
    have := (List.forall₂_iff_get.1 h).2 j hjn hjl
    simp only [List.get_eq_getElem] at this
    rw [hje] at this
    exact means_in hm this

example : selectBin db₂ ["nm".toUTF8.toList, "zz".toUTF8.toList, "id".toUTF8.toList ++ 46 :: dec 1] [1, 0, 2, 0, 3, 0, 0, 0, 4, 0, 5, 0, 6, 0, 0, 0] =
    some [3, 0, 0, 0, 2, 0, 6, 0, 0, 0, 5, 0] := by
  rw [C90_select_partial made₂ (ps := [some (fnm₂, 0), none, some (fid₂, 1)]) ?_ (n := 2) (by decide) (by decide)]
  · decide +kernel
  · refine .cons (.field (by decide +kernel)) (.cons (.unknown (by decide +kernel) (by decide +kernel) (by decide +kernel)) (.cons ?_ .nil))
    exact .part (by decide +kernel) (by decide +kernel) (by decide) (by decide +kernel) (by decide +kernel)

/-- C90 is violated: an element that is not there is read out of the next field or the next record, or from behind the end of
the records. -/
theorem C90_violated :
    selectBin db₂ ["id.2".toUTF8.toList] [1, 0, 2, 0, 3, 0, 0, 0] = some [3, 0] ∧
    selectBin db₂ ["nm.1".toUTF8.toList] [1, 0, 2, 0, 3, 0, 0, 0] = none ∧
    selectBin db₂ ["id.-1".toUTF8.toList] [1, 0, 2, 0, 3, 0, 0, 0] = none := by
  refine ⟨?_, ?_, ?_⟩ <;> decide +kernel

/-! ### C91 -/

/-- C91: the answer to a query for fields as an array has the values of the named fields of each record, in the order of the
names; names of no field are left out. -/
theorem C91_array_partial (fl : Fl) {db : Db} (hm : Made db) {names : List Bytes} (ht : ∀ f ∈ names.filterMap (Dyn.field db), Texted f)
    {buf : Bytes} {n : Nat} (hb : buf.length = n * db.size) (hn : n < 2 ^ 31)
    (hv : ∀ r, r < n → ∀ v ∈ valsOf fl (names.filterMap (Dyn.field db)) db.size buf r, Plain v) :
    fieldsToArray fl db names buf =
      some (some (rowsText ((List.range n).map (valsOf fl (names.filterMap (Dyn.field db)) db.size buf)))) := by
  obtain ⟨ns, h1, h2⟩ := rows_named hm ht hb hv
  rw [fieldsToArray, recCount_eq (made_size hm).1 hb hn, pick_eq hm]
  simp only [Option.bind_eq_bind, Option.bind_some, present_eq, h1]
  exact congrArg some (text_array (h2 1))

/-- C91: the answer as an object tells the column of each name, and has the rows under the key; for names of fields of one
element each. -/
theorem C91_object_partial (fl : Fl) {db : Db} (hm : Made db) {names : List Bytes} {fs : List Field} (hnf : names.map (Dyn.field db) = fs.map some)
    (hc : ∀ f ∈ fs, f.count = 1 ∧ Texted f ∧ PlainText f.fname) (hlen : names.length < 2 ^ 31)
    {buf : Bytes} {n : Nat} (hb : buf.length = n * db.size) (hn : n < 2 ^ 31)
    (hv : ∀ r, r < n → ∀ v ∈ valsOf fl fs db.size buf r, Plain v) {key : Bytes} (hk : PlainText key) :
    fieldsToJson fl db key names buf = some (some (obj
      [("fields".toUTF8.toList, obj (fs.zipIdx.map fun p => (p.1.fname, dec p.2))),
       (key, rowsText ((List.range n).map (valsOf fl fs db.size buf)))])) := by
  have hfm : names.filterMap (Dyn.field db) = fs := by
    rw [← present_eq, hnf]
    simp [present]
  obtain ⟨ns, h1, h2⟩ := rows_named (names := names) hm (by rw [hfm]; exact fun f hf => (hc f hf).2.1) hb (by rw [hfm]; exact hv)
  rw [hfm] at h1 h2
  have hfl : fs.length = names.length := by
    have := congrArg List.length hnf
    simpa using this.symm
  have hpr : present (fs.map some) = fs := by simp [present]
  rw [fieldsToJson, recCount_eq (made_size hm).1 hb hn, pick_eq hm, hnf]
  simp only [Option.bind_eq_bind, Option.bind_some, headFrom_one (fun f hf => (hc f hf).1) 0, hpr, h1]
  have hhead : Json.toValue false 1 (.mk .object (some "fields".toUTF8.toList) none
      ((fs.zipIdx 0).map fun p => .mk .int (some p.1.fname) (some (Num.llutoa p.2 32)) [])) =
      some (obj (fs.zipIdx.map fun p => (p.1.fname, dec p.2))) := by
    apply text_object
    · rw [List.forall₂_map_left_iff, List.forall₂_map_right_iff, List.forall₂_same]
      rintro ⟨f, i⟩ hp
      have hi : i < fs.length := by
        have := List.snd_lt_of_mem_zipIdx hp
        simpa using this
      refine ⟨rfl, ?_⟩
      simp only [Json.toValue]
      rw [llutoa_dec (by omega)]
    · intro m hm
      obtain ⟨⟨f, i⟩, hp, rfl⟩ := List.mem_map.1 hm
      exact (hc f (List.fst_mem_of_mem_zipIdx hp)).2.2
  have hpf : PlainText "fields".toUTF8.toList := by unfold PlainText; decide +kernel
  refine congrArg some (text_object (.cons ⟨rfl, hhead⟩ (.cons ⟨rfl, text_array (h2 2)⟩ .nil)) ?_)
  intro m hm
  simp only [List.mem_cons, List.not_mem_nil, or_false] at hm
  rcases hm with rfl | rfl
  · exact hpf
  · exact hk

theorem plain₀ {fs : List Field} (h : ∀ f ∈ fs, f ∈ [fid, fnm, fpx]) : ∀ r, r < 2 → ∀ v ∈ valsOf fl₀ fs db₀.size buf₀ r, Plain v := by
  intro r hr v hv
  have hc : ∀ f ∈ fs, f.count = 1 := by
    intro f hf
    have := h f hf
    simp only [List.mem_cons, List.not_mem_nil, or_false] at this
    rcases this with rfl | rfl | rfl <;> rfl
  rw [valsOf_one hc] at hv
  obtain ⟨f, hf, rfl⟩ := List.mem_map.1 hv
  exact kept_plain (kept₀ r hr f (h f hf))

example : fieldsToArray fl₀ db₀ ["PX".toUTF8.toList, "zz".toUTF8.toList, "id".toUTF8.toList] buf₀ =
    some (some "[[7.0,-5],[9.0,6]]".toUTF8.toList) := by
  have hf : ["PX".toUTF8.toList, "zz".toUTF8.toList, "id".toUTF8.toList].filterMap (Dyn.field db₀) = [fpx, fid] := by decide +kernel
  have hsub : ∀ f ∈ [fpx, fid], f ∈ [fid, fnm, fpx] := by decide +kernel
  rw [C91_array_partial fl₀ made₀ (by rw [hf]; exact fun f hf => texted₀ f (hsub f hf)) (n := 2) (by decide) (by decide)
    (by rw [hf]; exact plain₀ hsub), hf]
  decide +kernel

example : fieldsToJson fl₀ db₀ "k".toUTF8.toList ["px".toUTF8.toList, "id".toUTF8.toList] buf₀ =
    some (some "{\"fields\":{\"px\":0,\"id\":1},\"k\":[[7.0,-5],[9.0,6]]}".toUTF8.toList) := by
  have hsub : ∀ f ∈ [fpx, fid], f ∈ [fid, fnm, fpx] := by decide +kernel
  rw [C91_object_partial fl₀ made₀ (fs := [fpx, fid]) (by decide +kernel) (fun f hf => ⟨?_, texted₀ f (hsub f hf), ?_⟩) (by decide) (n := 2)
    (by decide) (by decide) (plain₀ hsub) (by unfold PlainText; decide +kernel)]
  · decide +kernel
  · have : f = fpx ∨ f = fid := by simpa using hf
    rcases this with rfl | rfl <;> rfl
  · have : f = fpx ∨ f = fid := by simpa using hf
    rcases this with rfl | rfl <;> (unfold PlainText; decide +kernel)

/-- C91 is violated: a query for an object with a name that is not a field uses a null pointer, whatever the records are. -/
theorem C91_violated_unknown (fl : Fl) {db : Db} (hm : Made db) {names : List Bytes} {name : Bytes} (hn : name ∈ names)
    (hf : Dyn.field db name = none) (key buf : Bytes) : fieldsToJson fl db key names buf = none := by
  rw [fieldsToJson, pick_eq hm]
  cases recCount db buf with
  | none => rfl
  | some c =>
    simp only [Option.bind_eq_bind, Option.bind_some]
    rw [headFrom_none (List.mem_map.2 ⟨name, hn, hf⟩)]
    rfl

example : fieldsToJson fl₀ db₀ [107] [[122]] buf₀ = none := C91_violated_unknown fl₀ made₀ (name := [122]) (by simp) (by decide +kernel) _ _

/-- C91 is violated: behind a field of several elements the columns told are wrong: the value of `nm` is in column 2. -/
theorem C91_violated_column : fieldsToJson fl₀ db₂ "k".toUTF8.toList ["id".toUTF8.toList, "nm".toUTF8.toList] [1, 0, 2, 0, 3, 0, 0, 0] =
    some (some "{\"fields\":{\"id0\":0,\"id1\":0,\"nm\":1},\"k\":[[1,2,3]]}".toUTF8.toList) := by
  decide +kernel

end Sis.Rec
