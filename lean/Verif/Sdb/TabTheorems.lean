import Verif.Sdb.TabLemmas
/- C82: tables are read back from the text a database keeps them in. -/
namespace Sis.Sdb
open Sis Sis.Num
open Sis.Dyn (Db Field St Def)

/-- C82: the text made of tables with proper names and fields is read as these tables, in the same order: same names, same
fields at the same places with the same types, lengths, digits and flags, same size of a record, same time.

Proved for names of fields of at most 31 bytes without control characters, quotes and backslashes, at most 255 digits, and
tables without fields of the same name; the theorems below show what happens otherwise. -/
theorem C82_text_partial (ts : List Tab) (h : ∀ t ∈ ts, TabName t.name ∧ ∃ ds, MadeOf ds t.db) :
    ∃ b, tabText ts = some b ∧ textTabs b = some ts := by
  obtain ⟨ns, h1, h2, h3⟩ := docs_of ts h
  obtain ⟨-, ⟨b, hb, hl⟩, -⟩ := Json.C68_roundtrip_partial (.mk .object none none ns) ⟨rfl, h2⟩ (.inr rfl)
  refine ⟨b, by rw [tabText, h1]; exact hb, ?_⟩
  rw [textTabs, hl]
  exact h3

theorem objBody_count (d : Nat) : ∀ es : List (Bytes × Option Bytes), (∀ e ∈ es, e.1 ≠ []) → es.length ≤ (Json.objBody false d es).length
  | [], _ => by simp
  | [e], h => by
    have := List.length_pos_iff.2 (h e (by simp))
    simp only [Json.objBody, Json.objItem, List.length_append, List.length_singleton]
    omega
  | e :: e' :: es, h => by
    have := List.length_pos_iff.2 (h e (by simp))
    have ih := objBody_count d (e' :: es) fun x hx => h x (by simp [hx])
    rw [Json.objBody, List.length_append, List.length_cons]
    have h2 : 1 ≤ (Json.objItem false false d e).length := by
      simp only [Json.objItem, List.length_append]
      omega
    omega
    simp

theorem objBody_mem (d : Nat) {e : Bytes × Option Bytes} : ∀ es : List (Bytes × Option Bytes), e ∈ es →
    e.1.length + (match e.2 with | none => 0 | some t => 1 + t.length) ≤ (Json.objBody false d es).length
  | [], h => by cases h
  | [x], h => by
    rw [List.mem_singleton] at h
    subst h
    simp only [Json.objBody, Json.objItem, List.length_append]
    cases e.2 <;> simp <;> omega
  | x :: y :: es, h => by
    rw [Json.objBody, List.length_append]
    · rcases List.mem_cons.1 h with h | h
      · subst h
        simp only [Json.objItem, List.length_append]
        cases e.2 <;> simp <;> omega
      · have := objBody_mem d (y :: es) h
        omega
    · simp

theorem toMembers_length (d : Nat) (ns : List Json.Node) : (Json.toMembers false d ns).length = ns.length := by
  induction ns with
  | nil => rfl
  | cons n ns ih => cases n; simp [Json.toMembers, ih]

theorem toMembers_ne (d : Nat) (ns : List Json.Node) (h : Json.OkMembers ns) : ∀ e ∈ Json.toMembers false d ns, e.1 ≠ [] := by
  induction ns with
  | nil => intro e he; cases he
  | cons n ns ih =>
    cases n with
    | mk ty key value child =>
      obtain ⟨⟨k, rfl, -⟩, -, h3⟩ := h
      intro e he
      simp only [Json.toMembers, List.mem_cons] at he
      rcases he with rfl | he
      · simp [Json.toStr]
      · exact ih h3 e he

theorem esc_plain (s : Bytes) : s.length ≤ (s.flatMap Json.escCh).length := by
  induction s with
  | nil => simp
  | cons c s ih =>
    have : 1 ≤ (Json.escCh c).length := by
      unfold Json.escCh
      split
      · simp
      · repeat' split
        all_goals simp
    simp only [List.flatMap_cons, List.length_append, List.length_cons]
    omega

/-- The text of tables is not short. -/
theorem text_length {ts : List Tab} (hne : ts ≠ []) (h : ∀ t ∈ ts, TabName t.name ∧ ∃ ds, MadeOf ds t.db) {b : Bytes} (hb : tabText ts = some b) :
    16 ≤ b.length ∧ ts.length ≤ b.length := by
  cases ts with
  | nil => exact absurd rfl hne
  | cons t ts =>
    obtain ⟨hn, ds, hm⟩ := h t (by simp)
    obtain ⟨ns, h1, h2, h3⟩ := docs_of ts fun x hx => h x (by simp [hx])
    obtain ⟨ns', h1', h2', -⟩ := docs_of (t :: ts) h
    have he : ns' = tabDoc t.name ds :: ns := by
      simp [every, tabNode_made hm, h1] at h1'
      exact h1'.symm
    rw [tabText, h1', Option.bind_some, Json.outputZip, Json.toValue] at hb
    subst he
    simp only [List.isEmpty_cons, Bool.false_eq_true, if_false, Option.some.injEq] at hb
    subst hb
    have hlen : ns.length = ts.length := by
      have key : ∀ (ts : List Tab) (ns : List Json.Node), every (ts.map tabNode) = some ns → ns.length = ts.length := by
        intro ts
        induction ts with
        | nil => intro ns h; cases h; rfl
        | cons t ts ih =>
          intro ns h
          rw [List.map_cons] at h
          cases ht : tabNode t with
          | none => rw [ht] at h; cases h
          | some n =>
            rw [ht] at h
            simp only [every, Option.map_eq_some_iff] at h
            obtain ⟨m, hm, rfl⟩ := h
            simp [ih m hm]
      exact key ts ns h1
    have hc := objBody_count (0 + 1) (Json.toMembers false (0 + 1) (tabDoc t.name ds :: ns)) (toMembers_ne (0 + 1) _ h2')
    rw [toMembers_length, List.length_cons, hlen] at hc
    have hfirst : (Json.toStr (some t.name), Json.toValue false (0 + 1) (tabDoc t.name ds)) ∈ Json.toMembers false (0 + 1) (tabDoc t.name ds :: ns) := by
      simp [tabDoc, Json.toMembers]
    have hm1 := objBody_mem (0 + 1) _ hfirst
    have hv : ∃ x, Json.toValue false (0 + 1) (tabDoc t.name ds) = some x ∧ 11 ≤ x.length := by
      refine ⟨_, by rw [tabDoc, Json.toValue]; rfl, ?_⟩
      have hm2 := objBody_mem (0 + 1 + 1) (Json.toMembers false (0 + 1 + 1) [.mk .object (some "fields".toUTF8.toList) none ((fieldsFrom 0 ds).map fieldNode)])
        (e := (Json.toStr (some "fields".toUTF8.toList), Json.toValue false (0 + 1 + 1) (.mk .object (some "fields".toUTF8.toList) none ((fieldsFrom 0 ds).map fieldNode))))
        (by simp [Json.toMembers])
      have hs : (Json.toStr (some "fields".toUTF8.toList)).length = 8 := by decide +kernel
      have hx : ∃ y, Json.toValue false (0 + 1 + 1) (.mk .object (some "fields".toUTF8.toList) none ((fieldsFrom 0 ds).map fieldNode)) = some y := by
        rw [Json.toValue]
        split
        · exact ⟨_, rfl⟩
        · exact ⟨_, rfl⟩
      obtain ⟨y, hy⟩ := hx
      rw [hy] at hm2
      simp only [hs] at hm2
      simp only [Json.objText, List.length_cons, List.length_append, Bool.false_eq_true, if_false, List.length_nil]
      omega
    obtain ⟨x, hx, hx2⟩ := hv
    rw [hx] at hm1
    have hnm : 3 ≤ (Json.toStr (some t.name)).length := by
      have := List.length_pos_iff.2 hn.ne
      have h2 := esc_plain t.name
      simp only [Json.toStr, List.length_cons, List.length_append, List.length_nil]
      omega
    simp only at hm1
    simp only [Json.objText, List.length_cons, List.length_append, Bool.false_eq_true, if_false, List.length_nil]
    omega

theorem fieldsFrom_mem (ds : List Def) : ∀ (off : Nat) (f : Field), f ∈ fieldsFrom off ds → ∃ d ∈ ds, ∃ o, f = Dyn.mk d o ∧ off ≤ o ∧ o + Dyn.width d ≤ off + Dyn.widths ds := by
  induction ds with
  | nil => intro off f h; cases h
  | cons d ds ih =>
    intro off f h
    have hw : Dyn.widths (d :: ds) = Dyn.width d + Dyn.widths ds := by simp [Dyn.widths]
    simp only [fieldsFrom, List.mem_cons] at h
    rcases h with rfl | h
    · exact ⟨d, by simp, off, rfl, Nat.le_refl _, by omega⟩
    · obtain ⟨e, he, o, h1, h2, h3⟩ := ih _ f h
      exact ⟨e, by simp [he], o, h1, by omega, by omega⟩

theorem widths_fields (ds : List Def) (h : ∀ d ∈ ds, FieldOk d) : ∀ off, Dyn.widths ds = ((fieldsFrom off ds).map fun f => f.len * f.count).sum := by
  induction ds with
  | nil => intro off; rfl
  | cons d ds ih =>
    intro off
    have hw : Dyn.widths (d :: ds) = Dyn.width d + Dyn.widths ds := by simp [Dyn.widths]
    rw [hw, ih (fun e he => h e (by simp [he])) (off + Dyn.width d)]
    simp [fieldsFrom, Dyn.mk, Dyn.width, good_of (h d (by simp))]

theorem unitOf_time {st : St} (h : Dyn.isTime st = true) : (Dyn.unitOf st).isSome = true := by cases st <;> simp_all [Dyn.isTime, Dyn.unitOf]

/-- C82: the tables of a database meet what the theorems on databases (C23, C24, C26, C27, C80, C81) ask of them, by the text
the program itself makes of tables. -/
theorem C82_database_partial {lib : Lib} (R : Real lib) : Readable lib Usual ∧ Tables Usual := by
  refine ⟨?_, ?_, ?_, ?_⟩
  · intro ts hne h
    have h' : ∀ t ∈ ts, TabName t.name ∧ ∃ ds, MadeOf ds t.db := fun t ht => by
      obtain ⟨h1, ds, h2, -⟩ := h t ht
      exact ⟨h1, ds, h2⟩
    obtain ⟨b, h1, h2⟩ := C82_text_partial ts h'
    rw [R.text ts b h1, R.parse b ts h2]
    exact ⟨rfl, text_length hne h' h1⟩
  · rintro db ⟨ds, h1, h2, -⟩
    exact ⟨(made_shape h1).2.2.2.2, h2⟩
  · rintro db ⟨ds, h1, h2, h3⟩ ht
    obtain ⟨s1, s2, s3, s4, s5⟩ := made_shape h1
    rw [s3] at ht
    obtain ⟨i, hi⟩ := Option.isSome_iff_exists.1 ht
    obtain ⟨hlt, hp, -⟩ := List.findIdx?_eq_some_iff_getElem.1 hi
    refine ⟨(fieldsFrom 0 ds)[i], ?_, unitOf_time hp, ?_⟩
    · rw [timeField, s3, hi, Option.bind_some, Dyn.unit, s1]
      simp [hlt]
    · obtain ⟨d, hd, o, e1, e2, e3⟩ := fieldsFrom_mem ds 0 _ (List.getElem_mem hlt)
      have hok := h1.1 d hd
      obtain ⟨k, st, hk, hst, g1, g2, g3, g4⟩ := Dyn.good_iff.1 (good_of hok)
      rw [e1] at hp ⊢
      have htm : Dyn.Timed d := by
        refine ⟨hok.proper, ?_⟩
        rw [hst]
        simp only [Dyn.mk, hst, Option.getD_some] at hp
        cases st <;> simp_all [Dyn.isTime]
      have hl := h3 d hd htm
      refine ⟨?_, ?_⟩
      · simp only [Dyn.mk]; omega
      · have hw : Dyn.width d = d.len.toNat * d.count.toNat := by simp [Dyn.width, good_of hok]
        have : d.len.toNat * 1 ≤ d.len.toNat * d.count.toNat := Nat.mul_le_mul_left _ (by omega)
        simp only [Dyn.mk]
        rw [s4]
        omega
  · rintro a b ⟨ds, h1, -⟩ ⟨es, h2, -⟩ he
    obtain ⟨s1, s2, s3, s4, s5⟩ := made_shape h1
    obtain ⟨t1, t2, t3, t4, t5⟩ := made_shape h2
    rw [s2, t2] at he
    have hf : fieldsFrom 0 ds = fieldsFrom 0 es := (List.map_inj_right fun _ _ h => Option.some.inj h).1 he
    refine ⟨?_, ?_⟩
    · rw [s4, t4, widths_fields ds h1.1 0, widths_fields es h2.1 0, hf]
    · have hu : ∀ i, Dyn.unit a i = Dyn.unit b i := by
        intro i
        rw [Dyn.unit, Dyn.unit, s1, t1, hf]
      rw [s3, t3, hf, show Dyn.unit a = Dyn.unit b from funext hu]

/-! ### Cases -/

/-- The definitions of a table of prices: a time, a name, five prices with two digits, and the number of a row. -/
def priceDefs : List Def :=
  [⟨some "time".toUTF8.toList, some .msec, 8, 1, false, 0, false⟩, ⟨some "code, name".toUTF8.toList, some .char, 16, 1, true, 0, true⟩,
   ⟨some "ask".toUTF8.toList, some .price, 4, 5, false, 2, false⟩, ⟨some "no".toUTF8.toList, some .uint, 4, 1, false, 0, true⟩]

/-- The table of such definitions. -/
def madeTab (n : String) (ds : List Def) : Tab := ⟨n.toUTF8.toList, ((Dyn.create ds).join).getD ⟨[], [], 0, none, none⟩⟩

theorem price_made : MadeOf priceDefs (madeTab "p" priceDefs).db := by
  refine ⟨?_, by decide +kernel, by decide +kernel⟩
  intro d hd
  simp only [priceDefs, List.mem_cons, List.not_mem_nil, or_false] at hd
  rcases hd with rfl | rfl | rfl | rfl
  · exact ⟨⟨_, rfl, by decide +kernel⟩, by decide +kernel, by decide +kernel⟩
  · exact ⟨⟨_, rfl, by decide +kernel⟩, by decide +kernel, by decide +kernel⟩
  · exact ⟨⟨_, rfl, by decide +kernel⟩, by decide +kernel, by decide +kernel⟩
  · exact ⟨⟨_, rfl, by decide +kernel⟩, by decide +kernel, by decide +kernel⟩

example : TabName "p".toUTF8.toList ∧ MadeOf priceDefs (madeTab "p" priceDefs).db ∧ Usual (madeTab "p" priceDefs).db ∧
    tabText [madeTab "p" priceDefs] = some
      "{\"p\":{\"fields\":{\"time\":[\"T\",8,1],\"code, name\":[\"C\",16,1,0,\"IO\"],\"ask\":[\"P\",4,5,2],\"no\":[\"U\",4,1,0,\"O\"]}}}".toUTF8.toList := by
  refine ⟨⟨by decide +kernel, by decide +kernel, by decide +kernel⟩, price_made, ⟨priceDefs, price_made, by decide +kernel, ?_⟩, by decide +kernel⟩
  intro d hd ht
  simp only [priceDefs, List.mem_cons, List.not_mem_nil, or_false] at hd
  rcases hd with rfl | rfl | rfl | rfl
  · exact .inr (.inr (.inr rfl))
  · exact absurd ht.2 (by decide +kernel)
  · exact absurd ht.2 (by decide +kernel)
  · exact .inr (.inr (.inl rfl))

example : Real ⟨fun x => some x, fun x => some x, fun ts => (tabText ts).getD [], fun s => (textTabs s).getD [], false⟩ :=
  ⟨fun _ _ h => by simp [h], fun _ _ h => by simp [h]⟩

/-- A name of 32 bytes. -/
def longName (c : UInt8) : Bytes := List.replicate 31 97 ++ [c]

/-- Two fields whose names differ in the last of 32 bytes. -/
def longDefs : List Def := [⟨some (longName 49), some .date, 4, 1, false, 0, false⟩, ⟨some (longName 50), some .int, 4, 1, false, 0, false⟩]

/-- C82 fails: two fields with names of more than 31 bytes that differ behind that are one field when the table is read, and
the time of the table, which was the first of them, is a field that was freed. -/
theorem C82_violated_long : ∃ b t, tabText [madeTab "t" longDefs] = some b ∧ textTabs b = some [t] ∧
    (madeTab "t" longDefs).db.fields.length = 2 ∧ (timeField (madeTab "t" longDefs).db).isSome = true ∧
    t.db.fields.length = 1 ∧ t.db.time.isSome = true ∧ timeField t.db = none := by
  refine ⟨(tabText [madeTab "t" longDefs]).getD [], (((textTabs ((tabText [madeTab "t" longDefs]).getD [])).getD []).headD ⟨[], ⟨[], [], 0, none, none⟩⟩),
    by decide +kernel, by decide +kernel, by decide +kernel, by decide +kernel, by decide +kernel, by decide +kernel, by decide +kernel⟩

/-- C82 fails: the name of a table with a quote is another one when it is read. -/
theorem C82_violated_quote : ∃ db b, tabText [⟨"a\"b".toUTF8.toList, db⟩] = some b ∧ textTabs b = some [⟨"a\\\"b".toUTF8.toList, db⟩] := by
  refine ⟨(madeTab "t" priceDefs).db, (tabText [⟨"a\"b".toUTF8.toList, (madeTab "t" priceDefs).db⟩]).getD [], by decide +kernel, by decide +kernel⟩

/-- C82 fails: a price with 256 digits, kept as 0, has 3 digits when it is read. -/
theorem C82_violated_digits : ∃ b t, tabText [madeTab "t" [⟨some [97], some .price, 4, 1, false, 256, false⟩]] = some b ∧ textTabs b = some [t] ∧
    ((madeTab "t" [⟨some [97], some .price, 4, 1, false, 256, false⟩]).db.heap.map fun f => f.map Field.dot) = [some 0] ∧
    (t.db.heap.map fun f => f.map Field.dot) = [some 3] := by
  refine ⟨(tabText [madeTab "t" [⟨some [97], some .price, 4, 1, false, 256, false⟩]]).getD [],
    madeTab "t" [⟨some [97], some .price, 4, 1, false, 3, false⟩], by decide +kernel, by decide +kernel, by decide +kernel, by decide +kernel⟩

end Sis.Sdb
