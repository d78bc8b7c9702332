import Verif.Dyn.ConvLemmas
/-
C52: the fields of a record do not overlap.  C53: records converted from one table to another keep their values.
C79: the time and the index of a record.
-/
namespace Sis.Dyn
open Sis

theorem made_lay {db : Db} (h : Made db) : Lay db.heap db.fields db.size := by
  induction h with
  | create h hs => exact create_lay h hs
  | add _ hl hc hs h ih => exact addField_lay ih hl hc h hs

theorem good_proper {d : Def} : good d = true ↔ Proper d := by
  rw [good_iff]
  unfold Proper
  constructor
  · rintro ⟨k, st, h1, h2, h3⟩
    exact ⟨by simp [h1], by simp [h2], h3⟩
  · rintro ⟨h1, h2, h3⟩
    obtain ⟨k, hk⟩ := Option.ne_none_iff_exists'.1 h1
    obtain ⟨st, hst⟩ := Option.ne_none_iff_exists'.1 h2
    exact ⟨k, st, hk, hst, h3⟩

theorem widths_total (ds : List Def) : widths ds = total ds := by
  induction ds with
  | nil => rfl
  | cons d ds ih =>
    have : width d = if Proper d then d.len.toNat * d.count.toNat else 0 := by
      unfold width
      by_cases h : Proper d
      · rw [if_pos h, if_pos (good_proper.2 h)]
      · rw [if_neg h, if_neg (fun h' => h (good_proper.1 h'))]
    simp only [total, ← this, ← ih]
    simp [widths]

/-- C52: in every table with records of at most 65536 bytes, two different fields never share a byte, and every field lies
inside the record. -/
theorem C52_partial {db : Db} (h : Made db) {i j : Nat} {f g : Field} (hf : fieldAt db i = some f) (hg : fieldAt db j = some g) :
    f.offset + f.len * f.count ≤ db.size ∧ (i ≠ j → f.offset + f.len * f.count ≤ g.offset ∨ g.offset + g.len * g.count ≤ f.offset) := by
  have L := made_lay h
  obtain ⟨e, he, hf⟩ := fieldAt_some.1 hf
  obtain ⟨e', he', hg⟩ := fieldAt_some.1 hg
  obtain ⟨f', h1, h2, -⟩ := L.live i e he
  have : unit db e.2 = some f' := h1
  rw [hf] at this; cases this
  exact ⟨h2, fun hij => L.apart i j e e' f g he he' hij hf hg⟩

/-- C52: every position of a table holds a field that can be used. -/
theorem C52_live_partial {db : Db} (h : Made db) {i : Nat} (hi : i < db.fields.length) : ∃ f, fieldAt db i = some f ∧ 1 ≤ f.len ∧ 1 ≤ f.count := by
  obtain ⟨f, h1, _, h2, h3, _⟩ := (made_lay h).live i _ (List.getElem?_eq_getElem hi)
  exact ⟨f, fieldAt_some.2 ⟨_, List.getElem?_eq_getElem hi, h1⟩, h2, h3⟩

/-- C52: a table is made exactly when the definitions take 1 to 2^31 - 1 bytes, and its records have that size; nothing to
keep gives no table, and more is undefined behaviour. -/
theorem C52_size (ds : List Def) :
    (1 ≤ total ds → total ds < 2 ^ 31 → ∃ db, create ds = some (some db) ∧ db.size = total ds) ∧
    (total ds = 0 → create ds = some none) ∧ (2 ^ 31 ≤ total ds → create ds = none) := by
  rw [← widths_total]
  refine ⟨?_, ?_, ?_⟩
  · intro h1 h2
    obtain ⟨⟨db₀, off⟩, hr⟩ := addDefs_some (db := ⟨[], [], 0, none, none⟩) (off := 0) (ds := ds) (by omega)
    have := addDefs_off hr
    refine ⟨{ db₀ with size := off, mindex := if db₀.time.isSome then db₀.time else db₀.mindex }, ?_, by dsimp only; omega⟩
    rw [create, hr, Option.map_some]
    dsimp only
    rw [if_neg (by omega)]
  · intro h
    obtain ⟨⟨db₀, off⟩, hr⟩ := addDefs_some (db := ⟨[], [], 0, none, none⟩) (off := 0) (ds := ds) (by omega)
    have := addDefs_off hr
    rw [create, hr, Option.map_some]
    dsimp only
    rw [if_pos (by omega)]
  · intro h
    rw [create, addDefs_none (by omega) (by omega)]
    rfl

theorem named_iff {k : Bytes} {d : Def} : Named k d ↔ good d = true ∧ ∃ k', d.name = some k' ∧ sameN k k' = true := by
  unfold Named
  rw [good_proper]
  simp only [sameN_iff]

theorem field_append {db : Db} {off : Nat} (L : Lay db.heap db.fields off) (k k' : Bytes) (f : Field) (hn : getN db.fields k' = none)
    (size : Nat) (t m : Option Nat) :
    field ⟨db.heap ++ [some f], db.fields ++ [(k', db.heap.length)], size, t, m⟩ k = if sameN k k' then some f else field db k := by
  unfold field getN unit
  dsimp only
  rw [List.find?_append]
  cases hfd : db.fields.find? fun e => sameN k e.1 with
  | none =>
    by_cases hk : sameN k k' = true
    · simp [hk]
    · simp [hk]
  | some e =>
    have he := List.mem_of_find?_eq_some hfd
    have hs : sameN k e.1 = true := by simpa using List.find?_some hfd
    obtain ⟨i, hi⟩ := List.mem_iff_getElem?.1 he
    obtain ⟨g, hg, -⟩ := L.live i e hi
    rw [if_neg]
    · simp only [Option.some_or, Option.map_some, Option.bind_some]
      rw [join_append hg, hg]
    · intro hk
      rw [getN_none] at hn
      have := hn e he
      rw [← Bool.not_eq_true, sameN_iff] at this
      rw [sameN_iff] at hs hk
      exact this (hk.symm.trans hs)

theorem addDef_field {db db' : Db} {off off' : Nat} {d : Def} (L : Lay db.heap db.fields off) (h : addDef db off d = some (db', off'))
    (hs : off' ≤ 65536) (k : Bytes) : (Named k d → field db' k = some (mk d off)) ∧ (¬ Named k d → field db' k = field db k) := by
  have L' := addDef_lay L h hs
  rw [named_iff]
  cases hg : good d
  · rw [addDef_bad hg] at h; cases h
    simp
  · obtain ⟨k', st, h1, h2, -⟩ := good_iff.1 hg
    have ho := addDef_off h
    have hlt := ho.2 hg
    rw [addDef_good hg h1 h2 (by omega)] at h
    have hiff : (true = true ∧ ∃ k'', d.name = some k'' ∧ sameN k k'' = true) ↔ sameN k k' = true := by
      constructor
      · rintro ⟨-, k'', h3, h4⟩
        rw [h1] at h3; cases h3; exact h4
      · exact fun h => ⟨rfl, k', h1, h⟩
    rw [hiff]
    rcases setN_spec db.fields k' db.heap.length with ⟨hn, he⟩ | ⟨i, e, hi, hk, hge, he⟩
    · rw [he] at h
      dsimp only at h
      cases h
      have := field_append L k k' (mk d off) hn db.size (if db.time.isNone ∧ isTime st = true then some db.heap.length else db.time) (if d.main then some db.heap.length else db.mindex)
      rw [this]
      exact ⟨fun h => by rw [if_pos h], fun h => by rw [if_neg h]⟩
    · rw [he] at h
      dsimp only at h
      cases h
      dsimp only at L'
      have hilt : i < db.fields.length := (List.getElem?_eq_some_iff.1 hi).1
      obtain ⟨g0, hg0, -⟩ := L.live i e hi
      have he2 := join_lt hg0
      refine ⟨fun h => ?_, fun h => ?_⟩
      · have hat : (db.fields.set i (e.1, db.heap.length))[i]? = some (e.1, db.heap.length) := by
          rw [List.getElem?_set, if_pos rfl, if_pos hilt]
        have hke : sameN k e.1 = true := by
          rw [sameN_iff] at h hk ⊢
          exact h.trans hk
        unfold field
        dsimp only
        rw [getN_at L' hat hke, Option.bind_some]
        unfold unit
        dsimp only
        rw [List.getElem?_set_ne (by omega)]
        simp
      · unfold field
        dsimp only
        have hgn : getN (db.fields.set i (e.1, db.heap.length)) k = getN db.fields k := by
          cases hgk : getN db.fields k with
          | none =>
            rw [getN_none] at hgk ⊢
            intro x hx
            obtain ⟨j, hj⟩ := List.mem_iff_getElem?.1 hx
            rw [List.getElem?_set] at hj
            split at hj
            · cases hj
              exact hgk e (List.mem_of_getElem? hi)
            · exact hgk x (List.mem_of_getElem? hj)
          | some a =>
            obtain ⟨j, x, h3, h4, h5⟩ := getN_some hgk
            have hij : i ≠ j := by
              rintro rfl
              rw [hi] at h3; cases h3
              apply h
              rw [sameN_iff] at h5 hk ⊢
              exact h5.trans hk.symm
            have : (db.fields.set i (e.1, db.heap.length))[j]? = some x := by rw [List.getElem?_set_ne hij]; exact h3
            rw [getN_at L' this h5, h4]
        rw [hgn]
        cases hgk : getN db.fields k with
        | none => rfl
        | some a =>
          rw [Option.bind_some, Option.bind_some]
          obtain ⟨j, x, h3, h4, h5⟩ := getN_some hgk
          have hij : j ≠ i := by
            rintro rfl
            rw [hi] at h3; cases h3
            apply h
            rw [sameN_iff] at h5 hk ⊢
            exact h5.trans hk.symm
          obtain ⟨g, hgg, -⟩ := L.live j x h3
          have hne := (L.diff j i x e h3 hi hij).2
          unfold unit
          dsimp only
          rw [← h4, List.getElem?_set_ne (fun h => hne h.symm), join_append hgg, hgg]

theorem addDefs_field_other {ds : List Def} : ∀ {db db' : Db} {off off' : Nat}, Lay db.heap db.fields off → addDefs db off ds = some (db', off') →
    off' ≤ 65536 → ∀ k, (∀ d ∈ ds, ¬ Named k d) → field db' k = field db k := by
  induction ds with
  | nil => intro db db' off off' L h _ k _; cases h; rfl
  | cons d ds ih =>
    intro db db' off off' L h hs k hk
    simp only [addDefs, Option.bind_eq_some_iff] at h
    obtain ⟨⟨db1, off1⟩, h1, h2⟩ := h
    have := addDefs_off h2
    rw [ih (addDef_lay L h1 (by omega)) h2 hs k fun d hd => hk d (by simp [hd])]
    exact (addDef_field L h1 (by omega) k).2 (hk d (by simp))

theorem addDefs_append {a b : List Def} : ∀ {db : Db} {off : Nat}, addDefs db off (a ++ b) = (addDefs db off a).bind fun r => addDefs r.1 r.2 b := by
  induction a with
  | nil => intro db off; rfl
  | cons d a ih =>
    intro db off
    simp only [List.cons_append, addDefs]
    cases addDef db off d with
    | none => rfl
    | some r => simp only [Option.bind_some]; exact ih

theorem addDefs_split {a b : List Def} {d : Def} {db db' : Db} {off off' : Nat} (h : addDefs db off (a ++ d :: b) = some (db', off')) :
    ∃ db1 db2 off2, addDefs db off a = some (db1, off + widths a) ∧ addDef db1 (off + widths a) d = some (db2, off2) ∧ addDefs db2 off2 b = some (db', off') := by
  rw [addDefs_append] at h
  obtain ⟨⟨db1, off1⟩, h1, h2⟩ := Option.bind_eq_some_iff.1 h
  have := addDefs_off h1
  subst this
  simp only [addDefs, Option.bind_eq_some_iff] at h2
  obtain ⟨⟨db2, off2⟩, h3, h4⟩ := h2
  exact ⟨db1, db2, off2, h1, h3, h4⟩

/-- C52: the last proper definition of a name is the field of that name, behind what was defined before. -/
theorem C52_fields_partial {a b : List Def} {d : Def} {db : Db} (h : create (a ++ d :: b) = some (some db)) (hs : db.size ≤ 65536)
    {k : Bytes} (hk : Named k d) (hb : ∀ d' ∈ b, ¬ Named k d') :
    ∃ f, field db k = some f ∧ d.style = some f.style ∧ (f.len : Int) = d.len ∧ (f.count : Int) = d.count ∧ f.offset = total a := by
  obtain ⟨db₀, h1, h2, rfl⟩ := create_some h
  dsimp only at hs
  obtain ⟨db1, db2, off2, h3, h4, h5⟩ := addDefs_split h1
  have ho := addDefs_off h5
  have L1 := addDefs_lay (db := ⟨[], [], 0, none, none⟩) lay_nil h3 (by have := (addDef_off h4).1; omega)
  have hw := (addDef_off h4).1
  have h6 := (addDef_field L1 h4 (by omega) k).1 hk
  have h7 := addDefs_field_other (addDef_lay L1 h4 (by omega)) h5 hs k hb
  refine ⟨mk d (0 + widths a), ?_, ?_⟩
  · rw [← h6, ← h7]; rfl
  · obtain ⟨⟨_, p2, p3, p4, p5, p6⟩, k', p7, _⟩ := hk
    obtain ⟨st, hst⟩ := Option.ne_none_iff_exists'.1 p2
    have hp := width_pos (good_proper.2 (show Proper d from ⟨by simp [p7], p2, p3, p4, p5, p6⟩))
    refine ⟨by simp [mk, hst], by simp only [mk]; omega, by simp only [mk]; omega, ?_⟩
    simp only [mk, ← widths_total]
    omega

/-- C52: a name without a proper definition is no field. -/
theorem C52_absent_partial {ds : List Def} {db : Db} (h : create ds = some (some db)) (hs : db.size ≤ 65536)
    {k : Bytes} (hk : ∀ d ∈ ds, ¬ Named k d) : field db k = none := by
  obtain ⟨db₀, h1, h2, rfl⟩ := create_some h
  have := addDefs_field_other (db := ⟨[], [], 0, none, none⟩) lay_nil h1 hs k hk
  exact this

/-- The fields of a record of a day's prices. -/
def dayDefs : List Def := [⟨some [0x74], some .date, 4, 1, false, 0, false⟩, ⟨some [0x6f], some .float, 4, 2, false, 0, false⟩, ⟨some [0x62], none, 4, 1, false, 0, false⟩, ⟨some [0x6e], some .char, 9, 1, false, 0, false⟩]

example : ∃ db, create dayDefs = some (some db) ∧ db.size = 21 ∧ fieldAt db 2 = some ⟨[0x6e], .char, 9, 1, 12, 0, false, false⟩ :=
  ⟨_, rfl, rfl, rfl⟩

/-- C52 fails: with two fields of 40000 bytes before it, a field starts in the middle of the second. -/
theorem C52_violated : ∃ ds db f g, create ds = some (some db) ∧ fieldAt db 1 = some f ∧ fieldAt db 2 = some g ∧
    f.offset = 40000 ∧ f.len = 40000 ∧ g.offset = 14464 ∧ (∃ h, fieldAt db 0 = some h ∧ h.offset = 0 ∧ h.len = 40000) :=
  ⟨[⟨some [1], some .char, 40000, 1, false, 0, false⟩, ⟨some [2], some .char, 40000, 1, false, 0, false⟩, ⟨some [3], some .int, 4, 1, false, 0, false⟩],
    _, _, _, rfl, rfl, rfl, rfl, rfl, rfl, _, rfl, rfl, rfl⟩

/-- C52 fails: definitions that each are proper overflow an `int`. -/
theorem C52_overflow_violated : ∃ d, Proper d ∧ create [d] = none :=
  ⟨⟨some [1], some .char, 65535, 65535, false, 0, false⟩, by decide, rfl⟩

/-! ### The time of a record -/

theorem addDef_time {db db' : Db} {off off' : Nat} {d : Def} (h : addDef db off d = some (db', off')) :
    (¬ Timed d → db'.time = db.time) ∧ (db.time ≠ none → db'.time = db.time) ∧
    (Timed d → db.time = none → db'.time = some db.heap.length) := by
  cases hg : good d
  · rw [addDef_bad hg] at h; cases h
    refine ⟨fun _ => rfl, fun _ => rfl, fun ht => ?_⟩
    rw [good_proper.2 ht.1] at hg; cases hg
  · obtain ⟨k, st, h1, h2, -⟩ := good_iff.1 hg
    have hlt := (addDef_off h).2 hg
    have ho := (addDef_off h).1
    rw [addDef_good hg h1 h2 (by omega)] at h
    cases h
    have hT : Timed d ↔ isTime st = true := by
      unfold Timed
      rw [h2]
      simp only [good_proper.1 hg, true_and, Option.some.injEq]
      cases st <;> simp [isTime]
    rw [hT]
    dsimp only
    refine ⟨fun h => by rw [if_neg (by simp [h])], fun h => ?_, fun h h' => by simp [h, h']⟩
    rw [if_neg]
    rintro ⟨h', _⟩
    exact h (Option.isNone_iff_eq_none.1 h')

theorem addDef_keeps {db db' : Db} {off off' : Nat} {d : Def} (L : Lay db.heap db.fields off) (h : addDef db off d = some (db', off'))
    {i : Nat} {e : Bytes × Nat} (hi : db.fields[i]? = some e) (hn : ¬ Named e.1 d) {f : Field} (hf : unit db e.2 = some f) :
    db'.fields[i]? = some e ∧ unit db' e.2 = some f := by
  rw [named_iff] at hn
  cases hg : good d
  · rw [addDef_bad hg] at h; cases h
    exact ⟨hi, hf⟩
  · obtain ⟨k, st, h1, h2, -⟩ := good_iff.1 hg
    have hlt := (addDef_off h).2 hg
    have ho := (addDef_off h).1
    rw [addDef_good hg h1 h2 (by omega)] at h
    rcases setN_spec db.fields k db.heap.length with ⟨hno, he⟩ | ⟨j, x, hj, hk, _, he⟩
    · rw [he] at h
      cases h
      refine ⟨?_, join_append hf⟩
      dsimp only
      rw [List.getElem?_append_left (List.getElem?_eq_some_iff.1 hi).1]
      exact hi
    · rw [he] at h
      cases h
      have hji : j ≠ i := by
        rintro rfl
        rw [hi] at hj; cases hj
        rw [hg] at hn
        apply hn
        refine ⟨rfl, k, h1, ?_⟩
        rw [sameN_iff] at hk ⊢
        exact hk.symm
      have hne := (L.diff j i x e hj hi hji).2
      refine ⟨by dsimp only; rw [List.getElem?_set_ne hji]; exact hi, ?_⟩
      unfold unit at hf ⊢
      dsimp only
      rw [List.getElem?_set_ne hne]
      exact join_append hf

theorem addDefs_keeps {ds : List Def} : ∀ {db db' : Db} {off off' : Nat}, Lay db.heap db.fields off → addDefs db off ds = some (db', off') →
    off' ≤ 65536 → ∀ {i : Nat} {e : Bytes × Nat}, db.fields[i]? = some e → (∀ d ∈ ds, ¬ Named e.1 d) → ∀ {f : Field}, unit db e.2 = some f →
    unit db' e.2 = some f := by
  induction ds with
  | nil => intro db db' off off' L h _ i e hi hn f hf; cases h; exact hf
  | cons d ds ih =>
    intro db db' off off' L h hs i e hi hn f hf
    simp only [addDefs, Option.bind_eq_some_iff] at h
    obtain ⟨⟨db1, off1⟩, h1, h2⟩ := h
    have := addDefs_off h2
    obtain ⟨h3, h4⟩ := addDef_keeps L h1 hi (hn d (by simp)) hf
    exact ih (addDef_lay L h1 (by omega)) h2 hs h3 (fun d hd => hn d (by simp [hd])) h4

theorem addDefs_time_none {ds : List Def} : ∀ {db db' : Db} {off off' : Nat}, addDefs db off ds = some (db', off') → (∀ d ∈ ds, ¬ Timed d) →
    db'.time = db.time := by
  induction ds with
  | nil => intro db db' off off' h _; cases h; rfl
  | cons d ds ih =>
    intro db db' off off' h hn
    simp only [addDefs, Option.bind_eq_some_iff] at h
    obtain ⟨⟨db1, off1⟩, h1, h2⟩ := h
    rw [ih h2 fun d hd => hn d (by simp [hd]), (addDef_time h1).1 (hn d (by simp))]

theorem addDefs_time_some {ds : List Def} : ∀ {db db' : Db} {off off' : Nat}, addDefs db off ds = some (db', off') → db.time ≠ none →
    db'.time = db.time := by
  induction ds with
  | nil => intro db db' off off' h _; cases h; rfl
  | cons d ds ih =>
    intro db db' off off' h hn
    simp only [addDefs, Option.bind_eq_some_iff] at h
    obtain ⟨⟨db1, off1⟩, h1, h2⟩ := h
    have h3 := (addDef_time h1).2.1 hn
    rw [ih h2 (by rw [h3]; exact hn), h3]

theorem addDef_new {db db' : Db} {off off' : Nat} {d : Def} {k : Bytes} (L : Lay db.heap db.fields off) (h : addDef db off d = some (db', off'))
    (hs : off' ≤ 65536) (hg : good d = true) (hk : d.name = some k) :
    ∃ (i : Nat) (e : Bytes × Nat), db'.fields[i]? = some e ∧ e.2 = db.heap.length ∧ sameN k e.1 = true ∧ unit db' db.heap.length = some (mk d off) := by
  obtain ⟨k', st, h1, h2, -⟩ := good_iff.1 hg
  rw [hk] at h1; cases h1
  have hlt := (addDef_off h).2 hg
  have ho := (addDef_off h).1
  rw [addDef_good hg hk h2 (by omega)] at h
  rcases setN_spec db.fields k db.heap.length with ⟨hno, he⟩ | ⟨j, x, hj, hkx, _, he⟩
  · rw [he] at h
    cases h
    exact ⟨db.fields.length, (k, db.heap.length), by simp, rfl, sameN_refl k, by simp [unit]⟩
  · rw [he] at h
    cases h
    obtain ⟨g, hg', -⟩ := L.live j x hj
    have := join_lt hg'
    refine ⟨j, (x.1, db.heap.length), ?_, rfl, hkx, ?_⟩
    · dsimp only
      rw [List.getElem?_set, if_pos rfl, if_pos (List.getElem?_eq_some_iff.1 hj).1]
    · unfold unit
      dsimp only
      rw [List.getElem?_set_ne (by omega)]
      simp

/-- What reading one number of a record gives. -/
def valueAt (size : Nat) (buf : Bytes) (r place len : Nat) : Nat :=
  if len = 1 ∨ len = 2 ∨ len = 4 ∨ len = 8 then leVal ((buf.drop (r * size + place)).take len) else 0

theorem read_at {f : Field} {size : Nat} {buf : Bytes} {r : Nat} (hd : (r + 1) * size ≤ buf.length) (hin : f.offset + f.len * f.count ≤ size) (hc : 1 ≤ f.count) :
    getUint f buf (r * size) 0 = some (valueAt size buf r f.offset f.len) := by
  have h1 : f.len ≤ f.len * f.count := Nat.le_mul_of_pos_right _ hc
  rw [Nat.succ_mul] at hd
  unfold getUint valueAt
  by_cases h : f.len = 1 ∨ f.len = 2 ∨ f.len = 4 ∨ f.len = 8
  · rw [if_pos h, if_pos (by simp [intLen]; omega), elem, if_pos (by omega)]
    simp
  · rw [if_neg h, if_neg (by simp [intLen]; omega)]

theorem not_named_of {k k' : Bytes} (h : sameN k k' = true) {d : Def} (hn : ¬ Named k d) : ¬ Named k' d := by
  intro h'
  apply hn
  obtain ⟨p, x, h1, h2⟩ := h'
  exact ⟨p, x, h1, (sameN_iff.1 h).trans h2⟩

/-- C79: the time of a record is its first time field, when no later definition has the name of that field. -/
theorem C79_partial {a b : List Def} {d : Def} {db : Db} (h : create (a ++ d :: b) = some (some db)) (hs : db.size ≤ 65536)
    {k : Bytes} (hk : d.name = some k) (ht : Timed d) (ha : ∀ d' ∈ a, ¬ Timed d') (hb : ∀ d' ∈ b, ¬ Named k d')
    {buf : Bytes} {r : Nat} (hm : buf.length % db.size = 0) (hr : (r + 1) * db.size ≤ buf.length) (hl : buf.length < 2 ^ 32) :
    getTime db r buf = some (valueAt db.size buf r (total a) d.len.toNat) := by
  obtain ⟨db₀, h1, h2, rfl⟩ := create_some h
  dsimp only at hs hm hr ⊢
  obtain ⟨db1, db2, off2, h3, h4, h5⟩ := addDefs_split h1
  have hw := (addDef_off h4).1
  have ho := addDefs_off h5
  have L1 := addDefs_lay (db := ⟨[], [], 0, none, none⟩) lay_nil h3 (by omega)
  have L2 := addDef_lay L1 h4 (by omega)
  have t1 : db1.time = none := addDefs_time_none h3 ha
  have t2 : db2.time = some db1.heap.length := (addDef_time h4).2.2 ht t1
  have t3 : db₀.time = some db1.heap.length := by rw [addDefs_time_some h5 (by rw [t2]; simp), t2]
  have hg := good_proper.2 ht.1
  obtain ⟨i, e, e1, e2, e3, e4⟩ := addDef_new L1 h4 (by omega) hg hk
  have hlive := addDefs_keeps L2 h5 hs e1 (fun d' hd' => not_named_of e3 (hb d' hd')) (by rw [e2]; exact e4)
  rw [e2] at hlive
  have hp := width_pos hg
  unfold getTime
  dsimp only
  rw [t3]
  dsimp only
  have hr' : (r + 1) * widths (a ++ d :: b) % 2 ^ 32 = (r + 1) * widths (a ++ d :: b) := Nat.mod_eq_of_lt (by omega)
  have hr'' : r * widths (a ++ d :: b) % 2 ^ 32 = r * widths (a ++ d :: b) := Nat.mod_eq_of_lt (by rw [Nat.succ_mul] at hr; omega)
  rw [hr', hr'', if_neg (by omega)]
  have hu : unit ⟨db₀.heap, db₀.fields, widths (a ++ d :: b), some db1.heap.length, if (some db1.heap.length).isSome = true then some db1.heap.length else db₀.mindex⟩ db1.heap.length = some (mk d (0 + widths a)) := hlive
  have hu' := hu
  rw [hu', Option.bind_some]
  have hwd : (mk d (0 + widths a)).len * (mk d (0 + widths a)).count = width d := by simp [mk, width, hg]
  have hoff : (mk d (0 + widths a)).offset = widths a := by simp only [mk]; omega
  have hc : 1 ≤ (mk d (0 + widths a)).count := by
    have := ht.1
    unfold Proper at this
    simp only [mk]; omega
  rw [read_at hr (by rw [hwd, hoff]; omega) hc, hoff, ← widths_total a]
  rfl

/-- C79: a table without a time field has no times. -/
theorem C79_untimed {ds : List Def} {db : Db} (h : create ds = some (some db)) (hn : ∀ d ∈ ds, ¬ Timed d) (r : Nat) (buf : Bytes) :
    getTime db r buf = some 0 := by
  obtain ⟨db₀, h1, h2, rfl⟩ := create_some h
  have : db₀.time = none := addDefs_time_none h1 hn
  unfold getTime
  dsimp only
  rw [this]

example : ∃ db, create dayDefs = some (some db) ∧ getTime db 1 (List.replicate 21 0 ++ [0x5d, 0x63, 0x34, 0x01] ++ List.replicate 17 0) = some 20210525 :=
  ⟨_, rfl, by decide +kernel⟩

/-- C79 fails: after a second definition of the name of the time field the time is read through a freed field. -/
theorem C79_violated : ∃ d d' db, Timed d ∧ Proper d' ∧ create [d, d'] = some (some db) ∧ getTime db 0 (List.replicate 8 0) = none :=
  ⟨⟨some [0x74], some .date, 4, 1, false, 0, false⟩, ⟨some [0x54], some .int, 4, 1, false, 0, false⟩, _, by unfold Timed; decide, by decide, rfl, by decide +kernel⟩

/-! ### The index of a record -/

/-- A proper definition marked as the index of the table. -/
def Main (d : Def) : Prop := Proper d ∧ d.main = true

theorem addDef_main {db db' : Db} {off off' : Nat} {d : Def} (h : addDef db off d = some (db', off')) :
    (¬ Main d → db'.mindex = db.mindex) ∧ (Main d → db'.mindex = some db.heap.length) := by
  cases hg : good d
  · rw [addDef_bad hg] at h; cases h
    refine ⟨fun _ => rfl, fun ht => ?_⟩
    rw [good_proper.2 ht.1] at hg; cases hg
  · obtain ⟨k, st, h1, h2, -⟩ := good_iff.1 hg
    have hlt := (addDef_off h).2 hg
    have ho := (addDef_off h).1
    rw [addDef_good hg h1 h2 (by omega)] at h
    cases h
    unfold Main
    simp only [good_proper.1 hg, true_and]
    exact ⟨fun h => by rw [if_neg h], fun h => by rw [if_pos h]⟩

theorem addDefs_main_none {ds : List Def} : ∀ {db db' : Db} {off off' : Nat}, addDefs db off ds = some (db', off') → (∀ d ∈ ds, ¬ Main d) →
    db'.mindex = db.mindex := by
  induction ds with
  | nil => intro db db' off off' h _; cases h; rfl
  | cons d ds ih =>
    intro db db' off off' h hn
    simp only [addDefs, Option.bind_eq_some_iff] at h
    obtain ⟨⟨db1, off1⟩, h1, h2⟩ := h
    rw [ih h2 fun d hd => hn d (by simp [hd]), (addDef_main h1).1 (hn d (by simp))]

/-- C79: without a time field the index of a record is the last field marked so, when no later definition has its name. -/
theorem C79_index_partial {a b : List Def} {d : Def} {db : Db} (h : create (a ++ d :: b) = some (some db)) (hs : db.size ≤ 65536)
    {k : Bytes} (hk : d.name = some k) (ht : Main d) (hnt : ∀ d' ∈ a ++ d :: b, ¬ Timed d') (hb : ∀ d' ∈ b, ¬ Named k d' ∧ ¬ Main d')
    {buf : Bytes} {r : Nat} (hm : buf.length % db.size = 0) (hr : (r + 1) * db.size ≤ buf.length) (hl : buf.length < 2 ^ 32) :
    getMindex db r buf = some (valueAt db.size buf r (total a) d.len.toNat) := by
  obtain ⟨db₀, h1, h2, rfl⟩ := create_some h
  dsimp only at hs hm hr ⊢
  obtain ⟨db1, db2, off2, h3, h4, h5⟩ := addDefs_split h1
  have hw := (addDef_off h4).1
  have ho := addDefs_off h5
  have L1 := addDefs_lay (db := ⟨[], [], 0, none, none⟩) lay_nil h3 (by omega)
  have L2 := addDef_lay L1 h4 (by omega)
  have t0 : db₀.time = none := addDefs_time_none h1 hnt
  have t2 : db2.mindex = some db1.heap.length := (addDef_main h4).2 ht
  have t3 : db₀.mindex = some db1.heap.length := by rw [addDefs_main_none h5 (fun d' hd' => (hb d' hd').2), t2]
  have hg := good_proper.2 ht.1
  obtain ⟨i, e, e1, e2, e3, e4⟩ := addDef_new L1 h4 (by omega) hg hk
  have hlive := addDefs_keeps L2 h5 hs e1 (fun d' hd' => not_named_of e3 (hb d' hd').1) (by rw [e2]; exact e4)
  rw [e2] at hlive
  have hp := width_pos hg
  unfold getMindex
  dsimp only
  rw [t0, t3]
  simp only [Option.isSome_none, Bool.false_eq_true, if_false]
  have hr' : (r + 1) * widths (a ++ d :: b) % 2 ^ 32 = (r + 1) * widths (a ++ d :: b) := Nat.mod_eq_of_lt (by omega)
  have hr'' : r * widths (a ++ d :: b) % 2 ^ 32 = r * widths (a ++ d :: b) := Nat.mod_eq_of_lt (by rw [Nat.succ_mul] at hr; omega)
  rw [hr', hr'', if_neg (by omega)]
  have hu : unit ⟨db₀.heap, db₀.fields, widths (a ++ d :: b), none, some db1.heap.length⟩ db1.heap.length = some (mk d (0 + widths a)) := hlive
  rw [hu, Option.bind_some]
  have hwd : (mk d (0 + widths a)).len * (mk d (0 + widths a)).count = width d := by simp [mk, width, hg]
  have hoff : (mk d (0 + widths a)).offset = widths a := by simp only [mk]; omega
  have hc : 1 ≤ (mk d (0 + widths a)).count := by
    have := ht.1
    unfold Proper at this
    simp only [mk]; omega
  rw [read_at hr (by rw [hwd, hoff]; omega) hc, hoff, ← widths_total a]
  rfl

/-- C79: a table with a time field is indexed by it, whatever is marked. -/
theorem C79_index_time {ds : List Def} {db : Db} (h : create ds = some (some db)) {d : Def} (hd : d ∈ ds) (ht : Timed d) (r : Nat) (buf : Bytes) :
    getMindex db r buf = getTime db r buf := by
  obtain ⟨db₀, h1, h2, rfl⟩ := create_some h
  obtain ⟨a, b, rfl⟩ := List.append_of_mem hd
  obtain ⟨db1, db2, off2, h3, h4, h5⟩ := addDefs_split h1
  have : db2.time ≠ none := by
    cases hc : db1.time with
    | none => rw [(addDef_time h4).2.2 ht hc]; simp
    | some x => rw [(addDef_time h4).2.1 (by rw [hc]; simp), hc]; simp
  have t := addDefs_time_some h5 this
  unfold getMindex getTime
  dsimp only
  rw [t]
  cases hc : db2.time with
  | none => exact absurd hc this
  | some x => rfl

end Sis.Dyn
