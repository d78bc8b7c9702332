import Verif.Rec.RowLemmas
/-
Lemmas on queries with a list of names, and on records that are returned and stored again.
-/
namespace Sis.Rec
open Sis Sis.Num
open Sis.Json (Node Ty Ok OkElems OkMembers okNum okStr okKey)
open Sis.Dyn (Db Field St elem put puts slot num Made over covers)
open Sis.Sdb (every numNode strNode)

theorem suits_readable {fl : Fl} {f : Field} {v : Val} (h : Suits fl f v) : Readable v ∧ Texted f := by
  cases v with
  | num n => exact ⟨trivial, .inl h.1⟩
  | text s => exact ⟨h.2, .inr (.inl h.1)⟩
  | raw t => exact ⟨h.2.2.1, .inr (.inr ⟨h.1, h.2.1⟩)⟩

theorem kept_texted {fl : Fl} {f : Field} {b : Bytes} (h : Kept fl f b) : Texted f := by
  rcases h with h | h | h
  · exact .inl h.1
  · exact .inr (.inl h.1)
  · exact .inr (.inr ⟨h.1, h.2.1⟩)

theorem takeWhile_zeros {s : Bytes} (h : PlainText s) (k : Nat) : (s ++ List.replicate k 0).takeWhile (· ≠ 0) = s := by
  have hs := plain_cstr h
  induction s with
  | nil =>
    cases k with
    | zero => rfl
    | succ k => simp [List.replicate_succ]
  | cons c s ih =>
    have hc := hs c (by simp)
    rw [List.cons_append, List.takeWhile_cons, if_pos (by simpa using hc),
      ih (fun x hx => h x (by simp [hx])) (fun x hx => hs x (by simp [hx]))]

theorem valOf_counts {fl : Fl} {f : Field} {b : Bytes} (hc : Counts f) : valOf fl f b = .num (num f b) := by
  unfold valOf
  rw [if_neg, if_neg]
  · rcases hc.1 with h | h | h | h | h | h <;> simp [h]
  · rcases hc.1 with h | h | h | h | h | h <;> simp [h]

theorem kept_plain {fl : Fl} {f : Field} {b : Bytes} (h : Kept fl f b) : Plain (valOf fl f b) := by
  rcases h with ⟨hc, h1, h2⟩ | ⟨hc, s, k, h1, h2⟩ | ⟨hc, h1, h2, h3⟩
  · rw [valOf_counts hc]
    exact ⟨h1, by omega⟩
  · have : valOf fl f b = .text s := by
      unfold valOf
      rw [if_neg (by simp [hc]), if_pos hc, h2, takeWhile_zeros h1]
    rw [this]
    exact h1
  · have : valOf fl f b = .raw (fl.toText f b) := by unfold valOf; rw [if_pos hc]
    rw [this]
    exact h2

theorem plain_readable {v : Val} (h : Plain v) : Readable v := by
  cases v with
  | num _ => trivial
  | text _ => exact h
  | raw _ => exact h

theorem num_mod {f : Field} {b : Bytes} (hc : Counts f) (hl : b.length = f.len) : leBytes f.len (num f b % 2 ^ 64).toNat = b := by
  have hlt := leVal_lt b
  rw [hl] at hlt
  conv => rhs; rw [← leBytes_leVal b]
  rw [hl]
  have key : ((num f b % 2 ^ 64).toNat) % 256 ^ f.len = leVal b % 256 ^ f.len := by
    unfold num
    rcases hc.2 with e | e | e | e <;> simp only [e] at hlt ⊢ <;> split <;> omega
  have e1 : leVal (leBytes f.len (num f b % 2 ^ 64).toNat) = leVal (leBytes f.len (leVal b)) := by
    rw [leVal_leBytes, leVal_leBytes, key]
  have := congrArg (leBytes f.len) e1
  have h2 := leBytes_leVal (leBytes f.len (num f b % 2 ^ 64).toNat)
  have h3 := leBytes_leVal (leBytes f.len (leVal b))
  rw [leBytes_length] at h2 h3
  rw [← h2, this, h3]

theorem target_back {fl : Fl} {f : Field} {b : Bytes} (h : Kept fl f b) (hl : b.length = f.len) : target fl f (some (valOf fl f b)) = b := by
  rcases h with ⟨hc, h1, h2⟩ | ⟨hc, s, k, h1, h2⟩ | ⟨hc, h1, h2, h3⟩
  · rw [valOf_counts hc]
    have : target fl f (some (.num (num f b))) = leBytes f.len (clamp (num f b) % 2 ^ 64).toNat := by
      unfold target
      rcases hc.1 with h | h | h | h | h | h <;> simp only [h, content, atoll_dec]
    rw [this, show clamp (num f b) = num f b by unfold clamp; omega]
    exact num_mod hc hl
  · have : valOf fl f b = .text s := by
      unfold valOf
      rw [if_neg (by simp [hc]), if_pos hc, h2, takeWhile_zeros h1]
    rw [this]
    have ht : target fl f (some (.text s)) = s.take f.len ++ List.replicate (f.len - s.length) 0 := by
      unfold target; simp only [hc, content]
    have hk : s.length + k = f.len := by rw [← hl, h2]; simp
    rw [ht, List.take_of_length_le (by omega), h2, show f.len - s.length = k by omega]
  · have : valOf fl f b = .raw (fl.toText f b) := by unfold valOf; rw [if_pos hc]
    rw [this]
    have ht : target fl f (some (.raw (fl.toText f b))) = leBytes f.len (fl.ofText f (fl.toText f b)) := by
      unfold target; rcases hc with h | h <;> simp only [h, content]
    rw [ht, h3, ← hl, leBytes_leVal]

theorem valsOf_one {fl : Fl} {fs : List Field} (h : ∀ f ∈ fs, f.count = 1) (size : Nat) (buf : Bytes) (r : Nat) :
    valsOf fl fs size buf r = fs.map fun f => valOf fl f (slot size buf r f 0) := by
  induction fs with
  | nil => rfl
  | cons f fs ih =>
    have := ih fun g hg => h g (by simp [hg])
    unfold valsOf at *
    rw [List.flatMap_cons, this, h f (by simp)]
    rfl

/-! ### The texts of whole answers -/

theorem toArray_eq {fl : Fl} {db : Db} {fs : List Field} (hm : Made db) (hfs : FieldsAre db fs) (hne : fs ≠ []) (ht : ∀ f ∈ fs, Texted f) {buf : Bytes} {n : Nat}
    (hb : buf.length = n * db.size) (h1 : 1 ≤ n) (h2 : n < 2 ^ 31) (hv : ∀ r, r < n → ∀ v ∈ valsOf fl fs db.size buf r, Plain v)
    (key : Option Bytes) (hk : ∀ k, key = some k → PlainText k) :
    toArray fl db key buf = some (some (answer key
      (if n = 1 then rowText (valsOf fl fs db.size buf 0) else rowsText ((List.range n).map (valsOf fl fs db.size buf))))) := by
  obtain ⟨hof, hin⟩ := fieldsOf_are hm hfs
  have hrows := rowsFrom_val (fl := fl) (fs := fs) (size := db.size) (buf := buf) (fun f hf => ⟨(hin f hf).1, ht f hf⟩) n 0
    (by rw [Nat.zero_add]; omega) (fun r _ hr => hv r (by omega))
  have hfl : ¬ (n < 1 ∨ fs.length < 1) := by
    have : fs.length ≠ 0 := by simpa using hne
    omega
  have hplain : ∀ vs ∈ (List.range n).map (valsOf fl fs db.size buf), ∀ v ∈ vs, Plain v := by
    intro vs hvs
    obtain ⟨r, hr, rfl⟩ := List.mem_map.1 hvs
    exact hv r (by simpa using hr)
  have hmap : ((List.range' 0 n).map fun r' => outRow (valsOf fl fs db.size buf r')) = ((List.range n).map (valsOf fl fs db.size buf)).map outRow := by
    rw [List.map_map, List.range_eq_range']
    rfl
  rw [hmap] at hrows
  rw [toArray, recCount_eq (made_size hm).1 hb h2, hof]
  simp only [Option.bind_eq_bind, Option.bind_some, if_neg hfl, hrows]
  have hbody : ∀ d k, Json.toValue false d (.mk .array k none (allRows (((List.range n).map (valsOf fl fs db.size buf)).map outRow)).child) =
      some (if n = 1 then rowText (valsOf fl fs db.size buf 0) else rowsText ((List.range n).map (valsOf fl fs db.size buf))) := by
    intro d k
    by_cases hn : n = 1
    · subst hn
      rw [if_pos rfl]
      exact text_array (outNodes_text _ 0 _ (hv 0 (by omega)))
    · rw [if_neg hn]
      unfold allRows
      split
      · rename_i row heq
        have := congrArg List.length heq
        simp at this
        omega
      · exact text_array (outRows_text _ hplain)
  cases key with
  | none =>
    have := hbody 0 none
    have e : Json.outputZip (allRows (((List.range n).map (valsOf fl fs db.size buf)).map outRow)) = some (if n = 1 then rowText (valsOf fl fs db.size buf 0) else rowsText ((List.range n).map (valsOf fl fs db.size buf))) := by
      rw [← this, Json.outputZip]
      unfold allRows
      split <;> rfl
    exact congrArg some e
  | some k =>
    have e := text_object (d := 0) (k := none) (v := none) (ns := [.mk .array (some k) none (allRows (((List.range n).map (valsOf fl fs db.size buf)).map outRow)).child])
      (ms := [(k, if n = 1 then rowText (valsOf fl fs db.size buf 0) else rowsText ((List.range n).map (valsOf fl fs db.size buf)))])
      (.cons ⟨rfl, hbody _ _⟩ .nil) (by simpa using hk k rfl)
    exact congrArg some e

/-! ### Lists of names -/

theorem unit_live {db : Db} (hm : Made db) {n : Bytes} {a : Nat} (h : Dyn.getN db.fields n = some a) : ∃ f, Dyn.unit db a = some f ∧
    f.offset + f.len * f.count ≤ db.size ∧ 1 ≤ f.len ∧ 1 ≤ f.count := by
  unfold Dyn.getN at h
  obtain ⟨e, he, rfl⟩ := Option.map_eq_some_iff.1 h
  obtain ⟨i, hi⟩ := List.getElem?_of_mem (List.mem_of_find?_eq_some he)
  obtain ⟨f, h1, h2, h3, h4, -⟩ := (Dyn.made_lay hm).live i e hi
  exact ⟨f, h1, h2, h3, h4⟩

theorem field_live {db : Db} (hm : Made db) {n : Bytes} {f : Field} (h : Dyn.field db n = some f) :
    f.offset + f.len * f.count ≤ db.size ∧ 1 ≤ f.len ∧ 1 ≤ f.count := by
  unfold Dyn.field at h
  obtain ⟨a, ha, hu⟩ := Option.bind_eq_some_iff.1 h
  obtain ⟨g, h1, h2⟩ := unit_live hm ha
  rw [hu] at h1; cases h1
  exact h2

theorem field_none {db : Db} (hm : Made db) {n : Bytes} : Dyn.field db n = none ↔ Dyn.getN db.fields n = none := by
  unfold Dyn.field
  constructor
  · intro h
    cases ha : Dyn.getN db.fields n with
    | none => rfl
    | some a =>
      obtain ⟨f, h1, -⟩ := unit_live hm ha
      rw [ha] at h
      rw [Option.bind_some, h1] at h
      cases h
  · intro h; rw [h]; rfl

theorem pick_eq {db : Db} (hm : Made db) (names : List Bytes) : pick db names = some (names.map (Dyn.field db)) := by
  unfold pick
  rw [← Sdb.every_some, List.map_map]
  congr 1
  apply List.map_congr_left
  intro n _
  simp only [Function.comp_apply, Dyn.field]
  cases ha : Dyn.getN db.fields n with
  | none => rfl
  | some a =>
    obtain ⟨f, h1, -⟩ := unit_live hm ha
    simp [h1]

theorem present_eq {db : Db} (names : List Bytes) : present (names.map (Dyn.field db)) = names.filterMap (Dyn.field db) := by
  unfold present
  rw [List.filterMap_map]
  rfl

/-- The rows of the fields of a query. -/
theorem rows_named {fl : Fl} {db : Db} (hm : Made db) {names : List Bytes} (ht : ∀ f ∈ names.filterMap (Dyn.field db), Texted f) {buf : Bytes} {n : Nat}
    (hb : buf.length = n * db.size) (hv : ∀ r, r < n → ∀ v ∈ valsOf fl (names.filterMap (Dyn.field db)) db.size buf r, Plain v) :
    ∃ ns, rowsFrom fl (names.filterMap (Dyn.field db)) db.size buf n 0 = some ns ∧
      ∀ d, List.Forall₂ (fun n t => Json.toValue false d n = some t) ns
        (((List.range n).map (valsOf fl (names.filterMap (Dyn.field db)) db.size buf)).map rowText) := by
  refine ⟨_, rowsFrom_val (fun f hf => ⟨?_, ht f hf⟩) n 0 (by rw [Nat.zero_add]; omega) (fun r _ hr => hv r (by omega)), ?_⟩
  · obtain ⟨m, -, hm'⟩ := List.mem_filterMap.1 hf
    exact (field_live hm hm').1
  · intro d
    have := outRows_text d (rows := (List.range n).map (valsOf fl (names.filterMap (Dyn.field db)) db.size buf)) (by
      intro vs hvs
      obtain ⟨r, hr, rfl⟩ := List.mem_map.1 hvs
      exact hv r (by simpa using hr))
    rw [List.map_map] at this
    rw [← List.range_eq_range']
    exact this

theorem headFrom_none {fs : List (Option Field)} (h : none ∈ fs) : ∀ i, headFrom i fs = none := by
  induction fs with
  | nil => cases h
  | cons f fs ih =>
    intro i
    rw [headFrom]
    cases f with
    | none => rfl
    | some f =>
      have : none ∈ fs := by simpa using h
      rw [ih this]
      cases headMembers i (some f) <;> rfl

/-- The members of the head when every field has one element. -/
theorem headFrom_one {fs : List Field} (h : ∀ f ∈ fs, f.count = 1) : ∀ i, headFrom i (fs.map some) =
    some ((fs.zipIdx i).map fun p => .mk .int (some p.1.fname) (some (llutoa p.2 32)) []) := by
  induction fs with
  | nil => intro i; rfl
  | cons f fs ih =>
    intro i
    rw [List.map_cons, headFrom, ih (fun g hg => h g (by simp [hg]))]
    have hc := h f (by simp)
    simp [headMembers, hc, List.zipIdx_cons]

/-! ### Selected bytes -/

theorem means_get {db : Db} (hm : Made db) {n : Bytes} {p : Option (Field × Nat)} (h : Means db n p) :
    getField db n = some (p.map fun q => (q.1, (q.2 : Int))) := by
  have hcut : ∀ {a : Bytes}, (∀ c ∈ a, c ≠ 46) → ∀ b, (a ++ b).takeWhile (· != 46) = a ++ b.takeWhile (· != 46) ∧
      (a ++ b).dropWhile (· != 46) = b.dropWhile (· != 46) := by
    intro a ha b
    induction a with
    | nil => exact ⟨rfl, rfl⟩
    | cons c a ih =>
      have hc := ha c (by simp)
      obtain ⟨i1, i2⟩ := ih fun x hx => ha x (by simp [hx])
      rw [List.cons_append, List.takeWhile_cons, List.dropWhile_cons, if_pos (by simpa using hc), if_pos (by simpa using hc), i1, i2]
      exact ⟨rfl, rfl⟩
  unfold getField
  cases h with
  | @field n f hf =>
    unfold Dyn.field at hf
    obtain ⟨a, ha, hu⟩ := Option.bind_eq_some_iff.1 hf
    rw [ha]
    simp [hu]
  | @part n f i hno hf hi hdot hlen =>
    rw [(field_none hm).1 hno]
    obtain ⟨c1, c2⟩ := hcut hdot (46 :: dec i)
    have hi16 : i < 65536 := by
      obtain ⟨g1, g2, g3⟩ := field_live hm hf
      have := (made_size hm).2
      have : 1 * f.count ≤ f.len * f.count := Nat.mul_le_mul_right _ g2
      omega
    have hd : (dec i).length ≤ 31 := dec_length (by omega)
    have e1 : (46 :: dec i).takeWhile (· != 46) = [] := by simp
    have e2 : (46 :: dec i).dropWhile (· != 46) = 46 :: dec i := by simp
    dsimp only
    rw [c1, c2, e1, e2, List.append_nil]
    rw [if_neg (by simp only [List.drop_succ_cons, List.drop_zero]; omega)]
    unfold Dyn.field at hf
    obtain ⟨a, ha, hu⟩ := Option.bind_eq_some_iff.1 hf
    dsimp only
    rw [ha]
    have hat : atoll (dec i) = i := by
      rw [atoll_digits (dec_facts i).1 (dec_facts i).2.1, (dec_facts i).2.2]
      omega
    simp only [hu, hat, Option.map_some]
    have : Sdb.int32 (i : Int) = i := by unfold Sdb.int32; omega
    rw [this]
  | unknown hno hdot hlen =>
    rw [(field_none hm).1 hno]
    obtain ⟨c1, c2⟩ := hcut hdot []
    rw [List.append_nil] at c1 c2
    dsimp only
    rw [c1, c2]
    simp only [List.takeWhile_nil, List.append_nil, List.dropWhile_nil, List.drop_nil, List.length_nil]
    rw [if_neg (by omega)]
    rfl

theorem means_in {db : Db} (hm : Made db) {n : Bytes} {f : Field} {i : Nat} (h : Means db n (some (f, i))) :
    f.offset + f.len * f.count ≤ db.size ∧ i < f.count := by
  cases h with
  | field hf =>
    have := field_live hm hf
    exact ⟨this.1, by omega⟩
  | part _ hf hi _ _ => exact ⟨(field_live hm hf).1, hi⟩

theorem selectRow_eq {size : Nat} {buf : Bytes} {r : Nat} (hs : size ≤ 65536) (h : (r + 1) * size ≤ buf.length) : ∀ (ps : List (Option (Field × Nat))),
    (∀ p ∈ ps, ∀ f i, p = some (f, i) → f.offset + f.len * f.count ≤ size ∧ i < f.count) →
    selectRow buf (r * size) (ps.map fun p => p.map fun q => (q.1, (q.2 : Int))) =
      some ((ps.filterMap id).flatMap fun q => slot size buf r q.1 q.2) := by
  intro ps
  induction ps with
  | nil => intro _; rfl
  | cons p ps ih =>
    intro hp
    have i1 := ih fun q hq => hp q (by simp [hq])
    cases p with
    | none => simpa [selectRow] using i1
    | some q =>
      obtain ⟨f, i⟩ := q
      obtain ⟨h1, h2⟩ := hp _ (by simp) f i rfl
      have hci := cell_in h2
      have hpb : pickBytes buf (r * size) f i = some (slot size buf r f i) := by
        unfold pickBytes
        have e : ((r * size : Nat) : Int) + f.offset + (i : Int) * f.len = ((r * size + f.offset + i * f.len : Nat) : Int) := by
          push_cast; rfl
        dsimp only
        have e2 : (i : Int) * f.len = ((i * f.len : Nat) : Int) := by push_cast; rfl
        rw [e, e2, if_neg (by omega)]
        simp only [Int.toNat_natCast]
        exact elem_slot h h1 h2
      simp only [List.map_cons, Option.map_some, selectRow, hpb, Option.bind_eq_bind, Option.bind_some]
      rw [i1]
      simp

theorem selectRows_eq {size : Nat} {buf : Bytes} (hs : size ≤ 65536) {ps : List (Option (Field × Nat))}
    (hp : ∀ p ∈ ps, ∀ f i, p = some (f, i) → f.offset + f.len * f.count ≤ size ∧ i < f.count) : ∀ (todo r : Nat), (r + todo) * size ≤ buf.length →
    selectRows (ps.map fun p => p.map fun q => (q.1, (q.2 : Int))) size buf todo r =
      some ((List.range' r todo).flatMap fun r' => (ps.filterMap id).flatMap fun q => slot size buf r' q.1 q.2) := by
  intro todo
  induction todo with
  | zero => intro r _; rfl
  | succ n ih =>
    intro r hb
    have hb1 : (r + 1) * size ≤ buf.length := Nat.le_trans (Nat.mul_le_mul_right _ (by omega)) hb
    rw [selectRows, selectRow_eq hs hb1 ps hp, ih (r + 1) (by rw [show r + 1 + n = r + (n + 1) by omega]; exact hb)]
    simp [List.range'_succ]

end Sis.Rec
