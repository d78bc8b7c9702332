import Verif.Dyn.DynTheorems
import Verif.Strs.JsonTheorems
import Verif.Sdb.TabSpec
/- Lemmas on the text of tables. -/
namespace Sis.Sdb
open Sis Sis.Num
open Sis.Json (Ty Ok OkElems OkMembers okStr okKey okNum)
open Sis.Dyn (Db Field St Def)

/-! ### Numbers and types -/

theorem digits_of (v : Nat) (hv : v < 2 ^ 63) : llutoa v 32 ≠ [] ∧ (∀ c ∈ llutoa v 32, isDigit c = true) ∧ atoll (llutoa v 32) = v := by
  obtain ⟨r, e1, e2, e3, e4, e5⟩ := digRev_some 32 v (by omega) (by
    have : (10 : Nat) ^ 31 = 10000000000000000000000000000000 := by decide
    rw [show (32 : Nat) - 1 = 31 from rfl, this]; omega)
  have hd : ∀ c ∈ r.reverse, isDigit c = true := fun c hc => e3 c (List.mem_reverse.1 hc)
  have he : llutoa v 32 = r.reverse := by rw [llutoa, e1]; rfl
  rw [he]
  refine ⟨by simpa using e2, hd, ?_⟩
  rw [atoll_digits (by simpa using e2) hd, e4]
  omega

theorem okNum_digits {v : Nat} (hv : v < 2 ^ 63) : okNum false (llutoa v 32) := by
  obtain ⟨h1, h2, -⟩ := digits_of v hv
  have hd : ∀ c, isDigit c = true → 48 ≤ c ∧ c ≤ 57 := by
    intro c hc
    simpa [isDigit] using hc
  refine ⟨?_, fun c hc => .inr (.inr (.inl (hd c (h2 c hc)))), ?_⟩
  · cases hl : llutoa v 32 with
    | nil => exact absurd hl h1
    | cons c t => exact ⟨c, t, rfl, .inr (hd c (h2 c (by rw [hl]; simp)))⟩
  · simp only [Bool.false_eq_true, iff_false]
    rintro ⟨a, d, b, he, -⟩
    have := h2 46 (by rw [he]; simp)
    exact absurd this (by decide)

theorem styleOf_ch (st : St) : styleOf (some [styleCh st]) = some st := by cases st <;> decide +kernel

theorem okStr_ch (st : St) : okStr [styleCh st] := by cases st <;> (unfold okStr; decide)

theorem okStr_flags (f : Field) : okStr (flagsOf f) := by
  unfold flagsOf okStr
  cases f.mindex <;> cases f.solely <;> decide

/-! ### The document of a field -/

theorem ok_elems (f : Field) (h : f.len < 2 ^ 63) (h' : f.count < 2 ^ 63) (h'' : f.dot < 2 ^ 63) : OkElems 0 (fieldElems f) := by
  unfold fieldElems
  have e0 := okStr_ch f.style
  have e1 := okNum_digits h
  have e2 := okNum_digits h'
  have e3 := okNum_digits h''
  have e4 := okStr_flags f
  have key : ∀ l, OkElems 0 ([strNode 0 [styleCh f.style], numNode 1 f.len] ++ l) ↔ OkElems 2 l := by
    intro l
    cases l <;> simp [strNode, numNode, OkElems, Ok, e0, e1]
  rw [key]
  split
  · simp [strNode, numNode, OkElems, Ok, e2, e3, e4]
  · split
    · simp [numNode, OkElems, Ok, e2, e3]
    · split
      · simp [numNode, OkElems, Ok, e2]
      · simp [OkElems]

theorem int32_id {n : Nat} (h : n < 2 ^ 31) : int32 n = n := by unfold int32; omega

theorem getStr_member (n : Json.Node) (k : Bytes) (hk : ∀ c ∈ k, c ≠ 46) : Json.getStr n k = (Json.member n.child k).bind Json.Node.value := by
  rw [Json.getStr, Json.find_plain hk]

theorem getInt_member (n : Json.Node) (k : Bytes) (d : Int) (hk : ∀ c ∈ k, c ≠ 46) :
    Json.getInt n k d = match (Json.member n.child k).bind Json.Node.value with | some v => atoll v | none => d := by
  rw [Json.getInt, Json.find_plain hk]
  cases (Json.member n.child k).bind Json.Node.value <;> rfl

theorem defOf_node {f : Field} (h : f.len < 2 ^ 31) (h1 : 1 ≤ f.count) (h' : f.count < 2 ^ 31) (h'' : f.dot < 2 ^ 31) :
    defOf (fieldNode f) = ⟨some f.fname, some f.style, f.len, f.count, f.mindex, f.dot, f.solely⟩ := by
  have k0 : llutoa 0 32 = [48] := by decide +kernel
  have k1 : llutoa 1 32 = [49] := by decide +kernel
  have k2 : llutoa 2 32 = [50] := by decide +kernel
  have k3 : llutoa 3 32 = [51] := by decide +kernel
  have k4 : llutoa 4 32 = [52] := by decide +kernel
  have n0 : "0".toUTF8.toList = [48] := by decide +kernel
  have n1 : "1".toUTF8.toList = [49] := by decide +kernel
  have n2 : "2".toUTF8.toList = [50] := by decide +kernel
  have n3 : "3".toUTF8.toList = [51] := by decide +kernel
  have n4 : "4".toUTF8.toList = [52] := by decide +kernel
  have d : ∀ c : UInt8, 48 ≤ c → c ≤ 52 → ∀ x ∈ [c], x ≠ 46 := by
    intro c hc _ x hx
    rw [List.mem_singleton.1 hx]
    rintro rfl
    exact absurd hc (by decide)
  have a1 := (digits_of f.len (by omega)).2.2
  have a2 := (digits_of f.count (by omega)).2.2
  have a3 := (digits_of f.dot (by omega)).2.2
  unfold defOf
  rw [n0, n1, n2, n3, n4]
  rw [getStr_member _ [48] (by decide), getStr_member _ [52] (by decide), getInt_member _ [49] _ (by decide),
    getInt_member _ [50] _ (by decide), getInt_member _ [51] _ (by decide)]
  have hch : (fieldNode f).child = fieldElems f := rfl
  have hkey : (fieldNode f).key = some f.fname := rfl
  rw [hch, hkey]
  unfold fieldElems
  simp only [strNode, numNode, k0, k1, k2, k3, k4]
  cases hm : f.mindex <;> cases hs : f.solely
  · have hf : flagsOf f = [] := by simp [flagsOf, hm, hs]
    rw [hf]
    simp only [ne_eq, not_true_eq_false, if_false]
    by_cases hd : f.dot > 0
    · rw [if_pos hd]
      simp [Json.member, Json.named, caseEq, styleOf_ch, a1, a2, a3, int32_id h, int32_id h', int32_id h'', flagged, Json.Node.key, Json.Node.value, lower]
    · rw [if_neg hd, if_pos (show f.count > 0 by omega)]
      have hd0 : f.dot = 0 := by omega
      simp [Json.member, Json.named, caseEq, styleOf_ch, a1, a2, hd0, flagged, Json.Node.key, Json.Node.value, lower, int32]
      omega
  all_goals
    have hf : flagsOf f ≠ [] := by simp [flagsOf, hm, hs]
    rw [if_pos hf]
    simp [Json.member, Json.named, caseEq, styleOf_ch, a1, a2, a3, int32_id h, int32_id h', int32_id h'', flagged, Json.Node.key, Json.Node.value, lower, flagsOf, hm, hs]

/-! ### Tables -/

/-- The fields of definitions that take the record from `off` on. -/
def fieldsFrom : Nat → List Def → List Field
  | _, [] => []
  | off, d :: ds => Dyn.mk d off :: fieldsFrom (off + Dyn.width d) ds

theorem good_of {d : Def} (h : FieldOk d) : Dyn.good d = true := Dyn.good_proper.2 h.proper

theorem dotOf_idem {st : St} {n : Int} (h : 0 ≤ n ∧ n ≤ 255) : Dyn.dotOf st (Dyn.dotOf st n) = Dyn.dotOf st n ∧ Dyn.dotOf st n < 256 := by
  unfold Dyn.dotOf
  by_cases hs : st = St.price
  · subst hs
    by_cases hn : n = 0
    · subst hn; decide
    · simp only [hn, true_and, if_false]
      constructor
      · split <;> omega
      · omega
  · simp only [hs, false_and, if_false]
    omega

theorem addDef_back {d : Def} (h : FieldOk d) (db : Db) (off : Nat) : Dyn.addDef db off (defOf (fieldNode (Dyn.mk d off))) = Dyn.addDef db off d := by
  obtain ⟨n, hn, hne, hlen, hpl⟩ := h.name
  obtain ⟨k, st, hk, hst, h1, h2, h3, h4⟩ := Dyn.good_iff.1 (good_of h)
  rw [hn] at hk
  cases hk
  have hdot := dotOf_idem (st := st) h.dot
  have hd := hdot.2
  rw [defOf_node]
  · have e1 : (d.len.toNat : Int) = d.len := Int.toNat_of_nonneg (by omega)
    have e2 : (d.count.toNat : Int) = d.count := Int.toNat_of_nonneg (by omega)
    unfold Dyn.addDef
    simp only [Dyn.mk, hn, hst, Option.getD_some, List.take_of_length_le hlen, hdot.1, e1, e2]
  · simp only [Dyn.mk]; omega
  · simp only [Dyn.mk]; omega
  · simp only [Dyn.mk]; omega
  · simp only [Dyn.mk, hst, Option.getD_some]; omega

theorem addDefs_back (ds : List Def) (h : ∀ d ∈ ds, FieldOk d) : ∀ (db : Db) (off : Nat),
    Dyn.addDefs db off ((fieldsFrom off ds).map fun f => defOf (fieldNode f)) = Dyn.addDefs db off ds := by
  induction ds with
  | nil => intro db off; rfl
  | cons d ds ih =>
    intro db off
    simp only [fieldsFrom, List.map_cons, Dyn.addDefs]
    rw [addDef_back (h d (by simp))]
    cases hr : Dyn.addDef db off d with
    | none => rfl
    | some r =>
      obtain ⟨db1, off1⟩ := r
      simp only [Option.bind_some]
      have := (Dyn.addDef_off hr).1
      subst this
      exact ih (fun e he => h e (by simp [he])) db1 _

theorem create_back (ds : List Def) (h : ∀ d ∈ ds, FieldOk d) : Dyn.create ((fieldsFrom 0 ds).map fun f => defOf (fieldNode f)) = Dyn.create ds := by
  unfold Dyn.create
  rw [addDefs_back ds h]

/-- What is left of tables with different names. -/
theorem addDefs_apart (ds : List Def) (h : ∀ d ∈ ds, FieldOk d) (hd : ds.Pairwise fun d e => d.name.map fold ≠ e.name.map fold) :
    ∀ (db db' : Db) (off off' : Nat), (∀ d ∈ ds, ∀ n, d.name = some n → Dyn.getN db.fields n = none) → Dyn.addDefs db off ds = some (db', off') →
      db'.heap = db.heap ++ (fieldsFrom off ds).map some ∧
      db'.fields = db.fields ++ (ds.zipIdx db.heap.length).map (fun e => (e.1.name.getD [], e.2)) ∧
      db'.time = db.time.or (((fieldsFrom off ds).findIdx? fun f => Dyn.isTime f.style).map (· + db.heap.length)) := by
  induction ds with
  | nil =>
    intro db db' off off' _ hr
    cases hr
    simp [fieldsFrom]
  | cons d ds ih =>
    intro db db' off off' hno hr
    simp only [Dyn.addDefs, Option.bind_eq_some_iff] at hr
    obtain ⟨⟨db1, off1⟩, h1, h2⟩ := hr
    have hok := h d (by simp)
    obtain ⟨n, hn, hne, hlen, hpl⟩ := hok.name
    obtain ⟨k, st, hk, hst, _⟩ := Dyn.good_iff.1 (good_of hok)
    rw [hn] at hk
    cases hk
    have ho := Dyn.addDef_off h1
    have hlt := ho.2 (good_of hok)
    rw [Dyn.addDef_good (good_of hok) hn hst (by omega)] at h1
    have hnone := hno d (by simp) n hn
    have hset : Dyn.setN db.fields n db.heap.length = (db.fields ++ [(n, db.heap.length)], none) := by
      rcases Dyn.setN_spec db.fields n db.heap.length with ⟨_, he⟩ | ⟨i, e, hi, hk, _, _⟩
      · exact he
      · have := Dyn.getN_none.1 hnone e (List.mem_of_getElem? hi)
        rw [this] at hk; cases hk
    rw [hset] at h1
    cases h1
    rw [List.pairwise_cons] at hd
    obtain ⟨i1, i2, i3⟩ := ih (fun e he => h e (by simp [he])) hd.2 _ db' _ off' (by
      intro e he m hm
      rw [Dyn.getN_none]
      intro x hx
      rcases List.mem_append.1 hx with hx | hx
      · exact Dyn.getN_none.1 (hno e (by simp [he]) m hm) x hx
      · rw [List.mem_singleton.1 hx]
        have := hd.1 e he
        rw [hn, hm] at this
        cases hs : Dyn.sameN m n
        · rfl
        · exact absurd (congrArg some (Dyn.sameN_iff.1 hs).symm) this) h2
    refine ⟨?_, ?_, ?_⟩
    · rw [i1]; simp [fieldsFrom]
    · rw [i2]; simp [hn, List.zipIdx_cons]
    · rw [i3]
      have hmk : (Dyn.mk d off).style = st := by simp [Dyn.mk, hst]
      simp only [fieldsFrom, List.findIdx?_cons, hmk, List.length_append, List.length_cons, List.length_nil]
      cases ht : db.time with
      | some a => simp
      | none =>
        cases hti : Dyn.isTime st
        · simp only [Option.isNone_none, Bool.false_eq_true, and_false, if_false, Option.none_or, Option.map_map]
          congr 1
          funext x
          simp only [Function.comp_apply]
          omega
        · simp

theorem every_some {α : Type} (l : List α) : every (l.map some) = some l := by
  induction l with
  | nil => rfl
  | cons a l ih => simp [every, ih]

theorem unit_range (pre : List (Option Field)) (fs : List Field) (db : Db) (h : db.heap = pre ++ fs.map some) :
    (List.range' pre.length fs.length).map (Dyn.unit db) = fs.map some := by
  induction fs generalizing pre with
  | nil => rfl
  | cons f fs ih =>
    rw [List.length_cons, List.range'_succ, List.map_cons, List.map_cons]
    have h2 := ih (pre ++ [some f]) (by rw [h]; simp)
    rw [List.length_append] at h2
    rw [show pre.length + 1 = pre.length + [some f].length from rfl, h2]
    congr 1
    rw [Dyn.unit, h]
    simp

theorem fieldsFrom_length (ds : List Def) : ∀ off, (fieldsFrom off ds).length = ds.length := by
  induction ds with
  | nil => intro _; rfl
  | cons d ds ih => intro off; simp [fieldsFrom, ih]

/-- A table made of fields with different names. -/
theorem made_shape {ds : List Def} {db : Db} (h : MadeOf ds db) :
    db.heap = (fieldsFrom 0 ds).map some ∧ (db.fields.map fun e => Dyn.unit db e.2) = (fieldsFrom 0 ds).map some ∧
      db.time = (fieldsFrom 0 ds).findIdx? (fun f => Dyn.isTime f.style) ∧ db.size = Dyn.widths ds ∧ 0 < db.size := by
  obtain ⟨h1, h2, h3⟩ := h
  obtain ⟨db₀, h4, h5, rfl⟩ := Dyn.create_some h3
  obtain ⟨i1, i2, i3⟩ := addDefs_apart ds h1 h2 _ _ _ _ (by intro d _ n _; rfl) h4
  have i1' : db₀.heap = [] ++ (fieldsFrom 0 ds).map some := i1
  refine ⟨i1, ?_, ?_, ?_, ?_⟩
  · have := unit_range [] (fieldsFrom 0 ds) db₀ i1'
    rw [← this, fieldsFrom_length]
    simp only [i2, List.nil_append, List.map_map]
    have e : List.range' ([] : List (Option Field)).length ds.length = (ds.zipIdx 0).map (·.2) := by
      simp [List.zipIdx_eq_zip_range', List.map_snd_zip]
    rw [e, List.map_map]
    rfl
  · rw [i3]; simp
  · rfl
  · exact h5

theorem okKey_name {d : Def} (h : FieldOk d) (off : Nat) : okKey (Dyn.mk d off).fname := by
  obtain ⟨n, hn, hne, hlen, hpl⟩ := h.name
  simp only [Dyn.mk, hn, Option.getD_some, List.take_of_length_le hlen]
  exact ⟨hne, fun c hc => ⟨(hpl c hc).1, (hpl c hc).2.2, (hpl c hc).2.1⟩⟩

theorem members_fields (ds : List Def) (h : ∀ d ∈ ds, FieldOk d) : ∀ off, OkMembers ((fieldsFrom off ds).map fieldNode) := by
  induction ds with
  | nil => intro _; trivial
  | cons d ds ih =>
    intro off
    have hok := h d (by simp)
    obtain ⟨k, st, hk, hst, h1, h2, h3, h4⟩ := Dyn.good_iff.1 (good_of hok)
    have hdot := (dotOf_idem (st := st) hok.dot).2
    simp only [fieldsFrom, List.map_cons, fieldNode, OkMembers, Ok]
    refine ⟨⟨_, rfl, okKey_name hok off⟩, ⟨trivial, ok_elems _ ?_ ?_ ?_⟩, ih (fun e he => h e (by simp [he])) _⟩
    · simp only [Dyn.mk]; omega
    · simp only [Dyn.mk]; omega
    · simp only [Dyn.mk, hst, Option.getD_some]; omega

/-- The document of a table. -/
def tabDoc (n : Bytes) (ds : List Def) : Json.Node :=
  .mk .object (some n) none [.mk .object (some "fields".toUTF8.toList) none ((fieldsFrom 0 ds).map fieldNode)]

theorem tabNode_made {t : Tab} {ds : List Def} (h : MadeOf ds t.db) : tabNode t = some (tabDoc t.name ds) := by
  rw [tabNode, (made_shape h).2.1, every_some]
  rfl

theorem dbOf_doc {n : Bytes} {ds : List Def} {db : Db} (h : MadeOf ds db) : dbOf (tabDoc n ds) = some (some db) := by
  have h1 : (Json.cmpChild (tabDoc n ds).child "fields".toUTF8.toList).bind ((tabDoc n ds).child[·]?)
      = some (.mk .object (some "fields".toUTF8.toList) none ((fieldsFrom 0 ds).map fieldNode)) := by
    have : caseEq "fields".toUTF8.toList "fields".toUTF8.toList = true := by decide +kernel
    unfold tabDoc
    generalize "fields".toUTF8.toList = F at *
    simp [Json.cmpChild, Json.Node.child, Json.Node.key, List.findIdx?_cons, this]
  unfold dbOf
  rw [h1]
  have h2 := create_back ds h.1
  rw [h.2.2] at h2
  rw [← h2]
  simp only [Json.Node.child, List.map_map]
  rfl

/-- The documents of tables, and the tables read of them. -/
theorem docs_of (ts : List Tab) (h : ∀ t ∈ ts, TabName t.name ∧ ∃ ds, MadeOf ds t.db) :
    ∃ ns, every (ts.map tabNode) = some ns ∧ OkMembers ns ∧ tabsOf ns = some ts := by
  induction ts with
  | nil => exact ⟨[], rfl, trivial, rfl⟩
  | cons t ts ih =>
    obtain ⟨ns, i1, i2, i3⟩ := ih fun x hx => h x (by simp [hx])
    obtain ⟨hn, ds, hm⟩ := h t (by simp)
    refine ⟨tabDoc t.name ds :: ns, ?_, ?_, ?_⟩
    · simp [every, tabNode_made hm, i1]
    · have hf := members_fields ds hm.1 0
      have hk : okKey "fields".toUTF8.toList := by unfold okKey; decide +kernel
      have hk' : okKey t.name := ⟨hn.ne, fun c hc => ⟨(hn.plain c hc).1, (hn.plain c hc).2.2, (hn.plain c hc).2.1⟩⟩
      simp only [tabDoc, OkMembers, Ok]
      exact ⟨⟨_, rfl, hk'⟩, ⟨trivial, ⟨_, rfl, hk⟩, ⟨trivial, hf⟩, trivial⟩, i2⟩
    · rw [tabsOf, dbOf_doc hm]
      simp [tabDoc, Json.Node.key, i3]

end Sis.Sdb
