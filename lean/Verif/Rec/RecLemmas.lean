import Verif.Rec.RecSpec
import Verif.Sdb.TabLemmas
import Verif.Dyn.DynTheorems
import Mathlib.Data.List.Forall2
/-
Lemmas on the texts of records: what the documents look like and what their texts are.
-/
namespace Sis.Rec
open Sis Sis.Num
open Sis.Json (Node Ty Ok OkElems OkMembers okNum okStr okKey)
open Sis.Dyn (Db Field St elem put puts slot num Made)
open Sis.Sdb (every numNode strNode)

/-! ### Numbers in decimal -/

theorem digRev_dec (ilen : Nat) : ∀ v, 2 ≤ ilen → v < 10 ^ (ilen - 1) → digRev ilen v = some (dec v).reverse := by
  induction ilen with
  | zero => intro v h; omega
  | succ n ih =>
    intro v h0 hv
    rw [digRev, if_neg (show ¬ n < 1 by omega), dec]
    by_cases h : v / 10 > 0
    · rw [if_pos h, if_neg (by omega)]
      have hn : 2 ≤ n := by
        rcases Nat.lt_or_ge n 2 with h1 | h1
        · have h1 : n = 1 := by omega
          subst h1
          simp at hv; omega
        · exact h1
      have hp : v / 10 < 10 ^ (n - 1) := by
        have e : n + 1 - 1 = (n - 1) + 1 := by omega
        rw [e, Nat.pow_succ] at hv
        exact Nat.div_lt_of_lt_mul (by omega)
      rw [ih _ hn hp]
      simp [Nat.add_comm]
    · have h10 : v < 10 := by omega
      rw [if_neg h, if_pos h10, Nat.mod_eq_of_lt h10]
      simp [Nat.add_comm]

theorem llutoa_dec {v : Nat} (h : v < 10 ^ 31) : llutoa v 32 = dec v := by
  rw [llutoa, digRev_dec 32 v (by omega) h]
  simp

theorem lldtoa_dec {v : Int} (h1 : -2 ^ 63 < v) (h2 : v < 2 ^ 64) : lldtoa v 32 = some (decInt v) := by
  unfold lldtoa decInt
  by_cases h : v < 0
  · rw [if_pos h, if_pos h, if_neg (by omega), digRev_dec 31 _ (by omega) (by omega)]
    simp
  · rw [if_neg h, if_neg h, llutoa_dec (by omega)]

theorem dec_facts (n : Nat) : dec n ≠ [] ∧ (∀ c ∈ dec n, isDigit c = true) ∧ digVal (dec n) = n := by
  induction n using Nat.strongRecOn with
  | _ n ih =>
    rw [dec]
    split
    · rename_i h
      obtain ⟨h1, h2⟩ := digit_facts n h
      rw [Nat.add_comm n] at h1 h2
      refine ⟨by simp, by simpa using h1, ?_⟩
      simp only [digVal, List.foldl_cons, List.foldl_nil, h2]
      omega
    · obtain ⟨i1, i2, i3⟩ := ih (n / 10) (by omega)
      obtain ⟨h1, h2⟩ := digit_facts (n % 10) (Nat.mod_lt _ (by omega))
      rw [Nat.add_comm (n % 10)] at h1 h2
      refine ⟨by simp, ?_, ?_⟩
      · intro c hc
        rcases List.mem_append.1 hc with hc | hc
        · exact i2 c hc
        · rw [List.mem_singleton.1 hc]; exact h1
      · rw [digVal_append, i3]
        simp only [List.foldl_cons, List.foldl_nil, h2]
        omega

theorem dec_inj {a b : Nat} (h : dec a = dec b) : a = b := by
  rw [← (dec_facts a).2.2, ← (dec_facts b).2.2, h]

/-- The number `atoll` reads of a number that was written. -/
def clamp (v : Int) : Int := max (-9223372036854775808) (min 9223372036854775807 v)

theorem atoll_dec (v : Int) : atoll (decInt v) = clamp v := by
  unfold decInt clamp
  split
  · rw [atoll_neg (dec_facts _).2.1, (dec_facts _).2.2]
    omega
  · rw [atoll_digits (dec_facts _).1 (dec_facts _).2.1, (dec_facts _).2.2]
    omega

theorem okNum_decInt (v : Int) : okNum false (decInt v) := by
  have hd : ∀ n, ∀ c ∈ dec n, (48 ≤ c ∧ c ≤ 57) := fun n c hc => by
    have := (dec_facts n).2.1 c hc
    simpa [isDigit] using this
  have hne : ∀ n, ¬ ∃ a d b, dec n = a ++ 46 :: d :: b ∧ 48 ≤ d ∧ d ≤ 57 := by
    rintro n ⟨a, d, b, h, -⟩
    have := hd n 46 (by rw [h]; simp)
    revert this; decide
  refine ⟨?_, ?_, ?_⟩
  · unfold decInt
    split
    · exact ⟨45, _, rfl, .inl rfl⟩
    · cases he : dec v.toNat with
      | nil => exact absurd he (dec_facts _).1
      | cons c t => exact ⟨c, t, rfl, .inr (hd v.toNat c (by rw [he]; simp))⟩
  · unfold decInt
    split
    · intro c hc
      rcases List.mem_cons.1 hc with rfl | hc
      · exact .inl rfl
      · exact .inr (.inr (.inl (hd _ c hc)))
    · intro c hc
      exact .inr (.inr (.inl (hd _ c hc)))
  · refine ⟨?_, by simp⟩
    rintro ⟨a, d, b, h, h1, h2⟩
    exfalso
    unfold decInt at h
    split at h
    · cases a with
      | nil => simp at h
      | cons x a =>
        have := (List.cons.inj h).2
        exact hne _ ⟨a, d, b, this, h1, h2⟩
    · exact hne _ ⟨a, d, b, h, h1, h2⟩

/-! ### The texts of documents in the short layout -/

theorem allSome_map (l : List Bytes) : Json.allSome (l.map some) = some l := by
  induction l with
  | nil => rfl
  | cons a l ih => simp [Json.allSome, ih]

theorem arrBody_commas (nest : Bool) (d : Nat) (es : List Bytes) : Json.arrBody false nest d es = commas es := by
  induction es with
  | nil => rfl
  | cons a l ih =>
    cases l with
    | nil => simp [Json.arrBody, Json.arrItem, commas]
    | cons b l =>
      rw [Json.arrBody, ih]
      · simp [Json.arrItem, commas]
      · nofun

theorem arrText_arr (nest : Bool) (d : Nat) (es : List Bytes) : Json.arrText false nest d es = arr es := by
  simp [Json.arrText, arrBody_commas, arr]

theorem toValues_map (d : Nat) {ns : List Node} {ts : List Bytes} (h : List.Forall₂ (fun n t => Json.toValue false d n = some t) ns ts) :
    Json.toValues false d ns = ts.map some := by
  induction h with
  | nil => rfl
  | cons h _ ih => simp [Json.toValues, h, ih]

/-- The text of an array. -/
theorem text_array {d : Nat} {k : Option Bytes} {v : Option Bytes} {ns : List Node} {ts : List Bytes}
    (h : List.Forall₂ (fun n t => Json.toValue false (d + 1) n = some t) ns ts) : Json.toValue false d (.mk .array k v ns) = some (arr ts) := by
  cases ns with
  | nil => cases h; simp [Json.toValue, arr, commas]
  | cons n ns =>
    rw [Json.toValue, toValues_map _ h, allSome_map]
    simp [arrText_arr]

theorem toStr_plain {s : Bytes} (h : PlainText s) : Json.toStr (some s) = 34 :: (s ++ [34]) := by
  rw [Json.toStr, Json.esc_key fun c hc => ⟨(h c hc).1, (h c hc).2.2, (h c hc).2.1⟩]

theorem objBody_commas (d : Nat) (es : List (Bytes × Bytes)) (h : ∀ e ∈ es, PlainText e.1) :
    Json.objBody false d (es.map fun e => (Json.toStr (some e.1), some e.2)) = commas (es.map memText) := by
  induction es with
  | nil => rfl
  | cons a l ih =>
    have ha := toStr_plain (h a (by simp))
    cases l with
    | nil => simp [Json.objBody, Json.objItem, commas, ha, memText]
    | cons b l =>
      rw [List.map_cons, Json.objBody, ih fun e he => h e (by simp [he])]
      · simp [Json.objItem, commas, ha, memText]
      · nofun

theorem toMembers_map (d : Nat) {ns : List Node} {ms : List (Bytes × Bytes)}
    (h : List.Forall₂ (fun n m => n.key = some m.1 ∧ Json.toValue false d n = some m.2) ns ms) :
    Json.toMembers false d ns = ms.map fun e => (Json.toStr (some e.1), some e.2) := by
  induction h with
  | nil => rfl
  | @cons n m ns ms h _ ih =>
    obtain ⟨ty, k, v, c⟩ := n
    obtain ⟨h1, h2⟩ := h
    simp only [Json.Node.key] at h1
    subst h1
    simp [Json.toMembers, h2, ih]

/-- The text of an object. -/
theorem text_object {d : Nat} {k : Option Bytes} {v : Option Bytes} {ns : List Node} {ms : List (Bytes × Bytes)}
    (h : List.Forall₂ (fun n m => n.key = some m.1 ∧ Json.toValue false (d + 1) n = some m.2) ns ms) (hp : ∀ m ∈ ms, PlainText m.1) :
    Json.toValue false d (.mk .object k v ns) = some (obj ms) := by
  cases ns with
  | nil => cases h; simp [Json.toValue, obj, commas]
  | cons n ns =>
    rw [Json.toValue, toMembers_map _ h]
    simp [Json.objText, objBody_commas _ _ hp, obj]

/-! ### The documents of records -/

/-- The document of a value, as it is made of a record. -/
def outNode (k : Nat) : Val → Node
  | .num v => .mk .int (some (llutoa k 32)) (some (decInt v)) []
  | .text s => .mk .string (some (llutoa k 32)) (some s) []
  | .raw t => .mk .double (some (llutoa k 32)) (some t) []

/-- The documents of values, numbered from `k` on. -/
def outNodes : Nat → List Val → List Node
  | _, [] => []
  | k, v :: vs => outNode k v :: outNodes (k + 1) vs

theorem outNodes_append (k : Nat) (a b : List Val) : outNodes k (a ++ b) = outNodes k a ++ outNodes (k + a.length) b := by
  induction a generalizing k with
  | nil => simp [outNodes]
  | cons v a ih => simp [outNodes, ih, Nat.add_assoc, Nat.add_comm 1]

theorem outNodes_length (k : Nat) (a : List Val) : (outNodes k a).length = a.length := by
  induction a generalizing k with
  | nil => rfl
  | cons v a ih => simp [outNodes, ih]

theorem outNodes_text (d k : Nat) (vs : List Val) (h : ∀ v ∈ vs, Plain v) :
    List.Forall₂ (fun n t => Json.toValue false d n = some t) (outNodes k vs) (vs.map item) := by
  induction vs generalizing k with
  | nil => exact .nil
  | cons v vs ih =>
    refine .cons ?_ (ih _ fun w hw => h w (by simp [hw]))
    have hv := h v (by simp)
    cases v with
    | num v => simp [outNode, Json.toValue, item]
    | text s => simp [outNode, Json.toValue, item, toStr_plain hv]
    | raw t => simp [outNode, Json.toValue, item]

theorem elem_slot {size : Nat} {buf : Bytes} {r : Nat} {f : Field} {e : Nat} (h : (r + 1) * size ≤ buf.length)
    (hf : f.offset + f.len * f.count ≤ size) (he : e < f.count) :
    elem buf (r * size + f.offset + e * f.len) f.len = some (slot size buf r f e) := by
  have : (e + 1) * f.len ≤ f.count * f.len := Nat.mul_le_mul_right _ (by omega)
  rw [Nat.succ_mul, Nat.mul_comm f.count] at this
  rw [Nat.succ_mul] at h
  rw [elem, if_pos (by omega)]
  rfl

theorem slot_length {size : Nat} {buf : Bytes} {r : Nat} {f : Field} {e : Nat} (h : (r + 1) * size ≤ buf.length)
    (hf : f.offset + f.len * f.count ≤ size) (he : e < f.count) : (slot size buf r f e).length = f.len := by
  have : (e + 1) * f.len ≤ f.count * f.len := Nat.mul_le_mul_right _ (by omega)
  rw [Nat.succ_mul, Nat.mul_comm f.count] at this
  rw [Nat.succ_mul] at h
  unfold slot
  rw [List.length_take, List.length_drop]
  omega

theorem intLen_counts {f : Field} (h : Counts f) : Dyn.intLen f.len = true := by
  rcases h.2 with h | h | h | h <;> simp [Dyn.intLen, h]

theorem signed_num {f : Field} {b : Bytes} (hs : f.style = .int) (hl : 1 ≤ f.len) : Dyn.signed f.len (leVal b) = num f b := by
  unfold Dyn.signed num
  have hp : 2 ^ (8 * f.len) = 2 * 2 ^ (8 * f.len - 1) := by
    rw [← Nat.pow_succ']; congr 1; omega
  by_cases h : leVal b < 2 ^ (8 * f.len - 1)
  · rw [if_pos h, if_neg (by intro h'; have := h'.2; omega)]
  · rw [if_neg h, if_pos ⟨hs, by omega⟩]

theorem cellNode_val {fl : Fl} {f : Field} {size : Nat} {buf : Bytes} {r e k : Nat} (h : (r + 1) * size ≤ buf.length)
    (hf : f.offset + f.len * f.count ≤ size) (he : e < f.count) (ht : Texted f) (hv : Plain (valOf fl f (slot size buf r f e))) :
    cellNode fl f buf (r * size) e k = some (outNode k (valOf fl f (slot size buf r f e))) := by
  have hel := elem_slot h hf he
  rcases ht with hc | hc | ⟨hc, hl⟩
  · have hi := intLen_counts hc
    have hlen : 1 ≤ f.len := by rcases hc.2 with h | h | h | h <;> omega
    have hval : valOf fl f (slot size buf r f e) = .num (num f (slot size buf r f e)) := by
      unfold valOf
      rw [if_neg, if_neg]
      · rcases hc.1 with h | h | h | h | h | h <;> simp [h]
      · rcases hc.1 with h | h | h | h | h | h <;> simp [h]
    rw [hval] at hv ⊢
    obtain ⟨hv1, hv2⟩ := hv
    have hu : f.style ≠ .int → num f (slot size buf r f e) = (leVal (slot size buf r f e) : Int) := by
      intro h1; unfold num; rw [if_neg (fun h2 => h1 h2.1)]
    have hn : f.style ≠ .int → (Dyn.getUint f buf (r * size) e).map (numNode k) = some (outNode k (.num (num f (slot size buf r f e)))) := by
      intro h1
      have h3 := hu h1
      rw [h3] at hv2
      rw [Dyn.getUint, if_pos hi, hel, h3]
      simp only [Option.map_some, numNode, outNode, decInt]
      rw [if_neg (by omega), llutoa_dec (v := leVal _) (by omega)]
      simp
    unfold cellNode
    rcases hc.1 with h1 | h1 | h1 | h1 | h1 | h1
    · simp only [h1, Dyn.getInt, hi, if_true, hel]
      rw [Option.map_some, signed_num h1 hlen]
      simp only [Option.bind_eq_bind, Option.bind_some]
      rw [lldtoa_dec hv1 hv2]
      rfl
    all_goals
      simp only [h1]
      exact hn (by rw [h1]; nofun)
  · have hval : valOf fl f (slot size buf r f e) = .text ((slot size buf r f e).takeWhile (· ≠ 0)) := by
      unfold valOf; simp [hc]
    rw [hval]
    simp only [cellNode, hc, hel, Option.map_some, strNode, outNode, Json.cstrOf]
    congr 4
    congr 1
    funext c
    simp [bne]
    rfl
  · have hval : valOf fl f (slot size buf r f e) = .raw (fl.toText f (slot size buf r f e)) := by
      unfold valOf; rw [if_pos hc]
    rw [hval]
    rcases hc with h1 | h1 <;> simp only [cellNode, h1, hel, Option.map_some, outNode]

theorem cellsFrom_val {fl : Fl} {f : Field} {size : Nat} {buf : Bytes} {r : Nat} (h : (r + 1) * size ≤ buf.length)
    (hf : f.offset + f.len * f.count ≤ size) (ht : Texted f) : ∀ (todo i k : Nat), i + todo ≤ f.count →
    (∀ e, i ≤ e → e < i + todo → Plain (valOf fl f (slot size buf r f e))) →
    cellsFrom fl f buf (r * size) todo i k = some (outNodes k ((List.range' i todo).map fun e => valOf fl f (slot size buf r f e))) := by
  intro todo
  induction todo with
  | zero => intro i k _ _; rfl
  | succ n ih =>
    intro i k hi hv
    rw [cellsFrom, cellNode_val h hf (by omega) ht (hv i (by omega) (by omega)),
      ih (i + 1) (k + 1) (by omega) (fun e h1 h2 => hv e (by omega) (by omega))]
    simp [List.range'_succ, outNodes]

theorem rowFrom_val {fl : Fl} {size : Nat} {buf : Bytes} {r : Nat} (h : (r + 1) * size ≤ buf.length) : ∀ (fs : List Field) (k : Nat),
    (∀ f ∈ fs, f.offset + f.len * f.count ≤ size ∧ Texted f) → (∀ v ∈ valsOf fl fs size buf r, Plain v) →
    rowFrom fl buf (r * size) fs k = some (outNodes k (valsOf fl fs size buf r)) := by
  intro fs
  induction fs with
  | nil => intro k _ _; rfl
  | cons f fs ih =>
    intro k hf hv
    obtain ⟨h1, h2⟩ := hf f (by simp)
    have hv1 : ∀ e, e < f.count → Plain (valOf fl f (slot size buf r f e)) := by
      intro e he
      apply hv
      simp only [valsOf, List.flatMap_cons, List.mem_append]
      exact .inl (List.mem_map.2 ⟨e, by simpa using he, rfl⟩)
    rw [rowFrom, cellsFrom_val h h1 h2 f.count 0 k (by omega) (fun e _ he => hv1 e (by omega))]
    simp only [Option.bind_eq_bind, Option.bind_some]
    rw [ih _ (fun g hg => hf g (by simp [hg])) (fun v hv' => hv v (by simp only [valsOf, List.flatMap_cons, List.mem_append]; exact .inr hv'))]
    simp only [Option.bind_some, valsOf, List.flatMap_cons, List.range_eq_range']
    rw [outNodes_append, outNodes_length]

/-- The document of a record. -/
def outRow (vs : List Val) : Node := .mk .array none none (outNodes 0 vs)

theorem rowsFrom_val {fl : Fl} {fs : List Field} {size : Nat} {buf : Bytes} (hf : ∀ f ∈ fs, f.offset + f.len * f.count ≤ size ∧ Texted f) :
    ∀ (todo r : Nat), (r + todo) * size ≤ buf.length → (∀ r', r ≤ r' → r' < r + todo → ∀ v ∈ valsOf fl fs size buf r', Plain v) →
    rowsFrom fl fs size buf todo r = some ((List.range' r todo).map fun r' => outRow (valsOf fl fs size buf r')) := by
  intro todo
  induction todo with
  | zero => intro r _ _; rfl
  | succ n ih =>
    intro r hb hv
    have hb1 : (r + 1) * size ≤ buf.length := Nat.le_trans (Nat.mul_le_mul_right _ (by omega)) hb
    rw [rowsFrom, rowFrom_val hb1 fs 0 hf (hv r (by omega) (by omega)),
      ih (r + 1) (by rw [show r + 1 + n = r + (n + 1) by omega]; exact hb) (fun r' h1 h2 => hv r' (by omega) (by omega))]
    simp [List.range'_succ, outRow]

theorem outRow_text (d : Nat) {vs : List Val} (h : ∀ v ∈ vs, Plain v) : Json.toValue false d (outRow vs) = some (rowText vs) :=
  text_array (outNodes_text _ _ _ h)

theorem outRows_text (d : Nat) {rows : List (List Val)} (h : ∀ vs ∈ rows, ∀ v ∈ vs, Plain v) :
    List.Forall₂ (fun n t => Json.toValue false d n = some t) (rows.map outRow) (rows.map rowText) := by
  induction rows with
  | nil => exact .nil
  | cons vs rows ih =>
    exact .cons (outRow_text d (h vs (by simp))) (ih fun w hw => h w (by simp [hw]))

/-! ### The fields of a table -/

theorem fieldsOf_are {db : Db} {fs : List Field} (hm : Made db) (h : FieldsAre db fs) : fieldsOf db = some fs ∧
    (∀ f ∈ fs, f.offset + f.len * f.count ≤ db.size ∧ 1 ≤ f.len ∧ 1 ≤ f.count ∧ f.fname.length ≤ 31) := by
  have L := Dyn.made_lay hm
  have e : (db.fields.map fun e => Dyn.unit db e.2) = fs.map some := by
    apply List.ext_getElem?
    intro i
    have hi := h i
    unfold Dyn.fieldAt at hi
    rw [List.getElem?_map, List.getElem?_map]
    cases hd : db.fields[i]? with
    | none => rw [hd] at hi; simp [hi]
    | some e =>
      obtain ⟨f, h1, -⟩ := L.live i e hd
      have h1 : Dyn.unit db e.2 = some f := h1
      rw [hd] at hi
      simp [hi, h1]
  refine ⟨by rw [fieldsOf, e, Sdb.every_some], ?_⟩
  intro f hf
  obtain ⟨i, hi⟩ := List.getElem?_of_mem hf
  rw [h i] at hi
  obtain ⟨e, he, hu⟩ := Dyn.fieldAt_some.1 hi
  obtain ⟨f', h1, h2, h3, h4, h5⟩ := L.live i e he
  have h1 : Dyn.unit db e.2 = some f' := h1
  rw [hu] at h1; cases h1
  refine ⟨h2, h3, h4, ?_⟩
  have : f.fname.map lower = (e.1.take 31).map lower := by simpa [Dyn.sameN] using h5
  have := congrArg List.length this
  simp at this
  omega

theorem recCount_eq {db : Db} {buf : Bytes} {n : Nat} (hs : 1 ≤ db.size) (hb : buf.length = n * db.size) (hn : n < 2 ^ 31) :
    recCount db buf = some n := by
  have : buf.length / db.size = n := by rw [hb, Nat.mul_div_cancel _ (by omega)]
  rw [recCount, this, if_neg (by omega)]

end Sis.Rec
