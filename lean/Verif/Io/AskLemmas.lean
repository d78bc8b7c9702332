import Verif.Io.TableLemmas
import Verif.Fmap.UpdateTheorems
/-
Lemmas on queries: what is read of their texts.
-/
namespace Sis.Io
open Sis Sis.Num
open Sis.Json (Node Ok OkElems OkMembers)
open Sis.Rec (Val inNode inMembers item obj PlainText look content)
open Sis.Fmap (Query)

theorem child_member (n : Node) (k : String) : child n k = Json.member n.child k.toUTF8.toList := Json.member_cmp _ _

/-- The document of a condition. -/
def Cond.nodes : Cond → List Node
  | .latest => []
  | .range a b false => [.mk .object (some "range".toUTF8.toList) none (inMembers [("start".toUTF8.toList, .num a), ("stop".toUTF8.toList, .num b)])]
  | .range a b true => [.mk .object (some "range".toUTF8.toList) none
      (inMembers [("start".toUTF8.toList, .num a), ("stop".toUTF8.toList, .num b), ("ifprev".toUTF8.toList, .num 1)])]
  | .at t => [.mk .object (some "where".toUTF8.toList) none (inMembers [("start".toUTF8.toList, .num t)])]
  | .back t k => [.mk .object (some "where".toUTF8.toList) none (inMembers [("start".toUTF8.toList, .num t), ("offset".toUTF8.toList, .num (-k))])]

/-- The document of a query. -/
def askNode (q : Cond) (more : List (Bytes × Val)) : Node := .mk .object none none (q.nodes ++ inMembers more)

theorem okMembers_in {ms : List (Bytes × Val)} (h : ∀ m ∈ ms, m.1 ≠ [] ∧ PlainText m.1 ∧ Rec.Readable m.2) : OkMembers (inMembers ms) := by
  induction ms with
  | nil => trivial
  | cons m ms ih =>
    obtain ⟨h1, h2, h3⟩ := h m (by simp)
    exact Rec.okMembers_cons (Rec.inNode_key _ _) (okKey_plain h1 h2) (Rec.inNode_ok _ _ h3).1 (ih fun m hm => h m (by simp [hm]))

theorem text_in (d : Nat) {ms : List (Bytes × Val)} (h : ∀ m ∈ ms, m.1 ≠ [] ∧ PlainText m.1 ∧ Rec.Readable m.2) :
    List.Forall₂ (fun (n : Node) (m : Bytes × Bytes) => n.key = some m.1 ∧ Json.toValue false d n = some m.2) (inMembers ms)
      (ms.map fun m => (m.1, item m.2)) := by
  induction ms with
  | nil => exact .nil
  | cons m ms ih => exact .cons ⟨Rec.inNode_key _ _, Rec.inNode_text _ _ (h m (by simp)).2.2⟩ (ih fun m hm => h m (by simp [hm]))

theorem words : (PlainText "range".toUTF8.toList ∧ "range".toUTF8.toList ≠ []) ∧ (PlainText "where".toUTF8.toList ∧ "where".toUTF8.toList ≠ []) ∧
    (PlainText "start".toUTF8.toList ∧ "start".toUTF8.toList ≠ []) ∧ (PlainText "stop".toUTF8.toList ∧ "stop".toUTF8.toList ≠ []) ∧
    (PlainText "ifprev".toUTF8.toList ∧ "ifprev".toUTF8.toList ≠ []) ∧ (PlainText "offset".toUTF8.toList ∧ "offset".toUTF8.toList ≠ []) := by
  unfold PlainText
  decide +kernel

/-- The conditions are objects of numbers under a word. -/
theorem cond_shape (q : Cond) : q.nodes = [] ∧ q.members = [] ∨ ∃ w ms, q.nodes = [.mk .object (some w) none (inMembers ms)] ∧
    q.members = [(w, Rec.objText ms)] ∧ PlainText w ∧ w ≠ [] ∧ ∀ m ∈ ms, m.1 ≠ [] ∧ PlainText m.1 ∧ Rec.Readable m.2 := by
  obtain ⟨⟨r1, r2⟩, ⟨w1, w2⟩, ⟨s1, s2⟩, ⟨p1, p2⟩, ⟨i1, i2⟩, ⟨o1, o2⟩⟩ := words
  cases q with
  | latest => exact .inl ⟨rfl, rfl⟩
  | range a b p =>
    cases p
    · refine .inr ⟨_, _, rfl, rfl, r1, r2, ?_⟩
      intro m hm
      simp only [List.mem_cons, List.not_mem_nil, or_false] at hm
      rcases hm with rfl | rfl
      · exact ⟨s2, s1, trivial⟩
      · exact ⟨p2, p1, trivial⟩
    · refine .inr ⟨_, _, rfl, rfl, r1, r2, ?_⟩
      intro m hm
      simp only [List.mem_cons, List.not_mem_nil, or_false] at hm
      rcases hm with rfl | rfl | rfl
      · exact ⟨s2, s1, trivial⟩
      · exact ⟨p2, p1, trivial⟩
      · exact ⟨i2, i1, trivial⟩
  | «at» t =>
    refine .inr ⟨_, _, rfl, rfl, w1, w2, ?_⟩
    intro m hm
    simp only [List.mem_cons, List.not_mem_nil, or_false] at hm
    rcases hm with rfl
    exact ⟨s2, s1, trivial⟩
  | back t k =>
    refine .inr ⟨_, _, rfl, rfl, w1, w2, ?_⟩
    intro m hm
    simp only [List.mem_cons, List.not_mem_nil, or_false] at hm
    rcases hm with rfl | rfl
    · exact ⟨s2, s1, trivial⟩
    · exact ⟨o2, o1, trivial⟩

theorem load_ask (q : Cond) {more : List (Bytes × Val)} (h : ∀ m ∈ more, m.1 ≠ [] ∧ PlainText m.1 ∧ Rec.Readable m.2) :
    Json.load (askText q more) = some (some (askNode q more)) := by
  unfold askText askNode
  rcases cond_shape q with ⟨h1, h2⟩ | ⟨w, ms, h1, h2, h3, h4, h5⟩
  · rw [h1, h2]
    refine load_obj (okMembers_in h) (text_in _ h) ?_
    intro m hm
    obtain ⟨m', hm', rfl⟩ := List.mem_map.1 hm
    exact (h m' hm').2.1
  · rw [h1, h2]
    refine load_obj ?_ (.cons ⟨rfl, ?_⟩ (text_in _ h)) ?_
    · exact Rec.okMembers_cons rfl (okKey_plain h4 h3) ⟨rfl, okMembers_in h5⟩ (okMembers_in h)
    · refine Rec.text_object (text_in _ h5) ?_
      intro m hm
      obtain ⟨m', hm', rfl⟩ := List.mem_map.1 hm
      exact (h5 m' hm').2.1
    · intro m hm
      rcases List.mem_cons.1 hm with rfl | hm
      · exact h3
      · obtain ⟨m', hm', rfl⟩ := List.mem_map.1 hm
        exact (h m' hm').2.1

/-- The condition as the code keeps it. -/
def Cond.query : Cond → Query
  | .latest => .range (-1) 0 false
  | .range a b p => .range a b p
  | .at t => .whereTs t 0
  | .back t k => .whereTs t (-k)

/-- No word of a condition is among the members. -/
def NoWords (more : List (Bytes × Val)) : Prop :=
  ∀ m ∈ more, m.1.map lower ≠ "range".toUTF8.toList ∧ m.1.map lower ≠ "where".toUTF8.toList

theorem member_none {more : List (Bytes × Val)} (h : ∀ m ∈ more, CStr m.1) {k : Bytes} (hk : CStr k) (hn : ∀ m ∈ more, m.1.map lower ≠ k.map lower) :
    Json.member (inMembers more) k = none := by
  have h1 := Rec.member_look h hk
  have h2 : look more k = none := by
    unfold look
    rw [Option.map_eq_none_iff, List.find?_eq_none]
    intro m hm
    simpa using hn m hm
  rw [h2] at h1
  cases hm : Json.member (inMembers more) k with
  | none => rfl
  | some n => rw [hm] at h1; cases h1

theorem member_append (a b : List Node) (k : Bytes) : Json.member (a ++ b) k = (Json.member a k).or (Json.member b k) := by
  unfold Json.member
  rw [List.find?_append]

theorem word_bytes : "range".toUTF8.toList = [114, 97, 110, 103, 101] ∧ "where".toUTF8.toList = [119, 104, 101, 114, 101] ∧
    "start".toUTF8.toList = [115, 116, 97, 114, 116] ∧ "stop".toUTF8.toList = [115, 116, 111, 112] ∧
    "ifprev".toUTF8.toList = [105, 102, 112, 114, 101, 118] ∧ "offset".toUTF8.toList = [111, 102, 102, 115, 101, 116] ∧
    "format".toUTF8.toList = [102, 111, 114, 109, 97, 116] ∧ "fields".toUTF8.toList = [102, 105, 101, 108, 100, 115] := by decide +kernel

theorem atoll_int {v : Int} (h1 : -2 ^ 63 ≤ v) (h2 : v < 2 ^ 63) : atoll (Rec.decInt v) = v := by
  rw [Rec.atoll_dec]; unfold Rec.clamp; omega

theorem intOf_member (n : Node) (k : String) (hk : ∀ c ∈ k.toUTF8.toList, c ≠ 46) (d : Int) :
    intOf n k d = match (Json.member n.child k.toUTF8.toList).bind Node.value with | some v => atoll v | none => d :=
  Sdb.getInt_member n _ d hk

theorem nat64 {t : Nat} (h : t < 2 ^ 64) : Int.toNat ((t : Int) % 2 ^ 64) = t := by omega

theorem int32_neg {k : Nat} (h : k < 2 ^ 31) : Sdb.int32 (-(k : Int)) = -k := by
  unfold Sdb.int32; omega

theorem get_start (v : Int) (a : List (Bytes × Val)) (k w : Option Bytes) (ty : Json.Ty) :
    child (.mk ty k w (inMembers (("start".toUTF8.toList, .num v) :: a))) "start" = some (inNode "start".toUTF8.toList (.num v)) ∧
    intOf (.mk ty k w (inMembers (("start".toUTF8.toList, .num v) :: a))) "start" 0 = atoll (Rec.decInt v) := by
  obtain ⟨-, -, w3, -⟩ := word_bytes
  rw [child_member, intOf_member _ _ (by decide +kernel)]
  simp only [w3]
  exact ⟨rfl, rfl⟩

theorem get_second (v : Int) (x : Val) (a : List (Bytes × Val)) (k w : Option Bytes) (ty : Json.Ty) (d : Int) :
    intOf (.mk ty k w (inMembers (("start".toUTF8.toList, x) :: ("stop".toUTF8.toList, .num v) :: a))) "stop" d = atoll (Rec.decInt v) ∧
    child (.mk ty k w (inMembers (("start".toUTF8.toList, x) :: ("offset".toUTF8.toList, .num v) :: a))) "offset" =
      some (inNode "offset".toUTF8.toList (.num v)) ∧
    intOf (.mk ty k w (inMembers (("start".toUTF8.toList, x) :: ("offset".toUTF8.toList, .num v) :: a))) "offset" d = atoll (Rec.decInt v) := by
  obtain ⟨-, -, w3, w4, w5, w6, -⟩ := word_bytes
  rw [child_member, intOf_member _ _ (by decide +kernel), intOf_member _ _ (by decide +kernel)]
  simp only [w3, w4, w6]
  cases x <;> exact ⟨rfl, rfl, rfl⟩

theorem get_prev (x y : Int) (k w : Option Bytes) (ty : Json.Ty) :
    intOf (.mk ty k w (inMembers [("start".toUTF8.toList, .num x), ("stop".toUTF8.toList, .num y)])) "ifprev" 0 = 0 ∧
    intOf (.mk ty k w (inMembers [("start".toUTF8.toList, .num x), ("stop".toUTF8.toList, .num y), ("ifprev".toUTF8.toList, .num 1)])) "ifprev" 0 = 1 ∧
    child (.mk ty k w (inMembers [("start".toUTF8.toList, .num x)])) "offset" = none := by
  obtain ⟨-, -, w3, w4, w5, w6, -⟩ := word_bytes
  rw [child_member, intOf_member _ _ (by decide +kernel), intOf_member _ _ (by decide +kernel)]
  simp only [w3, w4, w5, w6]
  refine ⟨rfl, ?_, rfl⟩
  show atoll (Rec.decInt 1) = 1
  decide +kernel

theorem no_more {more : List (Bytes × Val)} (h : ∀ m ∈ more, CStr m.1) (hw : NoWords more) :
    Json.member (inMembers more) "range".toUTF8.toList = none ∧ Json.member (inMembers more) "where".toUTF8.toList = none := by
  obtain ⟨w1, w2, -⟩ := word_bytes
  constructor
  · refine member_none h (by rw [w1]; unfold CStr; decide) fun m hm => ?_
    have := (hw m hm).1
    rw [w1] at this ⊢
    exact this
  · refine member_none h (by rw [w2]; unfold CStr; decide) fun m hm => ?_
    have := (hw m hm).2
    rw [w2] at this ⊢
    exact this

theorem child_of (q : Cond) (more : List (Bytes × Val)) (k : String) :
    child (askNode q more) k = (Json.member q.nodes k.toUTF8.toList).or (Json.member (inMembers more) k.toUTF8.toList) := by
  rw [child_member]; exact member_append _ _ _

theorem cond_member (cs : List Node) :
    Json.member [.mk .object (some "range".toUTF8.toList) none cs] "range".toUTF8.toList = some (.mk .object (some "range".toUTF8.toList) none cs) ∧
    Json.member [.mk .object (some "where".toUTF8.toList) none cs] "where".toUTF8.toList = some (.mk .object (some "where".toUTF8.toList) none cs) ∧
    Json.member [.mk .object (some "where".toUTF8.toList) none cs] "range".toUTF8.toList = none := by
  obtain ⟨w1, w2, -⟩ := word_bytes
  simp only [w1, w2]
  exact ⟨rfl, rfl, rfl⟩

theorem askOf_ask (q : Cond) {more : List (Bytes × Val)} (h : ∀ m ∈ more, CStr m.1) (hw : NoWords more) {ts l} (hq : q.Ok ts l) :
    ∃ s, askOf (some (askNode q more)) = (q.query, s) := by
  obtain ⟨nr, nw⟩ := no_more h hw
  have f0 : flag8 0 = false := by decide
  have f1 : flag8 1 = true := by decide
  unfold askOf
  dsimp only
  rw [child_of, child_of, nr, nw, Option.or_none, Option.or_none]
  cases q with
  | latest => exact ⟨-1, rfl⟩
  | range a b p =>
    obtain ⟨h1, h2, h3, h4, -⟩ := hq
    have e1 := atoll_int h1 h2
    have e2 := atoll_int h3 h4
    refine ⟨a, ?_⟩
    cases p
    · simp only [Cond.nodes, (cond_member _).1, (get_start a _ _ _ _).1, (get_start a _ _ _ _).2, (get_second b _ _ _ _ _ _).1, (get_prev a b _ _ _).1,
        e1, e2, f0, Cond.query]
    · simp only [Cond.nodes, (cond_member _).1, (get_start a _ _ _ _).1, (get_start a _ _ _ _).2, (get_second b _ _ _ _ _ _).1, (get_prev a b _ _ _).2.1,
        e1, e2, f1, Cond.query]
  | «at» t =>
    have hq : t < 2 ^ 63 := hq
    have e1 := atoll_int (v := t) (by omega) (by omega)
    refine ⟨t, ?_⟩
    simp only [Cond.nodes, (cond_member _).2.1, (cond_member _).2.2, (get_start t _ _ _ _).1, (get_start t _ _ _ _).2, (get_prev t t _ _ _).2.2,
      e1, Cond.query]
    rw [nat64 (by omega)]
    rfl
  | back t k =>
    obtain ⟨h1, h2, h3⟩ := hq
    have e1 := atoll_int (v := t) (by omega) (by omega)
    have e2 := atoll_int (v := -k) (by omega) (by omega)
    refine ⟨t, ?_⟩
    simp only [Cond.nodes, (cond_member _).2.1, (cond_member _).2.2, (get_start t _ _ _ _).1, (get_start t _ _ _ _).2, (get_second (-k) _ _ _ _ _ 0).2.1,
      (get_second (-k) _ _ _ _ _ _).2.2, e1, e2, Cond.query]
    rw [nat64 (by omega), int32_neg h3]

theorem delOf_range {a b : Nat} (ha : a < 2 ^ 63) (hb : b < 2 ^ 63) : delOf (askNode (.range a b false) []) = some (Query.range a b false, (a : Int)) := by
  have e1 := atoll_int (v := a) (by omega) (by omega)
  have e2 := atoll_int (v := b) (by omega) (by omega)
  unfold delOf
  rw [child_of]
  simp only [Cond.nodes, (cond_member _).1, (get_start a _ _ _ _).1, (get_start a _ _ _ _).2, (get_second b _ _ _ _ _ _).1, e1, e2, Option.or]

theorem delOf_at {t : Nat} (ht : t < 2 ^ 63) : delOf (askNode (.at t) []) = some (Query.whereTs t 0, (t : Int)) := by
  have e1 := atoll_int (v := t) (by omega) (by omega)
  unfold delOf
  rw [child_of, child_of]
  have h1 : Json.member (inMembers []) "range".toUTF8.toList = none := rfl
  simp only [Cond.nodes, (cond_member _).2.1, (cond_member _).2.2, (get_start t _ _ _ _).1, (get_start t _ _ _ _).2, e1, h1, Option.or]
  rw [nat64 (by omega)]


theorem nodes_other (q : Cond) {k : String} (h : k = "format" ∨ k = "fields") : Json.member q.nodes k.toUTF8.toList = none := by
  obtain ⟨w1, w2, w3, w4, w5, w6, w7, w8⟩ := word_bytes
  cases q with
  | latest => rfl
  | range a b p => rcases h with rfl | rfl <;> cases p <;> simp only [Cond.nodes, w1, w7, w8] <;> rfl
  | «at» t => rcases h with rfl | rfl <;> simp only [Cond.nodes, w2, w7, w8] <;> rfl
  | back t k => rcases h with rfl | rfl <;> simp only [Cond.nodes, w2, w7, w8] <;> rfl

theorem fmtOf_ask (q : Cond) {more : List (Bytes × Val)} (h : ∀ m ∈ more, CStr m.1) :
    fmtOf (some (askNode q more)) = match (look more "format".toUTF8.toList).map content with
      | some (ch :: _) => fmtCh ch
      | _ => .array := by
  have h1 := Rec.member_look h (name := "format".toUTF8.toList) (by rw [word_bytes.2.2.2.2.2.2.1]; unfold CStr; decide)
  unfold fmtOf
  rw [Option.bind_some, child_of, nodes_other q (.inl rfl), Option.none_or]
  cases hl : look more "format".toUTF8.toList with
  | none =>
    rw [hl] at h1
    rw [Option.map_eq_none_iff.1 h1]
    rfl
  | some v =>
    rw [hl] at h1
    obtain ⟨n, hn, hv⟩ := Option.map_eq_some_iff.1 h1
    rw [hn, Option.bind_some, hv]
    rfl

theorem fieldsOf_ask (q : Cond) {more : List (Bytes × Val)} (h : ∀ m ∈ more, CStr m.1) :
    fieldsOf (some (askNode q more)) = match (look more "fields".toUTF8.toList).map content with
      | none => none
      | some (42 :: _) => none
      | some v => some (Csv.loadList 44 v) := by
  have h1 := Rec.member_look h (name := "fields".toUTF8.toList) (by rw [word_bytes.2.2.2.2.2.2.2]; unfold CStr; decide)
  unfold fieldsOf
  rw [Option.bind_some, child_of, nodes_other q (.inr rfl), Option.none_or]
  cases hl : look more "fields".toUTF8.toList with
  | none =>
    rw [hl] at h1
    rw [Option.map_eq_none_iff.1 h1]
    rfl
  | some v =>
    rw [hl] at h1
    obtain ⟨n, hn, hv⟩ := Option.map_eq_some_iff.1 h1
    rw [hn]
    simp only [hv, Option.map_some, Option.getD_some]
    split <;> rename_i h2
    · rw [h2]; rfl
    · split
      · contradiction
      · rename_i h3; injection h3 with h3; exact absurd h3 (h2 _)
      · rename_i h3 h4; injection h4 with h4; rw [h4]

end Sis.Io
