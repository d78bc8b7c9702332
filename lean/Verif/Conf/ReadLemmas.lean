import Verif.Conf.ConfLemmas
/-
Lemmas for C106: values, the loops of arrays, objects and files, one step at a time, and the reading of whole values.
-/
namespace Sis.Conf
open Sis Num
open Sis.Json (Node Ty newNode isFloat)
open Sis.Rec (dec llutoa_dec)

/-! ### One step -/

theorem pv_num {v : Env} {sl : Bool} {fuel : Nat} {n : Node} {c : UInt8} {r : Bytes} {e : Nat} (h : c = 45 ∨ isDigit c = true) :
    parseValue v sl (fuel + 1) n (c :: r) e = some (parseNumber n (c :: r) e) := by
  unfold parseValue
  rw [if_pos ⟨by simp, h⟩]

theorem pv_string {v : Env} {sl : Bool} {fuel : Nat} {n : Node} {c : UInt8} {r : Bytes} {e : Nat} (h1 : c ≠ 45) (h2 : isDigit c = false)
    (h3 : c ≠ 91) (h4 : c ≠ 123) : parseValue v sl (fuel + 1) n (c :: r) e = some (parseString n (c :: r) e) := by
  unfold parseValue
  rw [if_neg fun h => h.2.elim (fun h => h1 h) fun h => by
    have : isDigit c = true := h
    simp [h2] at this]
  split
  · rename_i h; exact absurd (List.cons.inj h).1 h3
  · rename_i h; exact absurd (List.cons.inj h).1 h4
  · rfl

theorem pv_arr {v : Env} {sl : Bool} {fuel : Nat} {n : Node} {t : Bytes} {e : Nat} (hk : n.key ≠ none) :
    parseValue v sl (fuel + 1) n (91 :: t) e =
      if at0 (skip t) = 93 then some ⟨some (skip t).tail, .mk .array n.key n.value n.child, e⟩
      else (arrayLoop v sl fuel 0 [] newNode (skip t) e).map fun p => ⟨p.1, .mk .array n.key n.value p.2.1, p.2.2⟩ := by
  rw [parseValue, if_neg (by
    rintro ⟨-, h | h⟩
    · exact absurd (show (91 : UInt8) = 45 from h) (by decide)
    · exact absurd (show isDigit 91 = true from h) (by decide))]
  simp only [if_neg hk]

theorem pv_obj {v : Env} {sl : Bool} {fuel : Nat} {n : Node} {t : Bytes} {e : Nat} :
    parseValue v sl (fuel + 1) n (123 :: t) e =
      if at0 (skip t) = 125 then some ⟨some (skip t).tail, .mk .object n.key n.value n.child, e⟩
      else (objectLoop v sl fuel [] newNode (skip t) e).map fun p => ⟨p.1, .mk .object n.key n.value p.2.1, p.2.2⟩ := by
  rw [parseValue, if_neg (by
    rintro ⟨-, h | h⟩
    · exact absurd (show (123 : UInt8) = 45 from h) (by decide)
    · exact absurd (show isDigit 123 = true from h) (by decide))]

theorem array_last {v : Env} {sl : Bool} {fuel i : Nat} {done : List Node} {cur n : Node} {s p r : Bytes} (hs : s ≠ [])
    (hi : isInclude (skip s) = false) (hv : parseValue v sl fuel (setKey cur (some (llutoa i 32))) (skip s) 0 = some ⟨some p, n, 0⟩)
    (hp : skip p = 93 :: r) : arrayLoop v sl (fuel + 1) i done cur s 0 = some (some r, done ++ [n], 0) := by
  rw [arrayLoop, if_neg hs, if_neg (by simp [hi]), hv]
  simp [hp]

theorem array_next {v : Env} {sl : Bool} {fuel i : Nat} {done : List Node} {cur n : Node} {s p r : Bytes} (hs : s ≠ [])
    (hi : isInclude (skip s) = false) (hv : parseValue v sl fuel (setKey cur (some (llutoa i 32))) (skip s) 0 = some ⟨some p, n, 0⟩)
    (hp : skip p = 44 :: r) : arrayLoop v sl (fuel + 1) i done cur s 0 = arrayLoop v sl fuel (i + 1) (done ++ [n]) newNode r 0 := by
  rw [arrayLoop, if_neg hs, if_neg (by simp [hi]), hv]
  simp [hp]

/-- A member or an included file, as all three loops read it. -/
def item (v : Env) (sl : Bool) (fuel : Nat) (cur : Node) (s : Bytes) : Option (Option Bytes × List Node × Nat) :=
  if isInclude (skip s) then parseInclude v fuel cur (skip s) 0 else member sl (parseValue v sl fuel) cur (skip s) 0

theorem object_last {v : Env} {sl : Bool} {fuel : Nat} {done ns : List Node} {cur : Node} {s p r : Bytes} (hs : s ≠ [])
    (hv : item v sl fuel cur s = some (some p, ns, 0)) (hp : skip p = 125 :: r) :
    objectLoop v sl (fuel + 1) done cur s 0 = some (some r, done ++ ns, 0) := by
  unfold item at hv
  rw [objectLoop, if_neg hs, hv]
  simp [hp]

theorem object_next {v : Env} {sl : Bool} {fuel : Nat} {done ns : List Node} {cur : Node} {s p r : Bytes} (hs : s ≠ [])
    (hv : item v sl fuel cur s = some (some p, ns, 0)) (hp : skip p = 44 :: r) :
    objectLoop v sl (fuel + 1) done cur s 0 = objectLoop v sl fuel (done ++ ns) newNode r 0 := by
  unfold item at hv
  rw [objectLoop, if_neg hs, hv]
  simp [hp]

theorem include_last {v : Env} {fuel : Nat} {done ns : List Node} {cur : Node} {s p : Bytes} (hs : s ≠ [])
    (hv : item v true fuel cur s = some (some p, ns, 0)) (hp : skip p = []) :
    includeLoop v (fuel + 1) done cur s 0 = some (done ++ ns, 0) := by
  unfold item at hv
  rw [includeLoop, if_neg hs, hv]
  simp [hp]

theorem include_next {v : Env} {fuel : Nat} {done : List Node} {n cur : Node} {s p : Bytes} (hs : s ≠ [])
    (hv : item v true fuel cur s = some (some p, [n], 0)) (hp : skip p ≠ []) :
    includeLoop v (fuel + 1) done cur s 0 = includeLoop v fuel (done ++ [n]) newNode (skip p) 0 := by
  unfold item at hv
  rw [includeLoop, if_neg hs, hv]
  simp only [Option.map_some]
  rfl

theorem top_next {v : Env} {fuel : Nat} {done ns : List Node} {s p : Bytes} (hs : s ≠ [])
    (hv : item v true fuel newNode s = some (some p, ns, 0)) :
    topLoop v (fuel + 1) done s 0 = topLoop v fuel (done ++ ns) (skip p) 0 := by
  unfold item at hv
  rw [topLoop, if_neg hs, hv]
  simp

/-! ### Members and included files -/

theorem item_member {v : Env} {sl : Bool} {fuel : Nat} {n : Node} {k sp t s p : Bytes} (hk : KeyOk k) (hsp : ∀ c ∈ sp, c = 32)
    (hs : skip s = k ++ sp ++ 58 :: t) (hv : parseValue v sl fuel (.mk .null (some k) none []) (skip t) 0 = some ⟨some p, n, 0⟩) :
    item v sl fuel newNode s = some (some p, [n], 0) := by
  unfold item
  rw [hs, key_include hk hsp, if_neg (by decide)]
  unfold member
  rw [key_val hk hsp]
  have : setKey newNode (some k) = .mk .null (some k) none [] := rfl
  simp [this, hv]

theorem item_include {v : Env} {sl : Bool} {fuel : Nat} {ns : List Node} {g f b s p : Bytes} (hg : Gap g) (hf : FileOk f)
    (hl : (v.path ++ f).length ≤ 1023) (hb : v.files (v.path ++ f) = some b) (hn : b ≠ [])
    (hs : skip s = [105, 110, 99, 108, 117, 100, 101] ++ (g ++ (f ++ p))) (hp : Stop p)
    (hv : includeLoop v fuel [] newNode (skip b) 0 = some (ns, 0)) :
    item v sl (fuel + 1) newNode s = some (some p, ns, 0) := by
  have hw : ∀ c ∈ f, (wordCh c && !sepCh c) = true := by
    intro x hx
    obtain ⟨h1, h2, h3, h4⟩ := hf.2 x hx
    rw [word_of h1]
    simp [sepCh, h2, h3, h4]
  have hh : Head (f ++ p) := by
    obtain ⟨c, r, rfl⟩ := List.exists_cons_of_ne_nil hf.1
    exact ⟨c, r ++ p, rfl, (hf.2 c (by simp)).1⟩
  obtain ⟨e1, e2⟩ := takeWhile_stop hw (stop_word hp)
  unfold item
  have e3 : isInclude ([105, 110, 99, 108, 117, 100, 101] ++ (g ++ (f ++ p))) = true := by simp [isInclude]; decide
  have e4 : ([105, 110, 99, 108, 117, 100, 101] ++ (g ++ (f ++ p))).drop 7 = g ++ (f ++ p) := rfl
  rw [hs, if_pos e3, parseInclude, e4, skip_gap_head hg hh, e1, e2, List.take_of_length_le hl]
  unfold fileText
  rw [hb]
  simp [hn, hv]

/-! ### Whole values -/

theorem val_first {v : Env} {x : Val} (h : x.Ok v) : ∃ c r, x.text = c :: r ∧ Solid c ∧ c ≠ 93 ∧ c ≠ 125 := by
  cases x with
  | num t =>
    unfold Val.Ok at h
    obtain ⟨⟨c, r, rfl, hc⟩, -⟩ := h
    refine ⟨c, r, by rw [Val.text], ?_⟩
    rcases hc with rfl | hc
    · refine ⟨⟨by decide, by decide⟩, by decide, by decide⟩
    · rw [isDigit_iff] at hc
      have h1 := UInt8.le_iff_toNat_le.mp hc.1
      have h2 := UInt8.le_iff_toNat_le.mp hc.2
      simp at h1 h2
      refine ⟨⟨UInt8.lt_iff_toNat_lt.mpr (by simp; omega), ?_⟩, ?_, ?_⟩ <;> rintro rfl <;> simp at h1 h2
  | word t =>
    unfold Val.Ok at h
    obtain ⟨⟨c, r, rfl, -⟩, ha⟩ := h
    obtain ⟨h1, -, h3, h4⟩ := ha c (by simp)
    exact ⟨c, r, by rw [Val.text], h1, h3, h4⟩
  | quoted t => exact ⟨34, _, by rw [Val.text], ⟨by decide, by decide⟩, by decide, by decide⟩
  | arr g vs => exact ⟨91, _, by rw [Val.text], ⟨by decide, by decide⟩, by decide, by decide⟩
  | obj g ms => exact ⟨123, _, by rw [Val.text], ⟨by decide, by decide⟩, by decide, by decide⟩

theorem val_head {v : Env} {x : Val} (h : x.Ok v) (s : Bytes) : Head (x.text ++ s) := by
  obtain ⟨c, r, he, hc, -⟩ := val_first h
  exact ⟨c, r ++ s, by rw [he]; rfl, hc⟩

mutual
/-- How deep the recursion goes. -/
def Val.size : Val → Nat
  | .num _ => 1
  | .word _ => 1
  | .quoted _ => 1
  | .arr _ vs => vs.size + 1
  | .obj _ ms => ms.size + 1

/-- How deep the recursion goes. -/
def Vals.size : Vals → Nat
  | .nil => 1
  | .cons _ v _ r => v.size + r.size + 1

/-- How deep the recursion goes. -/
def Mems.size : Mems → Nat
  | .nil => 1
  | .cons _ _ _ _ v _ r => v.size + r.size + 1
  | .inc _ _ _ _ is r => is.size + r.size + 3
end

theorem file_ne {v : Env} {b : Bool} {ms : Mems} (h : ms.Ok v b) (hn : ms ≠ .nil) : ms.file ≠ [] := by
  cases ms with
  | nil => exact absurd rfl hn
  | cons => simp [Mems.file, Mems.text]
  | inc => simp [Mems.file, Mems.text]

/-- What stands in an array behind a value. -/
theorem array_behind {a : Bytes} (ha : Gap a) (r : Vals) (s : Bytes) :
    Stop (a ++ (r.text [44] ++ 93 :: s)) ∧ (r = .nil → skip (a ++ (r.text [44] ++ 93 :: s)) = 93 :: s) ∧
      (r ≠ .nil → skip (a ++ (r.text [44] ++ 93 :: s)) = 44 :: (r.text [] ++ 93 :: s)) := by
  cases r with
  | nil =>
    rw [Vals.text, List.nil_append]
    exact ⟨gap_stop ha (stop_of (by simp)), fun _ => skip_gap_head ha ⟨93, s, rfl, by decide, by decide⟩, fun h => absurd rfl h⟩
  | cons b x a' r =>
    have e : (Vals.cons b x a' r).text [44] ++ 93 :: s = 44 :: ((Vals.cons b x a' r).text [] ++ 93 :: s) := by simp [Vals.text]
    rw [e]
    exact ⟨gap_stop ha (stop_of (by simp)), fun h => by simp at h, fun _ => skip_gap_head ha ⟨44, _, rfl, by decide, by decide⟩⟩

theorem lead_comma {r : Mems} (h : r ≠ .nil) : r.text [44] [44] = 44 :: r.text [44] [] := by
  cases r with
  | nil => exact absurd rfl h
  | cons => simp [Mems.text]
  | inc => simp [Mems.text]

/-- What stands in an object behind a member. -/
theorem object_behind {a : Bytes} (ha : Gap a) (r : Mems) (s : Bytes) :
    Stop (a ++ (r.text [44] [44] ++ 125 :: s)) ∧ (r = .nil → skip (a ++ (r.text [44] [44] ++ 125 :: s)) = 125 :: s) ∧
      (r ≠ .nil → skip (a ++ (r.text [44] [44] ++ 125 :: s)) = 44 :: (r.text [44] [] ++ 125 :: s)) := by
  by_cases hr : r = .nil
  · subst hr
    rw [Mems.text, List.nil_append]
    exact ⟨gap_stop ha (stop_of (by simp)), fun _ => skip_gap_head ha ⟨125, s, rfl, by decide, by decide⟩, fun h => absurd rfl h⟩
  · rw [lead_comma hr, List.cons_append]
    exact ⟨gap_stop ha (stop_of (by simp)), fun h => absurd h hr, fun _ => skip_gap_head ha ⟨44, _, rfl, by decide, by decide⟩⟩

/-- What stands in a file behind a member. -/
theorem file_behind {a : Bytes} (ha : Gap a) (r : Mems) (hr : r = .nil ∨ a ≠ []) :
    Stop (a ++ r.text [] []) ∧ skip (a ++ r.text [] []) = skip r.file := by
  refine ⟨?_, skip_gap ha _⟩
  rcases hr with rfl | hr
  · rw [Mems.text]; exact gap_stop ha stop_nil
  · exact gap_stop' ha hr

theorem file_first {v : Env} {b : Bool} {ms : Mems} (h : ms.Ok v b) (hn : ms ≠ .nil) (sep s : Bytes) :
    ∃ c r, skip (ms.text sep [] ++ s) = c :: r ∧ Solid c ∧ c ≠ 125 := by
  cases ms with
  | nil => exact absurd rfl hn
  | cons b k sp g x a r =>
    unfold Mems.Ok at h
    obtain ⟨h1, h2, -⟩ := h
    obtain ⟨c, t, rfl, h3, h4⟩ := h2.1
    have hh : Solid c := ⟨(h2.2.1 c (by simp)).1, h3⟩
    simp only [Mems.text, List.nil_append, List.append_assoc, List.cons_append]
    rw [skip_gap_head h1 ⟨c, _, rfl, hh⟩]
    exact ⟨c, _, rfl, hh, h4⟩
  | inc b g f a is r =>
    unfold Mems.Ok at h
    obtain ⟨h1, -⟩ := h
    simp only [Mems.text, List.nil_append, List.append_assoc, List.cons_append]
    rw [skip_gap_head h1 ⟨105, _, rfl, by decide, by decide⟩]
    exact ⟨105, _, rfl, ⟨by decide, by decide⟩, by decide⟩

theorem vals_first {v : Env} {i : Nat} {vs : Vals} (h : vs.Ok v i) (hn : vs ≠ .nil) (s : Bytes) :
    ∃ c r, skip (vs.text [] ++ s) = c :: r ∧ Solid c ∧ c ≠ 93 := by
  cases vs with
  | nil => exact absurd rfl hn
  | cons b x a r =>
    unfold Vals.Ok at h
    obtain ⟨h1, h2, -⟩ := h
    obtain ⟨c, t, he, h3, h4, -⟩ := val_first h2
    simp only [Vals.text, List.nil_append, List.append_assoc, he, List.cons_append]
    rw [skip_gap_head h1 ⟨c, _, rfl, h3⟩]
    exact ⟨c, _, rfl, h3, h4⟩

/-! ### The reader -/

theorem skip_skip_of {s : Bytes} {c : UInt8} {r : Bytes} (_ : skip s = c :: r) (hc : Solid c) : skip (c :: r) = c :: r :=
  skip_head ⟨c, r, rfl, hc⟩

mutual
theorem val_read (v : Env) (x : Val) (h : x.Ok v) (sl : Bool) (fuel : Nat) (k : Option Bytes) (s : Bytes) (hf : x.size ≤ fuel)
    (hk : k ≠ none ∨ ∃ g ms, x = .obj g ms) (hs : Stop s) :
    parseValue v sl fuel (.mk .null k none []) (x.text ++ s) 0 = some ⟨some s, x.node k, 0⟩ := by
  match x with
  | .num t =>
    unfold Val.Ok at h
    unfold Val.size at hf
    obtain ⟨f, rfl⟩ : ∃ f, fuel = f + 1 := ⟨fuel - 1, by omega⟩
    obtain ⟨⟨c, r, rfl, hc⟩, -⟩ := id h
    rw [Val.text, Val.node, List.cons_append, pv_num hc, ← List.cons_append, num_val h hs]
    rfl
  | .word t =>
    unfold Val.Ok at h
    unfold Val.size at hf
    obtain ⟨f, rfl⟩ : ∃ f, fuel = f + 1 := ⟨fuel - 1, by omega⟩
    obtain ⟨⟨c, r, rfl, h1, h2, h3, h4, -⟩, -⟩ := id h
    rw [Val.text, Val.node, List.cons_append, pv_string h1 h2 h3 h4, ← List.cons_append, word_val h hs]
    rfl
  | .quoted t =>
    unfold Val.Ok at h
    unfold Val.size at hf
    obtain ⟨f, rfl⟩ : ∃ f, fuel = f + 1 := ⟨fuel - 1, by omega⟩
    rw [Val.text, Val.node, List.cons_append, pv_string (by decide) (by decide) (by decide) (by decide), ← List.cons_append, quoted_val h hs]
    rfl
  | .arr g vs =>
    unfold Val.Ok at h
    unfold Val.size at hf
    obtain ⟨f, rfl⟩ : ∃ f, fuel = f + 1 := ⟨fuel - 1, by omega⟩
    have hk' : k ≠ none := by
      rcases hk with hk | ⟨g', ms, he⟩
      · exact hk
      · simp at he
    have e : (Val.arr g vs).text ++ s = 91 :: (g ++ (vs.text [] ++ 93 :: s)) := by simp [Val.text]
    rw [e, pv_arr (n := .mk .null k none []) (show k ≠ none from hk'), skip_gap h.1]
    by_cases hn : vs = .nil
    · subst hn
      have e2 : skip (Vals.nil.text [] ++ 93 :: s) = 93 :: s := by
        rw [Vals.text]; exact skip_head ⟨93, s, rfl, by decide, by decide⟩
      rw [e2, if_pos (show at0 (93 :: s) = 93 from rfl), Val.node, Vals.nodes]
      rfl
    · obtain ⟨c, r, he, hc, h93⟩ := vals_first h.2 hn (93 :: s)
      rw [he, if_neg (show ¬ at0 (c :: r) = 93 from h93)]
      rw [vals_read v vs 0 h.2 sl f [] (c :: r) s (by omega) hn (by simp) (by rw [skip_skip_of he hc, he])]
      rw [Val.node]
      rfl
  | .obj g ms =>
    unfold Val.Ok at h
    unfold Val.size at hf
    obtain ⟨f, rfl⟩ : ∃ f, fuel = f + 1 := ⟨fuel - 1, by omega⟩
    have e : (Val.obj g ms).text ++ s = 123 :: (g ++ (ms.text [44] [] ++ 125 :: s)) := by simp [Val.text]
    rw [e, pv_obj, skip_gap h.1]
    by_cases hn : ms = .nil
    · subst hn
      have e2 : skip (Mems.nil.text [44] [] ++ 125 :: s) = 125 :: s := by
        rw [Mems.text]; exact skip_head ⟨125, s, rfl, by decide, by decide⟩
      rw [e2, if_pos (show at0 (125 :: s) = 125 from rfl), Val.node, Mems.nodes]
      rfl
    · obtain ⟨c, r, he, hc, h125⟩ := file_first h.2 hn [44] (125 :: s)
      rw [he, if_neg (show ¬ at0 (c :: r) = 125 from h125)]
      rw [mems_read v ms h.2 sl f [] (c :: r) s (by omega) hn (by simp) (by rw [skip_skip_of he hc, he])]
      rw [Val.node]
      rfl

theorem vals_read (v : Env) (vs : Vals) (i : Nat) (h : vs.Ok v i) (sl : Bool) (fuel : Nat) (done : List Node) (s0 s : Bytes)
    (hf : vs.size ≤ fuel) (hn : vs ≠ .nil) (h0 : s0 ≠ []) (hs : skip s0 = skip (vs.text [] ++ 93 :: s)) :
    arrayLoop v sl fuel i done newNode s0 0 = some (some s, done ++ vs.nodes i, 0) := by
  match vs with
  | .nil => exact absurd rfl hn
  | .cons b x a r =>
    unfold Vals.Ok at h
    unfold Vals.size at hf
    obtain ⟨hb, hx, hi, ha, hlt, hr⟩ := h
    obtain ⟨f, rfl⟩ : ∃ f, fuel = f + 1 := ⟨fuel - 1, by omega⟩
    obtain ⟨b1, b2, b3⟩ := array_behind ha r s
    have e : skip s0 = x.text ++ (a ++ (r.text [44] ++ 93 :: s)) := by
      rw [hs]
      simp only [Vals.text, List.nil_append, List.append_assoc]
      exact skip_gap_head hb (val_head hx _)
    have e1 : isInclude (skip s0) = false := by
      rw [e]
      refine not_include hi ?_
      intro c q he
      rcases b1 c q he with hc | hc | hc | hc | hc
      · have hl : lower c = c := by
          unfold lower
          rw [if_neg]
          rintro ⟨h1, -⟩
          have h1 := UInt8.le_iff_toNat_le.mp h1
          have h2 := UInt8.le_iff_toNat_le.mp hc
          simp at h1 h2; omega
        rw [hl]
        intro hm
        have h2 := UInt8.le_iff_toNat_le.mp hc
        simp only [List.mem_cons, List.not_mem_nil, or_false] at hm
        rcases hm with rfl | rfl | rfl | rfl | rfl | rfl | rfl <;> simp at h2
      all_goals subst hc; decide
    have e2 : parseValue v sl f (setKey newNode (some (llutoa i 32))) (skip s0) 0 =
        some ⟨some (a ++ (r.text [44] ++ 93 :: s)), x.node (some (dec i)), 0⟩ := by
      rw [e, llutoa_dec (by omega)]
      exact val_read v x hx sl f (some (dec i)) _ (by omega) (Or.inl (by simp)) b1
    by_cases hrn : r = .nil
    · rw [array_last h0 e1 e2 (b2 hrn)]
      subst hrn
      simp [Vals.nodes]
    · rw [array_next h0 e1 e2 (b3 hrn), vals_read v r (i + 1) hr sl f _ _ s (by omega) hrn (by simp) rfl]
      simp [Vals.nodes]

theorem mems_read (v : Env) (ms : Mems) (h : ms.Ok v false) (sl : Bool) (fuel : Nat) (done : List Node) (s0 s : Bytes)
    (hf : ms.size ≤ fuel) (hn : ms ≠ .nil) (h0 : s0 ≠ []) (hs : skip s0 = skip (ms.text [44] [] ++ 125 :: s)) :
    objectLoop v sl fuel done newNode s0 0 = some (some s, done ++ ms.nodes, 0) := by
  match ms with
  | .nil => exact absurd rfl hn
  | .cons b k sp g x a r =>
    unfold Mems.Ok at h
    unfold Mems.size at hf
    obtain ⟨hb, hk, hsp, hg, hx, ha, -, hr⟩ := h
    obtain ⟨f, rfl⟩ : ∃ f, fuel = f + 1 := ⟨fuel - 1, by omega⟩
    obtain ⟨b1, b2, b3⟩ := object_behind ha r s
    have e : skip s0 = k ++ sp ++ 58 :: (g ++ (x.text ++ (a ++ (r.text [44] [44] ++ 125 :: s)))) := by
      rw [hs]
      have : (Mems.cons b k sp g x a r).text [44] [] ++ 125 :: s =
          b ++ (k ++ (sp ++ 58 :: (g ++ (x.text ++ (a ++ (r.text [44] [44] ++ 125 :: s)))))) := by simp [Mems.text]
      rw [this, List.append_assoc]
      exact skip_gap_head hb (key_head hk)
    have e2 := item_member (v := v) (sl := sl) (fuel := f) hk hsp e (by
      rw [skip_gap_head hg (val_head hx _)]
      exact val_read v x hx sl f (some k) _ (by omega) (Or.inl (by simp)) b1)
    by_cases hrn : r = .nil
    · rw [object_last h0 e2 (b2 hrn)]
      subst hrn
      simp [Mems.nodes]
    · rw [object_next h0 e2 (b3 hrn), mems_read v r hr sl f _ _ s (by omega) hrn (by
        obtain ⟨c, q, he, -⟩ := file_first hr hrn [44] (125 :: s)
        intro hh
        rw [hh] at he
        simp [skip_nil] at he) rfl]
      simp [Mems.nodes]
  | .inc b g fn a is r =>
    unfold Mems.Ok at h
    unfold Mems.size at hf
    obtain ⟨hb, hg, hfn, ha, -, hr, hl, hfile, hin, hfl, hio⟩ := h
    obtain ⟨f, rfl⟩ : ∃ f, fuel = f + 1 + 1 := ⟨fuel - 2, by omega⟩
    obtain ⟨b1, b2, b3⟩ := object_behind ha r s
    have e : skip s0 = [105, 110, 99, 108, 117, 100, 101] ++ (g ++ (fn ++ (a ++ (r.text [44] [44] ++ 125 :: s)))) := by
      rw [hs]
      have : (Mems.inc b g fn a is r).text [44] [] ++ 125 :: s =
          b ++ ([105, 110, 99, 108, 117, 100, 101] ++ (g ++ (fn ++ (a ++ (r.text [44] [44] ++ 125 :: s))))) := by simp [Mems.text]
      rw [this]
      exact skip_gap_head hb ⟨105, _, rfl, by decide, by decide⟩
    have e2 := item_include (v := v) (sl := sl) (fuel := f) hg hfn hl hfile (file_ne hio hin) e b1 (items_read v is hio hfl f [] _ (by omega) hin (by
      obtain ⟨c, q, he, -⟩ := file_first hio hin [] []
      rw [List.append_nil] at he
      show skip is.file ≠ []
      rw [Mems.file, he]; simp) (by
      obtain ⟨c, q, he, hc, -⟩ := file_first hio hin [] []
      rw [List.append_nil] at he
      rw [Mems.file, he, skip_skip_of he hc]))
    rw [List.nil_append] at e2
    by_cases hrn : r = .nil
    · rw [object_last h0 e2 (b2 hrn)]
      subst hrn
      simp [Mems.nodes]
    · rw [object_next h0 e2 (b3 hrn), mems_read v r hr sl (f + 1) _ _ s (by omega) hrn (by
        obtain ⟨c, q, he, -⟩ := file_first hr hrn [44] (125 :: s)
        intro hh
        rw [hh] at he
        simp [skip_nil] at he) rfl]
      simp [Mems.nodes]

theorem items_read (v : Env) (ms : Mems) (h : ms.Ok v true) (hfl : ms.Flat) (fuel : Nat) (done : List Node) (s0 : Bytes)
    (hf : ms.size ≤ fuel) (hn : ms ≠ .nil) (h0 : s0 ≠ []) (hs : skip s0 = skip ms.file) :
    includeLoop v fuel done newNode s0 0 = some (done ++ ms.nodes, 0) := by
  match ms with
  | .nil => exact absurd rfl hn
  | .cons b k sp g x a r =>
    unfold Mems.Ok at h
    unfold Mems.size at hf
    unfold Mems.Flat at hfl
    obtain ⟨hb, hk, hsp, hg, hx, ha, hrn', hr⟩ := h
    obtain ⟨f, rfl⟩ : ∃ f, fuel = f + 1 := ⟨fuel - 1, by omega⟩
    obtain ⟨b1, b2⟩ := file_behind ha r (hrn' rfl)
    have e : skip s0 = k ++ sp ++ 58 :: (g ++ (x.text ++ (a ++ r.text [] []))) := by
      rw [hs]
      have : (Mems.cons b k sp g x a r).file = b ++ (k ++ (sp ++ 58 :: (g ++ (x.text ++ (a ++ r.text [] []))))) := by simp [Mems.file, Mems.text]
      rw [this, List.append_assoc]
      exact skip_gap_head hb (key_head hk)
    have e2 := item_member (v := v) (sl := true) (fuel := f) hk hsp e (by
      rw [skip_gap_head hg (val_head hx _)]
      exact val_read v x hx true f (some k) _ (by omega) (Or.inl (by simp)) b1)
    by_cases hrn : r = .nil
    · subst hrn
      rw [include_last h0 e2 (by rw [b2, Mems.file, Mems.text, skip_nil])]
      simp [Mems.nodes]
    · obtain ⟨c, q, he, hc, -⟩ := file_first hr hrn [] []
      rw [List.append_nil, ← Mems.file] at he
      rw [include_next h0 e2 (by rw [b2, he]; simp), items_read v r hr hfl f _ _ (by omega) hrn (by rw [b2, he]; simp)
        (by rw [b2, he, skip_skip_of he hc])]
      simp [Mems.nodes]
  | .inc b g fn a is r => exact absurd hfl (by simp [Mems.Flat])
end

theorem top_read (v : Env) (ms : Mems) (h : ms.Ok v true) (fuel : Nat) (done : List Node) (hf : ms.size ≤ fuel) :
    topLoop v fuel done (skip ms.file) 0 = some (done ++ ms.nodes, 0) := by
  match ms with
  | .nil =>
    unfold Mems.size at hf
    obtain ⟨f, rfl⟩ : ∃ f, fuel = f + 1 := ⟨fuel - 1, by omega⟩
    rw [Mems.file, Mems.text, skip_nil, topLoop, if_pos rfl]
    simp [Mems.nodes]
  | .cons b k sp g x a r =>
    have hne : skip (Mems.cons b k sp g x a r).file ≠ [] := by
      obtain ⟨c, q, he, -⟩ := file_first h (by simp) [] []
      rw [List.append_nil] at he
      rw [Mems.file, he]; simp
    have hid : skip (skip (Mems.cons b k sp g x a r).file) = skip (Mems.cons b k sp g x a r).file := by
      obtain ⟨c, q, he, hc, -⟩ := file_first h (by simp) [] []
      rw [List.append_nil] at he
      rw [Mems.file, he, skip_skip_of he hc]
    unfold Mems.Ok at h
    unfold Mems.size at hf
    obtain ⟨hb, hk, hsp, hg, hx, ha, hrn', hr⟩ := h
    obtain ⟨f, rfl⟩ : ∃ f, fuel = f + 1 := ⟨fuel - 1, by omega⟩
    obtain ⟨b1, b2⟩ := file_behind ha r (hrn' rfl)
    have e : skip (skip (Mems.cons b k sp g x a r).file) = k ++ sp ++ 58 :: (g ++ (x.text ++ (a ++ r.text [] []))) := by
      rw [hid]
      have : (Mems.cons b k sp g x a r).file = b ++ (k ++ (sp ++ 58 :: (g ++ (x.text ++ (a ++ r.text [] []))))) := by simp [Mems.file, Mems.text]
      rw [this, List.append_assoc]
      exact skip_gap_head hb (key_head hk)
    have e2 := item_member (v := v) (sl := true) (fuel := f) hk hsp e (by
      rw [skip_gap_head hg (val_head hx _)]
      exact val_read v x hx true f (some k) _ (by omega) (Or.inl (by simp)) b1)
    rw [top_next hne e2, b2, top_read v r hr f _ (by omega)]
    simp [Mems.nodes]
  | .inc b g fn a is r =>
    have hne : skip (Mems.inc b g fn a is r).file ≠ [] := by
      obtain ⟨c, q, he, -⟩ := file_first h (by simp) [] []
      rw [List.append_nil] at he
      rw [Mems.file, he]; simp
    have hid : skip (skip (Mems.inc b g fn a is r).file) = skip (Mems.inc b g fn a is r).file := by
      obtain ⟨c, q, he, hc, -⟩ := file_first h (by simp) [] []
      rw [List.append_nil] at he
      rw [Mems.file, he, skip_skip_of he hc]
    unfold Mems.Ok at h
    unfold Mems.size at hf
    obtain ⟨hb, hg, hfn, ha, hrn', hr, hl, hfile, hin, hfl, hio⟩ := h
    obtain ⟨f, rfl⟩ : ∃ f, fuel = f + 1 + 1 := ⟨fuel - 2, by omega⟩
    obtain ⟨b1, b2⟩ := file_behind ha r (hrn' rfl)
    have e : skip (skip (Mems.inc b g fn a is r).file) = [105, 110, 99, 108, 117, 100, 101] ++ (g ++ (fn ++ (a ++ r.text [] []))) := by
      rw [hid]
      have : (Mems.inc b g fn a is r).file = b ++ ([105, 110, 99, 108, 117, 100, 101] ++ (g ++ (fn ++ (a ++ r.text [] [])))) := by simp [Mems.file, Mems.text]
      rw [this]
      exact skip_gap_head hb ⟨105, _, rfl, by decide, by decide⟩
    obtain ⟨c, q, he, hc, -⟩ := file_first hio hin [] []
    rw [List.append_nil, ← Mems.file] at he
    have e2 := item_include (v := v) (sl := true) (fuel := f) hg hfn hl hfile (file_ne hio hin) e b1 (items_read v is hio hfl f [] _ (by omega) hin
      (by rw [he]; simp) (by rw [he, skip_skip_of he hc]))
    rw [List.nil_append] at e2
    rw [top_next hne e2, b2, top_read v r hr (f + 1) _ (by omega)]
    simp [Mems.nodes]

theorem load_read (v : Env) {b g s : Bytes} {ms : Mems} (hb : Gap b) (h : (Val.obj g ms).Ok v) (hs : Stop s) (fuel : Nat) (hf : (Val.obj g ms).size ≤ fuel) :
    load v fuel (b ++ (Val.obj g ms).text ++ s) = some (some ((Val.obj g ms).node none)) := by
  have e : skip (b ++ (Val.obj g ms).text ++ s) = (Val.obj g ms).text ++ s := by
    rw [List.append_assoc]
    exact skip_gap_head hb (val_head h s)
  unfold load
  rw [e, if_pos (by rw [Val.text]; rfl)]
  have := val_read v (Val.obj g ms) h false fuel none s hf (Or.inr ⟨g, ms, rfl⟩) hs
  rw [show newNode = .mk .null none none [] from rfl, this]
  rfl

end Sis.Conf
