import Verif.Fmap.StoreLemmas
/-
Property theorems on queries and deletes of a time series (C11, C12, C16).  The specification is in
`Verif/Fmap/Spec.lean`; `Goto` ranges over every interpolation function that stays inside the list.
-/
namespace Sis.Fmap

variable {α : Type}

/-! ### helpers -/

theorem hint_inside (g : Goto) (u : Unit α) (x : Nat) (h : 0 < u.recs.length) :
    0 ≤ u.hint g x ∧ u.hint g x < u.recs.length := g.inside _ _ _ _ _ (by omega)

theorem select_where (T : Table α) (g : Goto) (u : Unit α) (hs : Sorted T.ts u.recs) (t : Nat) (h : 0 < u.recs.length) :
    select T g u (.whereTs t 0) = sameRes u.recs.length (lo T.ts u.recs t) (hi T.ts u.recs t) := by
  have := hint_inside g u t h
  unfold select cmpWhere
  simp only [if_true]
  exact cmpSame_spec (split_of_sorted hs t) _ this.1 this.2

theorem startTs_key (ts : α → Nat) (l : List α) (a : Int) (h : 0 < l.length) :
    (if a ≤ -1 then keyOf ts l (max 0 ((l.length : Int) + a)) else a.toNat) = startTs ts l a := by
  unfold startTs
  by_cases ha : a < 0
  · rw [if_pos (by omega), if_pos ha, keyOf_get ts l (by omega) (by omega)]
    rw [List.head?_drop, List.getElem?_eq_getElem (by omega)]
    simp only [Option.map_some, Option.getD_some]
    congr 2
    omega
  · rw [if_neg (by omega), if_neg ha]

theorem stopTs_key (ts : α → Nat) (l : List α) (a b : Int) (h : 0 < l.length) :
    (if b ≤ -1 then keyOf ts l ((l.length : Int) - 1) else if b = 0 then startTs ts l a else b.toNat) = stopTs ts l a b := by
  unfold stopTs
  by_cases hb : b < 0
  · rw [if_pos (by omega), if_pos hb, keyOf_get ts l (by omega) (by omega)]
    rw [List.getLast?_eq_getElem?, List.getElem?_eq_getElem (by omega)]
    simp only [Option.map_some, Option.getD_some]
    congr 2
    omega
  · rw [if_neg (by omega), if_neg hb]

theorem select_range (T : Table α) (g : Goto) (u : Unit α) (hs : Sorted T.ts u.recs) (a b : Int) (p : Bool) (h : 0 < u.recs.length) :
    select T g u (.range a b p) =
      (let s := startTs T.ts u.recs a
       let e := stopTs T.ts u.recs a b
       let f : Int := if p ∧ ((lo T.ts u.recs s : Int)) = hi T.ts u.recs s ∧ (0 : Int) < lo T.ts u.recs s
         then lo T.ts u.recs s - 1 else lo T.ts u.recs s
       if f < hi T.ts u.recs e then (f, ⟨f, hi T.ts u.recs e - f⟩) else (-1, ⟨-1, 0⟩)) := by
  unfold select
  have h1 := split_of_sorted hs (if a ≤ -1 then keyOf T.ts u.recs (max 0 ((u.recs.length : Int) + a)) else a.toNat)
  have h2 := split_of_sorted hs (if b ≤ -1 then keyOf T.ts u.recs ((u.recs.length : Int) - 1)
      else if b = 0 then (if a ≤ -1 then keyOf T.ts u.recs (max 0 ((u.recs.length : Int) + a)) else a.toNat) else b.toNat)
  have := cmpRange_spec (hc := by omega) a b p (u.hint g) (fun y => hint_inside g u y h) h1 h2
  simp only
  rw [this]
  simp only [startTs_key T.ts u.recs a h, stopTs_key T.ts u.recs a b h]

theorem tsdbRead_empty (T : Table α) (g : Goto) (u : Unit α) (q : Query) (h : u.recs.length = 0)
    (hq : ∀ t k, q = .whereTs t k → k ≤ 0) : tsdbRead T g u q = (0, []) := by
  unfold tsdbRead
  have : (select T g u q).1 < 0 ∨ (select T g u q).1 = 0 := by
    unfold select
    cases q with
    | whereTs t k =>
      have hk := hq t k rfl
      have e : u.hint g t = -1 := g.empty _ _ _ _ _ (by omega)
      simp only [cmpWhere, cmpSame, e, h]
      by_cases hk0 : k = 0
      · simp [hk0]
      · simp [hk0, show k < 0 by omega, offsetPrev, show 0 < -k by omega]
    | range a b p => simp [cmpRange, h]
  rcases this with h1 | h1
  · rw [if_pos h1]
  · exfalso
    unfold select at h1
    cases q with
    | whereTs t k =>
      have hk := hq t k rfl
      have e : u.hint g t = -1 := g.empty _ _ _ _ _ (by omega)
      simp only [cmpWhere, cmpSame, e, h] at h1
      by_cases hk0 : k = 0
      · simp [hk0] at h1
      · simp [hk0, show k < 0 by omega, offsetPrev, show 0 < -k by omega] at h1
    | range a b p => simp [cmpRange, h] at h1

theorem tsdbRead_hit (T : Table α) (g : Goto) (u : Unit α) (q : Query) {v f n : Int} (h : select T g u q = (v, ⟨f, n⟩))
    (hv : 0 ≤ v) (hf : 0 ≤ f) (hn : 0 < n) : tsdbRead T g u q = (n, (u.recs.drop f.toNat).take n.toNat) := by
  unfold tsdbRead
  rw [h]
  simp only
  rw [if_neg (by omega), if_pos (by omega)]

theorem tsdbRead_miss (T : Table α) (g : Goto) (u : Unit α) (q : Query) {v : Int} {c : Cmp} (h : select T g u q = (v, c))
    (hv : v < 0) : tsdbRead T g u q = (0, []) := by
  unfold tsdbRead
  rw [h]
  simp only
  rw [if_pos hv]

/-! ### C11 -/

/-- **C11** A `where` query returns exactly the records with the given timestamp, in order, and their number; (0, none)
when there is none; whatever position the interpolation starts from. -/
theorem C11_where_returns_exactly_the_matches (T : Table α) (g : Goto) (u : Unit α) (hs : Sorted T.ts u.recs) (t : Nat) :
    tsdbRead T g u (.whereTs t 0) = (((recordsAt T.ts u.recs t).length : Int), recordsAt T.ts u.recs t) := by
  by_cases h : 0 < u.recs.length
  · have hsel := select_where T g u hs t h
    rw [recordsAt_seg hs, seg_length _ (hi_le _ _ _)]
    have e1 := lo_le_hi T.ts u.recs (Nat.le_refl t)
    unfold sameRes at hsel
    by_cases hlt : lo T.ts u.recs t < hi T.ts u.recs t
    · rw [if_pos (by omega)] at hsel
      rw [tsdbRead_hit T g u _ hsel (by omega) (by omega) (by omega)]
      unfold seg
      congr 1
      · omega
      · congr 1; omega
    · rw [if_neg (by omega)] at hsel
      rw [tsdbRead_miss T g u _ hsel (by omega), seg_nil _ (by omega)]
      congr 1; omega
  · have h0 : u.recs.length = 0 := by omega
    rw [tsdbRead_empty T g u _ h0 (by intro t k hq; cases hq; omega)]
    have : u.recs = [] := List.eq_nil_of_length_eq_zero h0
    simp [this, recordsAt]

/-- **C11** At the level of the comparison function: no match is reported as a negative result exactly when no record
has the timestamp. -/
theorem C11_no_match_iff (T : Table α) (g : Goto) (u : Unit α) (hs : Sorted T.ts u.recs) (t : Nat) :
    (select T g u (.whereTs t 0)).1 < 0 ↔ ∀ r ∈ u.recs, T.ts r ≠ t := by
  have key : recordsAt T.ts u.recs t = [] ↔ ∀ r ∈ u.recs, T.ts r ≠ t := by
    unfold recordsAt; rw [List.filter_eq_nil_iff]; simp
  rw [← key]
  by_cases h : 0 < u.recs.length
  · rw [select_where T g u hs t h, recordsAt_seg hs]
    have e1 := lo_le_hi T.ts u.recs (Nat.le_refl t)
    have e2 := seg_length u.recs (a := lo T.ts u.recs t) (hi_le T.ts u.recs t)
    unfold sameRes
    by_cases hlt : lo T.ts u.recs t < hi T.ts u.recs t
    · rw [if_pos (by omega)]
      constructor
      · intro hh; simp only at hh; omega
      · intro hh; rw [hh] at e2; simp at e2; omega
    · rw [if_neg (by omega), seg_nil _ (by omega)]
      simp
  · have h0 : u.recs.length = 0 := by omega
    have h1 : u.recs = [] := List.eq_nil_of_length_eq_zero h0
    have e : u.hint g t = -1 := g.empty _ _ _ _ _ (by omega)
    simp [select, cmpWhere, cmpSame, e, h1, recordsAt]

/-- **C11** A `where` query with a backward offset of `k > 0` records returns the single record that stands `k` records
before the first record not earlier than `t`, and nothing when fewer than `k` records are earlier. -/
theorem C11_where_with_offset (T : Table α) (g : Goto) (u : Unit α) (hs : Sorted T.ts u.recs) (t k : Nat) (hk : 0 < k) :
    tsdbRead T g u (.whereTs t (-k)) =
      (if k ≤ (recordsBefore T.ts u.recs t).length then
        (1, ((recordsBefore T.ts u.recs t).reverse[k - 1]?).toList) else (0, [])) := by
  by_cases h : 0 < u.recs.length
  · have hsel : select T g u (.whereTs t (-k)) =
        offsetPrev (-k) 1 (sameRes u.recs.length (lo T.ts u.recs t) (hi T.ts u.recs t)).2 := by
      have := hint_inside g u t h
      unfold select cmpWhere
      simp only
      rw [if_neg (by omega), if_pos (by omega), cmpSame_spec (split_of_sorted hs t) _ this.1 this.2]
    have e1 := lo_le_hi T.ts u.recs (Nat.le_refl t)
    have e3 := lo_le T.ts u.recs t
    have e2 : (recordsBefore T.ts u.recs t).length = lo T.ts u.recs t := by
      rw [filter_lt hs]; simp; omega
    rw [e2]
    have hoi : (sameRes u.recs.length (lo T.ts u.recs t) (hi T.ts u.recs t)).2.oindex =
          (if (lo T.ts u.recs t : Int) < hi T.ts u.recs t ∨ 0 < lo T.ts u.recs t then (lo T.ts u.recs t : Int) else -1) ∧
        0 ≤ (sameRes u.recs.length (lo T.ts u.recs t) (hi T.ts u.recs t)).2.ocount := by
      unfold sameRes
      by_cases hlt : (lo T.ts u.recs t : Int) < hi T.ts u.recs t
      · rw [if_pos hlt, if_pos (.inl hlt)]; exact ⟨rfl, by simp only; omega⟩
      · rw [if_neg hlt]
        simp only
        by_cases hl0 : 0 < lo T.ts u.recs t
        · rw [if_neg (by omega), if_pos (.inr hl0)]; exact ⟨rfl, by omega⟩
        · rw [if_pos (by omega), if_neg (by omega)]; exact ⟨rfl, by omega⟩
    generalize (sameRes u.recs.length (lo T.ts u.recs t) (hi T.ts u.recs t)).2 = c at hoi hsel
    unfold offsetPrev at hsel
    by_cases hkl : k ≤ lo T.ts u.recs t
    · rw [if_pos hkl]
      rw [if_pos (.inr (by omega))] at hoi
      rw [if_neg (by omega)] at hsel
      simp only at hsel
      have m1 : min (-1 * -(k : Int)) c.oindex = k := by omega
      have m2 : min (c.ocount + k) 1 = 1 := by omega
      rw [m1, m2] at hsel
      rw [tsdbRead_hit T g u _ hsel (by omega) (by omega) (by omega)]
      have hget : (recordsBefore T.ts u.recs t).reverse[k - 1]? = u.recs[lo T.ts u.recs t - k]? := by
        rw [List.getElem?_reverse (by omega), e2, filter_lt hs, List.getElem?_take, if_pos (by omega)]
        congr 1; omega
      rw [hget, show (c.oindex - k).toNat = lo T.ts u.recs t - k by omega]
      rw [List.getElem?_eq_getElem (by omega)]
      congr 1
      rw [show (1 : Int).toNat = 1 from rfl, List.drop_eq_getElem_cons (by omega)]
      rfl
    · rw [if_neg hkl]
      rw [if_pos (by rw [hoi.1]; split <;> omega)] at hsel
      rw [tsdbRead_miss T g u _ hsel (by omega)]
  · have h0 : u.recs.length = 0 := by omega
    rw [tsdbRead_empty T g u _ h0 (by intro t k hq; cases hq; omega)]
    have : u.recs = [] := List.eq_nil_of_length_eq_zero h0
    simp [this, recordsBefore]; omega

/-- A table of (timestamp, value) records used in the examples. -/
def exTable : Table (Nat × Nat) := ⟨fun r => r.1, fun r => [r.2], fun t => (t / 100 : Nat)⟩
def exUnit : Unit (Nat × Nat) := ⟨[(100, 1), (100, 2), (205, 3), (205, 4), (205, 5), (300, 6)], [], 100, 300, 33⟩

example : Sorted exTable.ts exUnit.recs := by unfold Sorted exTable exUnit; decide
example : (tsdbRead exTable .interp exUnit (.whereTs 205 0)) = (3, [(205, 3), (205, 4), (205, 5)]) := by decide +kernel
example : (tsdbRead exTable .interp exUnit (.whereTs 300 (-2))) = (1, [(205, 4)]) := by decide +kernel

/-! ### C12 -/

theorem getLast_take {l : List α} {k : Nat} (h : k ≤ l.length) (h0 : 0 < k) : (l.take k).getLast?.toList = seg l (k - 1) k := by
  rw [List.getLast?_eq_getElem?, List.length_take, Nat.min_eq_left h, List.getElem?_take, if_pos (by omega),
    List.getElem?_eq_getElem (by omega)]
  unfold seg
  rw [List.drop_eq_getElem_cons (by omega), show k - (k - 1) = 1 by omega]
  rfl

theorem seg_cons_seg (l : List α) {k m : Nat} (h0 : 0 < k) (h1 : k ≤ m) (h2 : m ≤ l.length) :
    seg l (k - 1) k ++ seg l k m = seg l (k - 1) m := by
  unfold seg
  rw [show k - (k - 1) = 1 by omega, show m - (k - 1) = (m - k) + 1 by omega]
  rw [List.drop_eq_getElem_cons (i := k - 1) (by omega), show k - 1 + 1 = k by omega]
  rfl

/-- **C12** A range query returns exactly the records of the range (with `ifprev` preceded by the last record before the
start when there is none at the start), in order, and their number, whatever position the interpolation starts from.
Without `ifprev` this holds for every start and stop; with it for start ≤ stop. -/
theorem C12_range_returns_exactly_the_range (T : Table α) (g : Goto) (u : Unit α) (hs : Sorted T.ts u.recs) (a b : Int)
    (p : Bool) (hp : p = true → startTs T.ts u.recs a ≤ stopTs T.ts u.recs a b) :
    tsdbRead T g u (.range a b p) =
      (((rangeSpec T.ts u.recs a b p).length : Int), rangeSpec T.ts u.recs a b p) := by
  by_cases h : 0 < u.recs.length
  · have hspec : rangeSpec T.ts u.recs a b p =
        (let s := startTs T.ts u.recs a
         let e := stopTs T.ts u.recs a b
         seg u.recs (if p ∧ lo T.ts u.recs s = hi T.ts u.recs s ∧ 0 < lo T.ts u.recs s then lo T.ts u.recs s - 1
           else lo T.ts u.recs s) (hi T.ts u.recs e)) := by
      unfold rangeSpec
      simp only
      rw [recordsIn_seg hs]
      generalize startTs T.ts u.recs a = s at *
      generalize stopTs T.ts u.recs a b = e at *
      have l1 := lo_le_hi T.ts u.recs (Nat.le_refl s)
      have l2 := hi_le T.ts u.recs s
      have l3 := seg_length u.recs (a := lo T.ts u.recs s) l2
      rw [recordsAt_seg hs, filter_lt hs]
      cases p with
      | false => simp
      | true =>
        have hse := hp rfl
        by_cases hnil : lo T.ts u.recs s = hi T.ts u.recs s
        · rw [if_pos ⟨rfl, seg_nil _ (by omega)⟩]
          by_cases h0 : 0 < lo T.ts u.recs s
          · rw [if_pos ⟨rfl, hnil, h0⟩, getLast_take (lo_le _ _ _) h0]
            exact seg_cons_seg _ h0 (lo_le_hi _ _ hse) (hi_le _ _ _)
          · rw [if_neg (by omega), show lo T.ts u.recs s = 0 by omega]
            simp
        · rw [if_neg, if_neg (by omega)]
          · simp
          · intro ⟨_, hh⟩
            rw [hh] at l3; simp at l3; omega
    rw [hspec]
    have hsel := select_range T g u hs a b p h
    simp only at hsel ⊢
    generalize startTs T.ts u.recs a = s at *
    generalize stopTs T.ts u.recs a b = e at *
    rw [seg_length _ (hi_le _ _ _)]
    have hf : (if p = true ∧ ((lo T.ts u.recs s : Int)) = hi T.ts u.recs s ∧ (0 : Int) < lo T.ts u.recs s
         then (lo T.ts u.recs s : Int) - 1 else lo T.ts u.recs s) =
         ((if p = true ∧ lo T.ts u.recs s = hi T.ts u.recs s ∧ 0 < lo T.ts u.recs s then lo T.ts u.recs s - 1
           else lo T.ts u.recs s : Nat) : Int) := by
      by_cases hc : p = true ∧ lo T.ts u.recs s = hi T.ts u.recs s ∧ 0 < lo T.ts u.recs s
      · rw [if_pos hc, if_pos ⟨hc.1, by omega, by omega⟩]; omega
      · rw [if_neg hc, if_neg]
        intro hh
        exact hc ⟨hh.1, by omega, by omega⟩
    rw [hf] at hsel
    generalize (if p = true ∧ lo T.ts u.recs s = hi T.ts u.recs s ∧ 0 < lo T.ts u.recs s then lo T.ts u.recs s - 1
           else lo T.ts u.recs s) = f at hsel ⊢
    by_cases hlt : f < hi T.ts u.recs e
    · rw [if_pos (by omega)] at hsel
      rw [tsdbRead_hit T g u _ hsel (by omega) (by omega) (by omega)]
      unfold seg
      congr 1
      · omega
      · congr 1; omega
    · rw [if_neg (by omega)] at hsel
      rw [tsdbRead_miss T g u _ hsel (by omega), seg_nil _ (by omega)]
      congr 1; omega
  · have h0 : u.recs.length = 0 := by omega
    rw [tsdbRead_empty T g u _ h0 (by intro t k hq; cases hq)]
    have : u.recs = [] := List.eq_nil_of_length_eq_zero h0
    simp [this, rangeSpec, recordsIn, recordsBefore]

/-- **C12** For plain timestamps the specification is the obvious filter. -/
theorem C12_range_of_timestamps (T : Table α) (g : Goto) (u : Unit α) (hs : Sorted T.ts u.recs) (a b : Nat) (hb : 0 < b) :
    (tsdbRead T g u (.range a b false)).2 = u.recs.filter (fun r => decide (a ≤ T.ts r) && decide (T.ts r ≤ b)) := by
  rw [C12_range_returns_exactly_the_range T g u hs a b false (by simp)]
  have h1 : startTs T.ts u.recs a = a := by unfold startTs; rw [if_neg (by omega)]; simp
  have h2 : stopTs T.ts u.recs a b = b := by unfold stopTs; rw [if_neg (by omega), if_neg (by omega)]; simp
  simp [rangeSpec, h1, h2, recordsIn]

example : tsdbRead exTable .interp exUnit (.range 150 250 true) = (4, [(100, 2), (205, 3), (205, 4), (205, 5)]) := by
  decide +kernel
example : tsdbRead exTable .interp exUnit (.range (-2) (-1) false) = (4, [(205, 3), (205, 4), (205, 5), (300, 6)]) := by
  decide +kernel

/-! ### C16 -/

theorem tsdbDel_hit (T : Table α) (g : Goto) (u : Unit α) (q : Query) {v : Int} {f n : Nat}
    (hsel : select T g u q.forDel = (v, ⟨f, n⟩)) (hv : 0 ≤ v) (hn : 0 < n) (hfn : f + n ≤ u.recs.length) :
    (tsdbDel T g u q).1 = n ∧ (tsdbDel T g u q).2.recs = u.recs.take f ++ u.recs.drop (f + n) := by
  unfold tsdbDel
  simp only
  rw [hsel]
  simp only
  rw [if_neg (by omega), if_pos (by omega)]
  refine ⟨rfl, ?_⟩
  simp only [Unit.reidx, slDelete]
  rw [if_neg (by omega)]
  congr 1

theorem tsdbDel_miss (T : Table α) (g : Goto) (u : Unit α) (q : Query) {v : Int} {c : Cmp}
    (hsel : select T g u q.forDel = (v, c)) (hv : v < 0) : tsdbDel T g u q = (0, u) := by
  unfold tsdbDel
  simp only
  rw [hsel]
  simp only
  rw [if_pos hv]

/-- **C16** Deleting by exact timestamp removes exactly the records with that timestamp, keeps the order of all others
and returns the number removed. -/
theorem C16_delete_where (T : Table α) (g : Goto) (u : Unit α) (hs : Sorted T.ts u.recs) (t : Nat) (k : Int) :
    (tsdbDel T g u (.whereTs t k)).1 = (recordsAt T.ts u.recs t).length ∧
    (tsdbDel T g u (.whereTs t k)).2.recs = u.recs.filter (fun r => decide (T.ts r ≠ t)) := by
  have hout : u.recs.filter (fun r => decide (T.ts r ≠ t)) =
      u.recs.take (lo T.ts u.recs t) ++ u.recs.drop (hi T.ts u.recs t) := by
    rw [← filter_out hs (show t ≤ t + 1 by omega)]
    apply List.filter_congr
    intro r _
    by_cases h : T.ts r = t
    · simp [h]
    · simp [h]; omega
  have e1 := lo_le_hi T.ts u.recs (Nat.le_refl t)
  have e2 := hi_le T.ts u.recs t
  rw [hout, recordsAt_seg hs, seg_length _ e2]
  by_cases h : 0 < u.recs.length
  · have hsel := select_where T g u hs t h
    unfold sameRes at hsel
    by_cases hlt : lo T.ts u.recs t < hi T.ts u.recs t
    · rw [if_pos (by omega), show (hi T.ts u.recs t : Int) - lo T.ts u.recs t = (hi T.ts u.recs t - lo T.ts u.recs t : Nat) by omega] at hsel
      have := tsdbDel_hit T g u (.whereTs t k) hsel (by omega) (by omega) (by omega)
      rw [show lo T.ts u.recs t + (hi T.ts u.recs t - lo T.ts u.recs t) = hi T.ts u.recs t by omega] at this
      exact this
    · rw [if_neg (by omega)] at hsel
      rw [tsdbDel_miss T g u (.whereTs t k) hsel (by omega), show hi T.ts u.recs t = lo T.ts u.recs t by omega, List.take_append_drop]
      simp
  · have h0 : u.recs.length = 0 := by omega
    have h1 : u.recs = [] := List.eq_nil_of_length_eq_zero h0
    have e : u.hint g t = -1 := g.empty _ _ _ _ _ (by omega)
    have z1 : lo T.ts u.recs t = 0 := by simp [h1, lo]
    have z2 : hi T.ts u.recs t = 0 := by simp [h1, hi]
    rw [z1, z2]
    simp [tsdbDel, Query.forDel, select, cmpWhere, cmpSame, e, h1]

/-- **C16** Deleting a range removes exactly the records of the range, keeps the order of all others and returns the
number removed. -/
theorem C16_delete_range (T : Table α) (g : Goto) (u : Unit α) (hs : Sorted T.ts u.recs) (a b : Int) (p : Bool) :
    (tsdbDel T g u (.range a b p)).1 = (rangeSpec T.ts u.recs a b false).length ∧
    (tsdbDel T g u (.range a b p)).2.recs =
      u.recs.filter (fun r => !(decide (startTs T.ts u.recs a ≤ T.ts r) && decide (T.ts r ≤ stopTs T.ts u.recs a b))) := by
  have hspec : rangeSpec T.ts u.recs a b false = recordsIn T.ts u.recs (startTs T.ts u.recs a) (stopTs T.ts u.recs a b) := by
    simp [rangeSpec]
  rw [hspec]
  by_cases h : 0 < u.recs.length
  · have hsel := select_range T g u hs a b false h
    simp only [Bool.false_eq_true, false_and, if_false] at hsel
    generalize startTs T.ts u.recs a = s at *
    generalize stopTs T.ts u.recs a b = e at *
    rw [recordsIn_seg hs, seg_length _ (hi_le _ _ _)]
    have e2 := hi_le T.ts u.recs e
    by_cases hlt : lo T.ts u.recs s < hi T.ts u.recs e
    · have hse : s ≤ e + 1 := by
        apply Decidable.byContradiction
        intro hn
        have := hi_le_lo T.ts u.recs (show e < s by omega)
        omega
      rw [filter_out hs hse]
      rw [if_pos (by omega)] at hsel
      rw [show (hi T.ts u.recs e : Int) - lo T.ts u.recs s = (hi T.ts u.recs e - lo T.ts u.recs s : Nat) by omega] at hsel
      have := tsdbDel_hit T g u (.range a b p) hsel (by omega) (by omega) (by omega)
      rw [show lo T.ts u.recs s + (hi T.ts u.recs e - lo T.ts u.recs s) = hi T.ts u.recs e by omega] at this
      exact this
    · rw [if_neg (by omega)] at hsel
      have hall : u.recs.filter (fun r => !(decide (s ≤ T.ts r) && decide (T.ts r ≤ e))) = u.recs := by
        rw [List.filter_eq_self]
        intro r hr
        have hin : recordsIn T.ts u.recs s e = [] := by rw [recordsIn_seg hs, seg_nil _ (by omega)]
        unfold recordsIn at hin
        rw [List.filter_eq_nil_iff] at hin
        have := hin r hr
        simp at this ⊢
        omega
      rw [hall, tsdbDel_miss T g u (.range a b p) hsel (by omega)]
      refine ⟨?_, rfl⟩
      rw [show hi T.ts u.recs e - lo T.ts u.recs s = 0 by omega]
      rfl
  · have h0 : u.recs.length = 0 := by omega
    have h1 : u.recs = [] := List.eq_nil_of_length_eq_zero h0
    simp [tsdbDel, Query.forDel, select, cmpRange, h1, recordsIn]

/-- **C16** The records removed are those the query with the same bounds returns. -/
theorem C16_delete_removes_what_read_returns (T : Table α) (g g' : Goto) (u : Unit α) (hs : Sorted T.ts u.recs) (a b : Int) (p : Bool) :
    (tsdbDel T g u (.range a b p)).1 = (tsdbRead T g' u (.range a b false)).1 ∧
    (tsdbDel T g u (.range a b p)).2.recs.length + (tsdbRead T g' u (.range a b false)).2.length = u.recs.length := by
  have h1 := C16_delete_range T g u hs a b p
  have h2 := C12_range_returns_exactly_the_range T g' u hs a b false (by simp)
  rw [h1.1, h1.2, h2]
  refine ⟨rfl, ?_⟩
  have : rangeSpec T.ts u.recs a b false = recordsIn T.ts u.recs (startTs T.ts u.recs a) (stopTs T.ts u.recs a b) := by
    simp [rangeSpec]
  simp only [this, recordsIn]
  rw [← List.countP_eq_length_filter, ← List.countP_eq_length_filter]
  have := List.length_eq_countP_add_countP (l := u.recs)
    (fun r => decide (startTs T.ts u.recs a ≤ T.ts r) && decide (T.ts r ≤ stopTs T.ts u.recs a b))
  rw [this, Nat.add_comm]
  congr 2
  funext r
  by_cases h1 : startTs T.ts u.recs a ≤ T.ts r <;> by_cases h2 : T.ts r ≤ stopTs T.ts u.recs a b <;> simp [h1, h2]

example : ((tsdbDel exTable .interp exUnit (.range 150 250 false)).1, (tsdbDel exTable .interp exUnit (.range 150 250 false)).2.recs) =
    (3, [(100, 1), (100, 2), (300, 6)]) := by decide +kernel

end Sis.Fmap
