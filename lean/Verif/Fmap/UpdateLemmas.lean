import Verif.Fmap.QueryTheorems
/- Helper lemmas for the theorems on updates. -/
namespace Sis.Fmap

variable {α : Type}

/-- Inserting `r` at position `k`. -/
def insAt (l : List α) (k : Nat) (r : α) : List α := l.take k ++ r :: l.drop k

theorem insAt_length (l : List α) (k : Nat) (r : α) : (insAt l k r).length = l.length + 1 := by
  simp [insAt]; omega

theorem insAt_end (l : List α) (r : α) : insAt l l.length r = l ++ [r] := by simp [insAt]

theorem keyOf_last (ts : α → Nat) (l : List α) (r : α) : keyOf ts (l ++ [r]) (((l ++ [r]).length : Int) - 1) = ts r := by
  rw [keyOf_get ts _ (by simp) (by simp; omega)]
  simp

theorem keyOf_last_insAt (ts : α → Nat) (l : List α) {k : Nat} (r : α) (h : k < l.length) :
    keyOf ts (insAt l k r) (((insAt l k r).length : Int) - 1) = keyOf ts l ((l.length : Int) - 1) := by
  have e := insAt_length l k r
  rw [keyOf_get ts _ (by omega) (by omega), keyOf_get ts _ (by omega) (by omega)]
  congr 1
  unfold insAt
  rw [List.getElem_append_right (by simp; omega), List.getElem_cons]
  have : ¬ (((((List.take k l ++ r :: List.drop k l).length : Int) - 1).toNat - (List.take k l).length) = 0) := by
    simp; omega
  simp only [this, dif_neg, not_false_eq_true]
  rw [List.getElem_drop]
  congr 1
  simp; omega

/-- Where `mindex_update` puts a record. -/
def mindexPos (ts : α → Nat) (l : List α) (x : Nat) : Nat :=
  let a := lo ts l x
  let b := hi ts l x
  if b = l.length then b else if a = b then a else if b = 1 ∨ x = 0 then b else b - 1

theorem mindexPos_bounds (ts : α → Nat) (l : List α) (x : Nat) :
    lo ts l x ≤ mindexPos ts l x ∧ mindexPos ts l x ≤ hi ts l x := by
  have := lo_le_hi ts l (Nat.le_refl x)
  unfold mindexPos
  simp only
  repeat' split
  all_goals omega

theorem hi_eq_length {ts : α → Nat} {l : List α} (hs : Sorted ts l) (h0 : 0 < l.length) (x : Nat) :
    hi ts l x = l.length ↔ keyOf ts l ((l.length : Int) - 1) ≤ x := by
  rw [keyOf_get ts l (by omega) (by omega), le_hi hs]
  have := hi_le ts l x
  omega

theorem mindexOne_spec {ts : α → Nat} {l : List α} (hs : Sorted ts l) (h0 : 0 < l.length) {hint : Int}
    (hh : 0 ≤ hint ∧ hint < l.length) (r : α) :
    (mindexOne ts l (keyOf ts l ((l.length : Int) - 1)) hint r).1 = insAt l (mindexPos ts l (ts r)) r ∧
    (mindexOne ts l (keyOf ts l ((l.length : Int) - 1)) hint r).2 =
      keyOf ts (insAt l (mindexPos ts l (ts r)) r) (((insAt l (mindexPos ts l (ts r)) r).length : Int) - 1) := by
  have e1 := lo_le_hi ts l (Nat.le_refl (ts r))
  have e2 := hi_le ts l (ts r)
  have e3 := hi_eq_length hs h0 (ts r)
  have hft := findTail_spec (split_of_sorted hs (ts r)) hint hh.1 hh.2
  have hpos := mindexPos_bounds ts l (ts r)
  have app : mindexPos ts l (ts r) = l.length →
      (l ++ [r], ts r) = (insAt l (mindexPos ts l (ts r)) r,
        keyOf ts (insAt l (mindexPos ts l (ts r)) r) (((insAt l (mindexPos ts l (ts r)) r).length : Int) - 1)) := by
    intro h
    rw [h, insAt_end, keyOf_last]
  have ins : mindexPos ts l (ts r) < l.length →
      (slInsert l (mindexPos ts l (ts r)) r, keyOf ts l ((l.length : Int) - 1)) = (insAt l (mindexPos ts l (ts r)) r,
        keyOf ts (insAt l (mindexPos ts l (ts r)) r) (((insAt l (mindexPos ts l (ts r)) r).length : Int) - 1)) := by
    intro h
    rw [keyOf_last_insAt ts l r h, slInsert_mid l _ r h]; rfl
  suffices h : mindexOne ts l (keyOf ts l ((l.length : Int) - 1)) hint r = (insAt l (mindexPos ts l (ts r)) r,
        keyOf ts (insAt l (mindexPos ts l (ts r)) r) (((insAt l (mindexPos ts l (ts r)) r).length : Int) - 1)) by
    rw [h]; exact ⟨rfl, rfl⟩
  unfold mindexOne
  simp only
  by_cases hge : keyOf ts l ((l.length : Int) - 1) ≤ ts r
  · rw [if_pos hge]
    apply app
    unfold mindexPos
    simp only
    rw [if_pos (e3.2 hge), e3.2 hge]
  · have hlt : hi ts l (ts r) < l.length := by
      have : ¬ hi ts l (ts r) = l.length := fun h => hge (e3.1 h)
      omega
    rw [if_neg hge, hft]
    unfold tailPos
    by_cases hab : lo ts l (ts r) < hi ts l (ts r)
    · rw [if_pos (show (lo ts l (ts r) : Int) < hi ts l (ts r) by omega), if_neg (show ¬ (hi ts l (ts r) : Int) = l.length by omega)]
      rw [if_neg (by omega), if_neg (by omega)]
      have hk : keyOf ts l 0 = ts r ↔ lo ts l (ts r) = 0 := by
        have hz := split_of_sorted hs (ts r)
        have := hz.tri (i := 0) (by omega) (by omega)
        constructor
        · intro h; omega
        · intro h; omega
      by_cases hp : hi ts l (ts r) = 1 ∨ ts r = 0
      · have hl0 : lo ts l (ts r) = 0 := by
          rcases hp with hp | hp
          · omega
          · unfold lo; rw [hp]; simp
        have hpos' : mindexPos ts l (ts r) = hi ts l (ts r) := by
          unfold mindexPos
          simp only
          rw [if_neg (by omega), if_neg (by omega), if_pos hp]
        have hfind : (if (hi ts l (ts r) : Int) - 1 = 0 then keyOf ts l 0 else 0) = ts r := by
          by_cases h1 : hi ts l (ts r) = 1
          · rw [if_pos (by omega)]; exact hk.2 hl0
          · rw [if_neg (by omega)]; omega
        rw [hfind, if_pos rfl, if_neg (by omega)]
        rw [← ins (by omega), hpos', show (hi ts l (ts r) : Int) - 1 + 1 = hi ts l (ts r) by omega]
      · have hpos' : mindexPos ts l (ts r) = hi ts l (ts r) - 1 := by
          unfold mindexPos
          simp only
          rw [if_neg (by omega), if_neg (by omega), if_neg hp]
        rw [if_neg (show ¬ (hi ts l (ts r) : Int) - 1 = 0 by omega), if_neg (by omega)]
        rw [← ins (by omega), hpos', show (hi ts l (ts r) : Int) - 1 = (hi ts l (ts r) - 1 : Nat) by omega]
    · have hpos' : mindexPos ts l (ts r) = lo ts l (ts r) := by omega
      rw [if_neg (show ¬ (lo ts l (ts r) : Int) < hi ts l (ts r) by omega)]
      by_cases hl0 : lo ts l (ts r) = 0
      · rw [if_pos (show (lo ts l (ts r) : Int) = 0 by omega), if_neg (by omega), if_pos (by omega)]
        rw [← ins (by omega), hpos', hl0]; rfl
      · rw [if_neg (show ¬ (lo ts l (ts r) : Int) = 0 by omega), if_neg (show ¬ (lo ts l (ts r) : Int) = l.length by omega),
          if_neg (by omega), if_neg (by omega), if_neg (show ¬ (lo ts l (ts r) : Int) = 0 by omega)]
        have hpos2 : 0 < ts r := by
          have := (lt_lo hs (x := ts r) (i := 0) h0).2 (by omega)
          omega
        rw [if_neg (by omega), ← ins (by omega), hpos']

theorem insAt_sorted {ts : α → Nat} {l : List α} (hs : Sorted ts l) (r : α) : Sorted ts (insAt l (mindexPos ts l (ts r)) r) :=
  insert_sorted hs r (mindexPos_bounds ts l (ts r)).1 (mindexPos_bounds ts l (ts r)).2

/-- What a batch does to the records. -/
def mindexRecs (ts : α → Nat) (l : List α) : List α → List α
  | [] => l
  | r :: rest => mindexRecs ts (insAt l (mindexPos ts l (ts r)) r) rest

theorem mindexLoop_recs (T : Table α) (g : Goto) (batch : List α) : ∀ (u : Unit α) (sidx : Int), Sorted T.ts u.recs →
    0 < u.recs.length →
    (mindexLoop T g u (keyOf T.ts u.recs ((u.recs.length : Int) - 1)) sidx batch).recs = mindexRecs T.ts u.recs batch := by
  induction batch with
  | nil => intros; rfl
  | cons r rest ih =>
    intro u sidx hs h0
    have hsp := mindexOne_spec hs h0 (hint_inside g u (T.ts r) h0) r
    unfold mindexLoop
    simp only
    rw [hsp.1, hsp.2]
    have := ih { u with recs := insAt u.recs (mindexPos T.ts u.recs (T.ts r)) r
                        fidxs := (addIdx u.fidxs sidx (T.sign (T.ts r))).1 } (addIdx u.fidxs sidx (T.sign (T.ts r))).2
      (insAt_sorted hs r) (by simp only [insAt_length]; omega)
    exact this

theorem mindexRecs_sorted (ts : α → Nat) (batch : List α) : ∀ l, Sorted ts l → Sorted ts (mindexRecs ts l batch) := by
  induction batch with
  | nil => intro l h; exact h
  | cons r rest ih => intro l h; exact ih _ (insAt_sorted h r)

theorem mindexRecs_perm (ts : α → Nat) (batch : List α) : ∀ l, (mindexRecs ts l batch).Perm (l ++ batch) := by
  induction batch with
  | nil => intro l; simp [mindexRecs]
  | cons r rest ih =>
    intro l
    refine (ih _).trans ?_
    have h1 : (insAt l (mindexPos ts l (ts r)) r).Perm (l ++ [r]) := insert_perm l _ r
    have := h1.append_right rest
    simpa using this

theorem mindexUpdate_recs (T : Table α) (g : Goto) (u : Unit α) (hs : Sorted T.ts u.recs) (h0 : 0 < u.recs.length) (batch : List α) :
    (mindexUpdate T g u batch).recs = mindexRecs T.ts u.recs batch :=
  mindexLoop_recs T g batch u (-1) hs h0

theorem sdbUpdate_recs (T : Table α) (g : Goto) (u : Unit α) (hs : Sorted T.ts u.recs) (batch : List α) :
    (sdbUpdate T false g u batch).recs = if u.recs.length < 1 then batch else mindexRecs T.ts u.recs batch := by
  unfold sdbUpdate
  by_cases h : u.recs.length < 1
  · rw [if_pos h, if_pos h]
    have : u.recs = [] := List.eq_nil_of_length_eq_zero (by omega)
    simp [Unit.reidx, this]
  · rw [if_neg h, if_neg h]
    simp only [Bool.false_eq_true, if_false, Unit.reidx]
    exact mindexUpdate_recs T g u hs (by omega) batch

/-! ### unique tables -/

/-- The same main index and the same unique fields. -/
def sameKey (T : Table α) (a b : α) : Bool := decide (T.ts a = T.ts b) && decide (T.uniq a = T.uniq b)

theorem solelyLoop_none (T : Table α) (l : List α) (r : α) (index : Int) (i : Int) (h : i < 0) :
    solelyLoop T l r index i = (vlistAdd l r (index + 1), true) := by
  unfold solelyLoop; rw [if_neg (by omega)]

/-- Scanning down through the records at the timestamp of `r`. -/
theorem solelyLoop_run {T : Table α} {l : List α} (hs : Sorted T.ts l) (r : α) (index : Int) :
    ∀ (n : Nat), n ≤ hi T.ts l (T.ts r) → lo T.ts l (T.ts r) ≤ n → 
    (∃ j : Nat, ∃ hj : j < l.length, lo T.ts l (T.ts r) ≤ j ∧ j < n ∧ T.ts l[j] = T.ts r ∧ T.uniq r = T.uniq l[j] ∧
      solelyLoop T l r index ((n : Int) - 1) = (l.set j r, false)) ∨
    ((∀ j : Nat, ∀ hj : j < l.length, lo T.ts l (T.ts r) ≤ j → j < n → T.uniq r ≠ T.uniq l[j]) ∧
      solelyLoop T l r index ((n : Int) - 1) =
        (vlistAdd l r (if lo T.ts l (T.ts r) = 0 then index + 1 else index), true)) := by
  intro n
  induction n with
  | zero =>
    intro h1 h2
    right
    refine ⟨by intro j hj a b; omega, ?_⟩
    rw [solelyLoop_none T l r index _ (by omega), if_pos (by omega)]
  | succ n ih =>
    intro h1 h2
    have hlen := hi_le T.ts l (T.ts r)
    have hn : n < l.length := by omega
    have hle := (le_hi hs (x := T.ts r) hn).2 (by omega)
    by_cases hlo : n < lo T.ts l (T.ts r)
    · right
      refine ⟨by intro j hj a b; omega, ?_⟩
      unfold solelyLoop
      rw [if_pos (by omega), show (((n + 1 : Nat) : Int) - 1).toNat = n by omega, List.getElem?_eq_getElem hn]
      simp only
      rw [if_pos ((lt_lo hs hn).2 hlo), if_neg (by omega)]
    · have hge := lt_lo hs (x := T.ts r) hn
      have hts : T.ts l[n] = T.ts r := by omega
      have step : solelyLoop T l r index (((n + 1 : Nat) : Int) - 1) =
          if T.uniq r = T.uniq l[n] then (l.set n r, false) else solelyLoop T l r index ((n : Int) - 1) := by
        conv => lhs; unfold solelyLoop
        rw [if_pos (by omega), show (((n + 1 : Nat) : Int) - 1).toNat = n by omega, List.getElem?_eq_getElem hn]
        simp only
        rw [if_neg (by omega)]
        congr 1
        · unfold slUpdate; rw [if_pos (by omega)]; simp
        · congr 1; omega
      rw [step]
      by_cases hu : T.uniq r = T.uniq l[n]
      · left
        exact ⟨n, hn, by omega, by omega, hts, hu, by rw [if_pos hu]⟩
      · rw [if_neg hu]
        rcases ih (by omega) (by omega) with ⟨j, hj, a, b, c, d, e⟩ | ⟨a, b⟩
        · left; exact ⟨j, hj, a, by omega, c, d, e⟩
        · right
          refine ⟨?_, b⟩
          intro j hj x y
          by_cases hjn : j = n
          · subst hjn; exact hu
          · exact a j hj x (by omega)

theorem vlistAdd_nat (l : List α) (r : α) (k : Nat) : vlistAdd l r k = insAt l (min k l.length) r := by
  unfold vlistAdd
  rw [if_neg (by omega)]
  by_cases h : k < l.length
  · rw [if_neg (by omega), slInsert_mid l k r h, Nat.min_eq_left (by omega)]; rfl
  · rw [if_pos (by omega), Nat.min_eq_right (by omega), insAt_end]

/-- What `_fmap_unit_solely_update` does at the position found by `find_tail`: replace a record with the same main index
and unique fields; or overwrite the next later record if it has the same unique fields; or insert. -/
theorem solelyOne_spec {T : Table α} {l : List α} (hs : Sorted T.ts l) (h0 : 0 < l.length) {hint : Int}
    (hh : 0 ≤ hint ∧ hint < l.length) (r : α) :
    (∃ j : Nat, ∃ hj : j < l.length, T.ts l[j] = T.ts r ∧ T.uniq r = T.uniq l[j] ∧
      solelyOne T l r (findTail (keyOf T.ts l) l.length hint (T.ts r)) = (l.set j r, false)) ∨
    ((∀ v ∈ l, T.ts v = T.ts r → T.uniq r ≠ T.uniq v) ∧
      (∃ hj : lo T.ts l (T.ts r) < l.length, 0 < lo T.ts l (T.ts r) ∧ lo T.ts l (T.ts r) = hi T.ts l (T.ts r) ∧
        T.uniq r = T.uniq l[lo T.ts l (T.ts r)] ∧
        solelyOne T l r (findTail (keyOf T.ts l) l.length hint (T.ts r)) = (l.set (lo T.ts l (T.ts r)) r, false))) ∨
    ((∀ v ∈ l, T.ts v = T.ts r → T.uniq r ≠ T.uniq v) ∧
      ∃ k, lo T.ts l (T.ts r) ≤ k ∧ k ≤ hi T.ts l (T.ts r) ∧
        solelyOne T l r (findTail (keyOf T.ts l) l.length hint (T.ts r)) = (insAt l k r, true)) := by
  have e1 := lo_le_hi T.ts l (Nat.le_refl (T.ts r))
  have e2 := hi_le T.ts l (T.ts r)
  rw [findTail_spec (split_of_sorted hs (T.ts r)) hint hh.1 hh.2]
  have nomatch_of : (∀ j : Nat, ∀ hj : j < l.length, lo T.ts l (T.ts r) ≤ j → j < hi T.ts l (T.ts r) → T.uniq r ≠ T.uniq l[j]) →
      ∀ v ∈ l, T.ts v = T.ts r → T.uniq r ≠ T.uniq v := by
    intro h v hv hvt
    obtain ⟨j, hj, rfl⟩ := List.getElem_of_mem hv
    have a := lt_lo hs (x := T.ts r) hj
    have b := le_hi hs (x := T.ts r) hj
    exact h j hj (by omega) (by omega)
  unfold tailPos
  by_cases hab : lo T.ts l (T.ts r) < hi T.ts l (T.ts r)
  · rw [if_pos (by omega)]
    by_cases hc : hi T.ts l (T.ts r) = l.length
    · rw [if_pos (by omega)]
      unfold solelyOne
      rw [if_neg (by omega), show min (l.length : Int) ((l.length : Int) - 1) = ((hi T.ts l (T.ts r) : Nat) : Int) - 1 by omega]
      rcases solelyLoop_run hs r (l.length : Int) (hi T.ts l (T.ts r)) (by omega) (by omega) with ⟨j, hj, a, b, c, d, e⟩ | ⟨a, b⟩
      · left; exact ⟨j, hj, c, d, e⟩
      · right; right
        refine ⟨nomatch_of a, l.length, by omega, by omega, ?_⟩
        rw [b]
        split
        · rw [show (l.length : Int) + 1 = ((l.length + 1 : Nat) : Int) by omega, vlistAdd_nat, Nat.min_eq_right (by omega)]
        · rw [vlistAdd_nat, Nat.min_self]
    · rw [if_neg (by omega)]
      unfold solelyOne
      rw [if_neg (by omega), show min ((hi T.ts l (T.ts r) : Int) - 1) ((l.length : Int) - 1) = ((hi T.ts l (T.ts r) : Nat) : Int) - 1 by omega]
      rcases solelyLoop_run hs r ((hi T.ts l (T.ts r) : Int) - 1) (hi T.ts l (T.ts r)) (by omega) (by omega) with ⟨j, hj, a, b, c, d, e⟩ | ⟨a, b⟩
      · left; exact ⟨j, hj, c, d, e⟩
      · right; right
        rw [b]
        by_cases hz : lo T.ts l (T.ts r) = 0
        · refine ⟨nomatch_of a, hi T.ts l (T.ts r), by omega, by omega, ?_⟩
          rw [if_pos hz, show (hi T.ts l (T.ts r) : Int) - 1 + 1 = ((hi T.ts l (T.ts r) : Nat) : Int) by omega, vlistAdd_nat,
            Nat.min_eq_left (by omega)]
        · refine ⟨nomatch_of a, hi T.ts l (T.ts r) - 1, by omega, by omega, ?_⟩
          rw [if_neg hz, show (hi T.ts l (T.ts r) : Int) - 1 = ((hi T.ts l (T.ts r) - 1 : Nat) : Int) by omega, vlistAdd_nat,
            Nat.min_eq_left (by omega)]
  · rw [if_neg (by omega)]
    have hnm : ∀ v ∈ l, T.ts v = T.ts r → T.uniq r ≠ T.uniq v := nomatch_of (by intro j hj a b; omega)
    by_cases hz : lo T.ts l (T.ts r) = 0
    · rw [if_pos (by omega)]
      right; right
      refine ⟨hnm, 0, by omega, by omega, ?_⟩
      unfold solelyOne
      rw [if_pos (by omega)]
      have : vlistAdd l r (-1) = insAt l 0 r := by
        unfold vlistAdd; rw [if_pos (by omega)]; exact slInsert_mid l 0 r h0
      rw [this]
    · rw [if_neg (by omega)]
      by_cases hc : lo T.ts l (T.ts r) = l.length
      · rw [if_pos (by omega)]
        right; right
        refine ⟨hnm, l.length, by omega, by omega, ?_⟩
        unfold solelyOne
        rw [if_neg (by omega), show min (l.length : Int) ((l.length : Int) - 1) = ((hi T.ts l (T.ts r) : Nat) : Int) - 1 by omega]
        rcases solelyLoop_run hs r (l.length : Int) (hi T.ts l (T.ts r)) (by omega) (by omega) with ⟨j, hj, a, b, c, d, e⟩ | ⟨a, b⟩
        · omega
        · rw [b, if_neg hz, vlistAdd_nat, Nat.min_self]
      · rw [if_neg (by omega)]
        have hj : lo T.ts l (T.ts r) < l.length := by omega
        have hgt : T.ts r < T.ts l[lo T.ts l (T.ts r)] := by
          have := le_hi hs (x := T.ts r) hj
          omega
        have step : solelyOne T l r (lo T.ts l (T.ts r)) = if T.uniq r = T.uniq l[lo T.ts l (T.ts r)] then
            (l.set (lo T.ts l (T.ts r)) r, false) else solelyLoop T l r (lo T.ts l (T.ts r)) (((lo T.ts l (T.ts r) : Nat) : Int) - 1) := by
          unfold solelyOne
          rw [if_neg (by omega), show min (lo T.ts l (T.ts r) : Int) ((l.length : Int) - 1) = lo T.ts l (T.ts r) by omega]
          conv => lhs; unfold solelyLoop
          rw [if_pos (by omega), Int.toNat_natCast, List.getElem?_eq_getElem hj]
          simp only
          rw [if_neg (by omega)]
          congr 1
          · unfold slUpdate; rw [if_pos (by omega)]; simp
        rw [step]
        by_cases hu : T.uniq r = T.uniq l[lo T.ts l (T.ts r)]
        · rw [if_pos hu]
          right; left
          exact ⟨hnm, hj, by omega, by omega, hu, rfl⟩
        · rw [if_neg hu]
          right; right
          refine ⟨hnm, lo T.ts l (T.ts r), by omega, by omega, ?_⟩
          rcases solelyLoop_run hs r (lo T.ts l (T.ts r) : Int) (lo T.ts l (T.ts r)) (by omega) (by omega) with ⟨j, hj, a, b, c, d, e⟩ | ⟨a, b⟩
          · omega
          · rw [b, if_neg hz, vlistAdd_nat, Nat.min_eq_left (by omega)]

theorem set_sorted {ts : α → Nat} {l : List α} (hs : Sorted ts l) {j : Nat} (hj : j < l.length) (r : α) (h : ts l[j] = ts r) :
    Sorted ts (l.set j r) := by
  unfold Sorted
  have hm : (l.set j r).map ts = l.map ts := by
    rw [List.map_set, ← h]
    apply List.ext_getElem (by simp)
    intro i h1 h2
    rw [List.getElem_set]
    split
    · rename_i e; subst e; simp
    · rfl
  have h1 : (l.map ts).Pairwise (· ≤ ·) := by rw [List.pairwise_map]; exact hs
  rw [← hm, List.pairwise_map] at h1
  exact h1

theorem set_eq_insAt_tail (l : List α) {j : Nat} (hj : j < l.length) (r : α) :
    l.set j r = l.take j ++ r :: l.drop (j + 1) := by
  rw [List.set_eq_take_append_cons_drop, if_pos hj]

end Sis.Fmap
