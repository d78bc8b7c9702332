import Verif.Fmap.UpdateLemmas
/-
Property theorems on updates of a time series (C13, C14, C15) and on whole histories of updates and deletes.
-/
namespace Sis.Fmap

variable {α : Type}

/-! ### C13 -/

/-- **C13 (partial)** Updating a non-empty sorted series with any batch leaves it sorted, and it then holds exactly the
old records and those of the batch.  Missing: an update of an *empty* series stores the batch as it comes (see
`C13_violated_first_batch`). -/
theorem C13_update_keeps_sorted_and_loses_nothing_partial (T : Table α) (g : Goto) (u : Unit α) (hs : Sorted T.ts u.recs)
    (h0 : u.recs ≠ []) (batch : List α) :
    Sorted T.ts (sdbUpdate T false g u batch).recs ∧ (sdbUpdate T false g u batch).recs.Perm (u.recs ++ batch) := by
  have hl : ¬ u.recs.length < 1 := by
    have : u.recs.length ≠ 0 := fun h => h0 (List.eq_nil_of_length_eq_zero h)
    omega
  rw [sdbUpdate_recs T g u hs, if_neg hl]
  exact ⟨mindexRecs_sorted T.ts batch _ hs, mindexRecs_perm T.ts batch _⟩

/-- **C13 (partial)** The first batch of a series is handled correctly when it is sorted. -/
theorem C13_first_batch_partial (T : Table α) (g : Goto) (u : Unit α) (h0 : u.recs = []) (batch : List α) (hb : Sorted T.ts batch) :
    Sorted T.ts (sdbUpdate T false g u batch).recs ∧ (sdbUpdate T false g u batch).recs = batch := by
  have : (sdbUpdate T false g u batch).recs = batch := by
    simp [sdbUpdate, h0, Unit.reidx]
  rw [this]
  exact ⟨hb, rfl⟩

/-- **C13 violated** The first batch written to a series is stored in the order given: the series is then not sorted, and
a query for a timestamp that is stored finds nothing. -/
theorem C13_violated_first_batch :
    ∃ (u : Unit (Nat × Nat)) (batch : List (Nat × Nat)), Sorted exTable.ts u.recs ∧
      ¬ Sorted exTable.ts (sdbUpdate exTable false .interp u batch).recs ∧
      (100, 2) ∈ (sdbUpdate exTable false .interp u batch).recs ∧
      tsdbRead exTable .interp (sdbUpdate exTable false .interp u batch) (.whereTs 100 0) = (0, []) := by
  refine ⟨⟨[], [], 0, 0, 0⟩, [(200, 1), (100, 2)], List.Pairwise.nil, ?_, ?_, ?_⟩
  · unfold Sorted; decide +kernel
  · decide +kernel
  · decide +kernel

/-- The operations of a client on one series. -/
inductive Op (α : Type)
  | update (batch : List α)
  | delWhere (t : Nat)
  | delRange (a b : Nat)
  | remove

/-- One operation of the code. -/
def Op.run (T : Table α) (g : Goto) (u : Unit α) : Op α → Unit α
  | .update batch => sdbUpdate T false g u batch
  | .delWhere t => (tsdbDel T g u (.whereTs t 0)).2
  | .delRange a b => (tsdbDel T g u (.range a b false)).2
  | .remove => tsdbRemove u

/-- What the operation means on the bag of records stored. -/
def Op.spec (T : Table α) (l : List α) : Op α → List α
  | .update batch => l ++ batch
  | .delWhere t => l.filter fun r => decide (T.ts r ≠ t)
  | .delRange a b => l.filter fun r => !(decide (a ≤ T.ts r) && decide (T.ts r ≤ b))
  | .remove => []

/-- The operation is one the code handles when the stored records are `l`: a batch that arrives at an empty series is in
time order; ranges have a positive upper bound (0 and negative bounds have special meanings). -/
def Op.LegalAt (T : Table α) (l : List α) : Op α → Prop
  | .update batch => l = [] → Sorted T.ts batch
  | .delRange _ b => 0 < b
  | _ => True

/-- Every operation of the history is legal when it happens. -/
def LegalHist (T : Table α) : List α → List (Op α) → Prop
  | _, [] => True
  | l, o :: ops => o.LegalAt T l ∧ LegalHist T (o.spec T l) ops

theorem op_run (T : Table α) (g : Goto) (u : Unit α) (hs : Sorted T.ts u.recs) (o : Op α) (ho : o.LegalAt T u.recs) :
    Sorted T.ts (o.run T g u).recs ∧ (o.run T g u).recs.Perm (o.spec T u.recs) := by
  cases o with
  | update batch =>
    by_cases h0 : u.recs = []
    · have := C13_first_batch_partial T g u h0 batch (ho h0)
      refine ⟨this.1, ?_⟩
      simp only [Op.run, Op.spec]
      rw [this.2, h0]; exact List.Perm.refl _
    · exact C13_update_keeps_sorted_and_loses_nothing_partial T g u hs h0 batch
  | delWhere t =>
    have := (C16_delete_where T g u hs t 0).2
    simp only [Op.run, Op.spec]
    rw [this]
    exact ⟨List.Pairwise.filter _ hs, List.Perm.refl _⟩
  | delRange a b =>
    have hb : 0 < b := ho
    have := (C16_delete_range T g u hs a b false).2
    have h1 : startTs T.ts u.recs a = a := by unfold startTs; rw [if_neg (by omega)]; simp
    have h2 : stopTs T.ts u.recs a b = b := by unfold stopTs; rw [if_neg (by omega), if_neg (by omega)]; simp
    rw [h1, h2] at this
    simp only [Op.run, Op.spec]
    rw [this]
    exact ⟨List.Pairwise.filter _ hs, List.Perm.refl _⟩
  | remove => exact ⟨List.Pairwise.nil, List.Perm.refl _⟩

theorem spec_perm (T : Table α) (o : Op α) {l l' : List α} (h : l.Perm l') : (o.spec T l).Perm (o.spec T l') := by
  cases o with
  | update batch => exact h.append_right _
  | delWhere t => exact h.filter _
  | delRange a b => exact h.filter _
  | remove => exact List.Perm.refl _

/-- **C13, C16 over histories (partial)** Starting from an empty series, after any sequence of updates and deletes the
series is sorted and holds exactly the records the sequence of operations leaves, none lost, none duplicated.  Missing:
a batch that meets an empty series must be sorted (`LegalHist`). -/
theorem C13_history_partial (T : Table α) (g : Goto) (ops : List (Op α)) (hops : LegalHist T [] ops) (u : Unit α) (hu : u.recs = []) :
    Sorted T.ts (ops.foldl (fun u o => o.run T g u) u).recs ∧
    (ops.foldl (fun u o => o.run T g u) u).recs.Perm (ops.foldl (fun l o => o.spec T l) []) := by
  suffices h : ∀ (ops : List (Op α)) (u : Unit α) (l : List α), LegalHist T l ops → Sorted T.ts u.recs → u.recs.Perm l →
      Sorted T.ts (ops.foldl (fun u o => o.run T g u) u).recs ∧
      (ops.foldl (fun u o => o.run T g u) u).recs.Perm (ops.foldl (fun l o => o.spec T l) l) from
    h ops u [] hops (by rw [hu]; exact List.Pairwise.nil) (by rw [hu])
  intro ops
  induction ops with
  | nil => intro u l _ hs hp; exact ⟨hs, hp⟩
  | cons o ops ih =>
    intro u l hops hs hp
    have hl : o.LegalAt T u.recs := by
      have := hops.1
      cases o with
      | update batch =>
        intro h0
        rw [h0] at hp
        exact this hp.symm.eq_nil
      | delWhere t => trivial
      | delRange a b => exact this
      | remove => trivial
    have := op_run T g u hs o hl
    exact ih _ _ hops.2 this.1 (this.2.trans (spec_perm T o hp))

/-- **C12, C13 end to end (partial)** After any such history a range query yields, in time order, exactly the records of
the range that the history left stored. -/
theorem C13_query_after_history_partial (T : Table α) (g : Goto) (ops : List (Op α)) (hops : LegalHist T [] ops)
    (u : Unit α) (hu : u.recs = []) (a b : Nat) (hb : 0 < b) :
    (tsdbRead T g (ops.foldl (fun u o => o.run T g u) u) (.range a b false)).2.Perm
      (recordsIn T.ts (ops.foldl (fun l o => o.spec T l) []) a b) ∧
    Sorted T.ts (tsdbRead T g (ops.foldl (fun u o => o.run T g u) u) (.range a b false)).2 := by
  have h := C13_history_partial T g ops hops u hu
  rw [C12_range_of_timestamps T g _ h.1 a b hb]
  exact ⟨h.2.filter _, List.Pairwise.filter _ h.1⟩

example : LegalHist exTable [] [.update [(100, 1), (300, 2)], .update [(200, 3), (100, 4)], .delWhere 300, .update [(150, 5)]] := by
  refine ⟨fun _ => ?_, fun h => ?_, trivial, fun h => ?_, trivial⟩
  · unfold Sorted exTable; decide
  · exact absurd h (by decide)
  · exact absurd h (by decide)

example : (([Op.update [(100, 1), (300, 2)], .update [(200, 3), (100, 4)], .delWhere 300, .update [(150, 5)]] :
    List (Op (Nat × Nat))).foldl (fun (u : Unit (Nat × Nat)) o => o.run exTable .interp u) ⟨[], [], 0, 0, 0⟩).recs =
    [(100, 1), (100, 4), (150, 5), (200, 3)] := by decide +kernel

/-! ### C14 -/

/-- **C14 (partial)** A record is stored behind all records with the same timestamp if it is not earlier than the last
record, or no stored record has its timestamp, or only the first record of the series has it.  In the remaining case
(see `C14_violated`) it is stored before the last record with its timestamp. -/
theorem C14_arrival_order_partial (T : Table α) (g : Goto) (u : Unit α) (hs : Sorted T.ts u.recs) (h0 : u.recs ≠ []) (r : α)
    (hr : (∀ v ∈ u.recs, T.ts v ≤ T.ts r) ∨ (∀ v ∈ u.recs, T.ts v ≠ T.ts r) ∨
      (recordsBefore T.ts u.recs (T.ts r) = [] ∧ (recordsAt T.ts u.recs (T.ts r)).length = 1)) :
    (sdbUpdate T false g u [r]).recs =
      u.recs.filter (fun v => decide (T.ts v ≤ T.ts r)) ++ r :: u.recs.filter (fun v => !decide (T.ts v ≤ T.ts r)) := by
  have hl : 0 < u.recs.length := List.length_pos_iff.2 h0
  rw [sdbUpdate_recs T g u hs, if_neg (by omega), filter_le hs, filter_gt hs]
  show insAt u.recs (mindexPos T.ts u.recs (T.ts r)) r = insAt u.recs (hi T.ts u.recs (T.ts r)) r
  congr 1
  have e := lo_le_hi T.ts u.recs (Nat.le_refl (T.ts r))
  have hat := recordsAt_seg hs (T.ts r)
  have hlen := seg_length u.recs (a := lo T.ts u.recs (T.ts r)) (hi_le T.ts u.recs (T.ts r))
  unfold mindexPos
  simp only
  rcases hr with h | h | ⟨h1, h2⟩
  · have : hi T.ts u.recs (T.ts r) = u.recs.length := by
      unfold hi; rw [List.countP_eq_length]; intro v hv; simpa using h v hv
    rw [if_pos this]
  · have : recordsAt T.ts u.recs (T.ts r) = [] := by
      unfold recordsAt; rw [List.filter_eq_nil_iff]; intro v hv; simpa using h v hv
    rw [← hat, this] at hlen
    simp at hlen
    rw [if_pos (show lo T.ts u.recs (T.ts r) = hi T.ts u.recs (T.ts r) by omega)]
    split <;> omega
  · rw [filter_lt hs] at h1
    have h3 := congrArg List.length h1
    have h4 := lo_le T.ts u.recs (T.ts r)
    simp at h3
    rw [hat] at h2
    have : hi T.ts u.recs (T.ts r) = 1 := by
      rcases h3 with h3 | h3
      · omega
      · exact absurd h3 h0
    repeat' split
    all_goals omega

/-- **C14 (partial)** If all records arrive in time order, they are stored exactly in arrival order. -/
theorem C14_in_order_arrival_partial (T : Table α) (g : Goto) (u : Unit α) (batch : List α) (h : Sorted T.ts (u.recs ++ batch)) :
    (sdbUpdate T false g u batch).recs = u.recs ++ batch := by
  have hs : Sorted T.ts u.recs := (List.pairwise_append.1 h).1
  rw [sdbUpdate_recs T g u hs]
  by_cases h0 : u.recs.length < 1
  · rw [if_pos h0, List.eq_nil_of_length_eq_zero (show u.recs.length = 0 by omega)]; rfl
  · rw [if_neg h0]
    clear h0 hs
    generalize u.recs = l at h
    induction batch generalizing l with
    | nil => simp [mindexRecs]
    | cons r rest ih =>
      have h1 : ∀ v ∈ l, T.ts v ≤ T.ts r := fun v hv => (List.pairwise_append.1 h).2.2 v hv r (by simp)
      have : hi T.ts l (T.ts r) = l.length := by
        unfold hi; rw [List.countP_eq_length]; intro v hv; simpa using h1 v hv
      have hp : mindexPos T.ts l (T.ts r) = l.length := by
        unfold mindexPos; simp only; rw [if_pos this, this]
      unfold mindexRecs
      rw [hp, insAt_end, ih (l ++ [r]) (by simpa using h)]
      simp

/-- **C14 violated** A late record is stored before an earlier one with the same timestamp. -/
theorem C14_violated :
    ∃ (u : Unit (Nat × Nat)), Sorted exTable.ts u.recs ∧ (5, 1) ∈ u.recs ∧
      recordsAt exTable.ts (sdbUpdate exTable false .interp u [(5, 7)]).recs 5 = [(5, 7), (5, 1)] := by
  refine ⟨⟨[(1, 0), (5, 1), (9, 2)], [], 1, 9, 2⟩, ?_, ?_, ?_⟩
  · unfold Sorted exTable; decide
  · decide
  · decide +kernel

/-! ### C15 -/

/-- At most one record per main index and unique fields. -/
def KeyUnique (T : Table α) (l : List α) : Prop := l.Pairwise fun a b => sameKey T a b = false

theorem sameKey_iff (T : Table α) (a b : α) : sameKey T a b = true ↔ T.ts a = T.ts b ∧ T.uniq a = T.uniq b := by
  simp [sameKey]

theorem sameKey_false (T : Table α) (a b : α) : sameKey T a b = false ↔ ¬ (T.ts a = T.ts b ∧ T.uniq a = T.uniq b) := by
  rw [← sameKey_iff]; simp

theorem sameKey_not (T : Table α) (a b : α) : (!sameKey T a b) = true ↔ ¬ (T.ts a = T.ts b ∧ T.uniq a = T.uniq b) := by
  rw [← sameKey_iff]; simp

theorem keyUnique_symm (T : Table α) {l l' : List α} (h : l.Perm l') (hu : KeyUnique T l) : KeyUnique T l' := by
  refine (List.Perm.pairwise_iff ?_ h).1 hu
  intro a b hab
  rw [sameKey_false] at *
  exact fun h => hab ⟨h.1.symm, h.2.symm⟩

/-- What one record does to the stored records of a unique-key table: the same-key record, if any, goes, the new comes. -/
def upsertSpec (T : Table α) (l : List α) (r : α) : List α := r :: l.filter fun v => !sameKey T v r

theorem upsert_unique (T : Table α) (l : List α) (r : α) (h : KeyUnique T l) : KeyUnique T (upsertSpec T l r) := by
  unfold upsertSpec KeyUnique
  rw [List.pairwise_cons]
  refine ⟨?_, List.Pairwise.filter _ h⟩
  intro v hv
  rw [List.mem_filter] at hv
  have := (sameKey_not T v r).1 hv.2
  rw [sameKey_false]
  exact fun h => this ⟨h.1.symm, h.2.symm⟩

/-- The records of a unique-key table after one record (the loop body of `solely_update`). -/
theorem solely_one_upsert (T : Table α) (l : List α) (hs : Sorted T.ts l) (hu : KeyUnique T l) (h0 : 0 < l.length) {hint : Int}
    (hh : 0 ≤ hint ∧ hint < l.length) (r : α)
    (hnext : ∀ v, (l.filter fun v => decide (T.ts r < T.ts v)).head? = some v → T.uniq v ≠ T.uniq r) :
    Sorted T.ts (solelyOne T l r (findTail (keyOf T.ts l) l.length hint (T.ts r))).1 ∧
    (solelyOne T l r (findTail (keyOf T.ts l) l.length hint (T.ts r))).1.Perm (upsertSpec T l r) := by
  rcases solelyOne_spec hs h0 hh r with ⟨j, hj, h1, h2, h3⟩ | ⟨_, hj, h1, h2, h3, _⟩ | ⟨h1, k, h2, h3, h4⟩
  · rw [h3]
    refine ⟨set_sorted hs hj r h1, ?_⟩
    simp only
    rw [set_eq_insAt_tail l hj]
    refine List.perm_middle.trans ?_
    unfold upsertSpec
    refine List.Perm.cons r ?_
    have hsplit : l = l.take j ++ l[j] :: l.drop (j + 1) := by
      rw [List.getElem_cons_drop, List.take_append_drop]
    have hkeep : l.filter (fun v => !sameKey T v r) = l.take j ++ l.drop (j + 1) := by
      have hu' := hu
      unfold KeyUnique at hu'
      rw [hsplit, List.pairwise_append, List.pairwise_cons] at hu'
      conv => lhs; rw [hsplit]
      rw [List.filter_append, List.filter_cons_of_neg (by simp [sameKey, h1, h2])]
      congr 1
      · rw [List.filter_eq_self]
        intro v hv
        have := hu'.2.2 v hv l[j] List.mem_cons_self
        rw [sameKey_false] at this
        rw [sameKey_not]
        exact fun h => this ⟨h.1.trans h1.symm, h.2.trans h2⟩
      · rw [List.filter_eq_self]
        intro v hv
        have := hu'.2.1.1 v hv
        rw [sameKey_false] at this
        rw [sameKey_not]
        exact fun h => this ⟨h1.trans h.1.symm, h2.symm.trans h.2.symm⟩
    rw [hkeep]
  · exfalso
    refine hnext l[lo T.ts l (T.ts r)] ?_ h3.symm
    have : l.filter (fun v => decide (T.ts r < T.ts v)) = l.drop (hi T.ts l (T.ts r)) := by
      rw [← filter_gt hs]
      apply List.filter_congr
      intro v _
      by_cases h : T.ts v ≤ T.ts r
      · simp [h]
      · simp [h]; omega
    rw [this, ← h2, List.head?_drop, List.getElem?_eq_getElem hj]
  · rw [h4]
    refine ⟨insert_sorted hs r h2 h3, ?_⟩
    have hkeep : l.filter (fun v => !sameKey T v r) = l := by
      rw [List.filter_eq_self]
      intro v hv
      rw [sameKey_not]
      exact fun h => h1 v hv h.1 h.2.symm
    unfold upsertSpec
    rw [hkeep]
    exact (insert_perm l k r).trans (List.perm_append_singleton r l)

/-- **C15 (partial)** Writing a record to a non-empty unique-key table keeps the series sorted, keeps at most one record per
key, and changes nothing else: the stored records are afterwards exactly the new record and those with another key.
Hypothesis `hnext` excludes the case that the code gets wrong: the first later record has the same unique fields (see
`C15_violated`).  Also missing: the first batch of an empty series is stored unchecked. -/
theorem C15_unique_upsert_partial (T : Table α) (g : Goto) (u : Unit α) (hs : Sorted T.ts u.recs) (hu : KeyUnique T u.recs)
    (h0 : u.recs ≠ []) (r : α)
    (hnext : ∀ v, (u.recs.filter fun v => decide (T.ts r < T.ts v)).head? = some v → T.uniq v ≠ T.uniq r) :
    Sorted T.ts (sdbUpdate T true g u [r]).recs ∧ KeyUnique T (sdbUpdate T true g u [r]).recs ∧
    (sdbUpdate T true g u [r]).recs.Perm (upsertSpec T u.recs r) := by
  have hl : 0 < u.recs.length := List.length_pos_iff.2 h0
  have e : (sdbUpdate T true g u [r]).recs =
      (solelyOne T u.recs r (findTail (keyOf T.ts u.recs) u.recs.length (u.hint g (T.ts r)) (T.ts r))).1 := by
    unfold sdbUpdate
    rw [if_neg (by omega)]
    rfl
  have h := solely_one_upsert T u.recs hs hu hl (hint_inside g u (T.ts r) hl) r hnext
  rw [e]
  exact ⟨h.1, keyUnique_symm T h.2.symm (upsert_unique T _ r hu), h.2⟩

theorem solelyUpdate_recs (T : Table α) (g : Goto) (f : List Nat → Nat) (hf : ∀ r, T.ts r = f (T.uniq r)) (batch : List α) :
    ∀ (u : Unit α) (sidx : Int), Sorted T.ts u.recs → KeyUnique T u.recs → 0 < u.recs.length →
    Sorted T.ts (solelyUpdate T g u sidx batch).recs ∧ KeyUnique T (solelyUpdate T g u sidx batch).recs ∧
    (solelyUpdate T g u sidx batch).recs.Perm (batch.foldl (upsertSpec T) u.recs) := by
  have fold_perm : ∀ (batch : List α) (l l' : List α), l.Perm l' → (batch.foldl (upsertSpec T) l).Perm (batch.foldl (upsertSpec T) l') := by
    intro batch
    induction batch with
    | nil => intro l l' h; exact h
    | cons r rest ih => intro l l' h; exact ih _ _ (List.Perm.cons r (h.filter _))
  induction batch with
  | nil => intro u sidx hs hu h0; exact ⟨hs, hu, List.Perm.refl _⟩
  | cons r rest ih =>
    intro u sidx hs hu h0
    have h := solely_one_upsert T u.recs hs hu h0 (hint_inside g u (T.ts r) h0) r (by
      intro v hv
      have hv := List.mem_of_mem_head? (Option.mem_def.2 hv)
      rw [List.mem_filter] at hv
      intro he
      have h1 := hf v
      have h2 := hf r
      rw [he, ← h2] at h1
      have := hv.2
      simp at this
      omega)
    unfold solelyUpdate
    simp only
    have hlen : 0 < (solelyOne T u.recs r (findTail (keyOf T.ts u.recs) u.recs.length (u.hint g (T.ts r)) (T.ts r))).1.length := by
      rw [h.2.length_eq]; simp [upsertSpec]
    have := ih { u with recs := (solelyOne T u.recs r (findTail (keyOf T.ts u.recs) u.recs.length (u.hint g (T.ts r)) (T.ts r))).1
                        fidxs := (if (solelyOne T u.recs r (findTail (keyOf T.ts u.recs) u.recs.length (u.hint g (T.ts r)) (T.ts r))).2 then addIdx u.fidxs sidx (T.sign (T.ts r)) else setIdx u.fidxs sidx (T.sign (T.ts r))).1 }
      (if (solelyOne T u.recs r (findTail (keyOf T.ts u.recs) u.recs.length (u.hint g (T.ts r)) (T.ts r))).2 then addIdx u.fidxs sidx (T.sign (T.ts r)) else setIdx u.fidxs sidx (T.sign (T.ts r))).2
      h.1 (keyUnique_symm T h.2.symm (upsert_unique T _ r hu)) hlen
    exact ⟨this.1, this.2.1, this.2.2.trans (fold_perm rest _ _ h.2)⟩

/-- **C15 (partial)** If the main index field is one of the unique fields, every batch written to a non-empty unique-key
table is handled record by record as an upsert. -/
theorem C15_unique_upsert_batch_partial (T : Table α) (g : Goto) (f : List Nat → Nat) (hf : ∀ r, T.ts r = f (T.uniq r))
    (u : Unit α) (hs : Sorted T.ts u.recs) (hu : KeyUnique T u.recs) (h0 : u.recs ≠ []) (batch : List α) :
    Sorted T.ts (sdbUpdate T true g u batch).recs ∧ KeyUnique T (sdbUpdate T true g u batch).recs ∧
    (sdbUpdate T true g u batch).recs.Perm (batch.foldl (upsertSpec T) u.recs) := by
  have hl : 0 < u.recs.length := List.length_pos_iff.2 h0
  unfold sdbUpdate
  rw [if_neg (by omega)]
  exact solelyUpdate_recs T g f hf batch u (-1) hs hu hl

/-- **C15 violated** A record with a new timestamp overwrites (and so loses) the next later record when that has the same
unique fields. -/
theorem C15_violated :
    ∃ (u : Unit (Nat × Nat)), Sorted exTable.ts u.recs ∧ KeyUnique exTable u.recs ∧ (9, 7) ∈ u.recs ∧
      (sdbUpdate exTable true .interp u [(5, 7)]).recs = [(1, 3), (5, 7)] := by
  refine ⟨⟨[(1, 3), (9, 7)], [], 1, 9, 4⟩, ?_, ?_, ?_, ?_⟩
  · unfold Sorted exTable; decide
  · unfold KeyUnique exTable; decide
  · decide
  · decide +kernel

/-- **C15** The series stays sorted also in the case that loses a record. -/
theorem C15_unique_keeps_sorted (T : Table α) (g : Goto) (u : Unit α) (hs : Sorted T.ts u.recs) (h0 : u.recs ≠ []) (r : α) :
    Sorted T.ts (sdbUpdate T true g u [r]).recs ∧
    ((sdbUpdate T true g u [r]).recs.length = u.recs.length ∨ (sdbUpdate T true g u [r]).recs.length = u.recs.length + 1) := by
  have hl : 0 < u.recs.length := List.length_pos_iff.2 h0
  have e : (sdbUpdate T true g u [r]).recs =
      (solelyOne T u.recs r (findTail (keyOf T.ts u.recs) u.recs.length (u.hint g (T.ts r)) (T.ts r))).1 := by
    unfold sdbUpdate
    rw [if_neg (by omega)]
    rfl
  rw [e]
  rcases solelyOne_spec hs hl (hint_inside g u (T.ts r) hl) r with ⟨j, hj, h1, h2, h3⟩ | ⟨_, hj, h1, h2, h3, h4⟩ | ⟨h1, k, h2, h3, h4⟩
  · rw [h3]; exact ⟨set_sorted hs hj r h1, .inl (by simp)⟩
  · rw [h4]
    refine ⟨?_, .inl (by simp)⟩
    simp only
    have hins := insert_sorted hs r (Nat.le_refl _) (lo_le_hi T.ts u.recs (Nat.le_refl _))
    rw [set_eq_insAt_tail u.recs hj]
    refine List.Pairwise.sublist ?_ hins
    refine List.Sublist.append_left (List.Sublist.cons_cons r ?_) _
    rw [← List.drop_drop]
    exact List.drop_sublist _ _
  · rw [h4]; exact ⟨insert_sorted hs r h2 h3, .inr (insAt_length _ _ _)⟩

example : (sdbUpdate exTable true .interp exUnit [(205, 4), (206, 9), (205, 8)]).recs =
    [(100, 1), (100, 2), (205, 3), (205, 4), (205, 8), (205, 5), (206, 9), (300, 6)] := by decide +kernel

/-! ### C59: unique-key table without a time field -/

/-- **C59** In a table without main index field, writing a record replaces the last record with the same unique fields in
place, or is appended when there is none; with at most one record per key this is an upsert. -/
theorem C59_upsert_without_time (T : Table α) (l : List α) (r : α) :
    ((∀ v ∈ l, T.uniq v ≠ T.uniq r) → solelyNoidx T l r = (l ++ [r], true)) ∧
    (∀ (a b : List α) (v : α), l = a ++ v :: b → T.uniq v = T.uniq r → (∀ w ∈ b, T.uniq w ≠ T.uniq r) →
      solelyNoidx T l r = (a ++ r :: b, false)) := by
  constructor
  · intro h
    unfold solelyNoidx
    have : l.reverse.findIdx? (fun v => decide (T.uniq r = T.uniq v)) = none := by
      rw [List.findIdx?_eq_none_iff]
      intro v hv
      have := h v (by simpa using hv)
      simp
      exact fun e => this e.symm
    rw [this]
  · intro a b v hl hv hb
    unfold solelyNoidx
    have : l.reverse.findIdx? (fun v => decide (T.uniq r = T.uniq v)) = some b.length := by
      rw [hl, List.findIdx?_eq_some_iff_getElem]
      refine ⟨by simp, ?_, ?_⟩
      · simp [hv]
      · intro j hj
        have hj' : j < b.length := hj
        have : ((a ++ v :: b).reverse)[j]'(by simp; omega) ∈ b := by
          have : ((a ++ v :: b).reverse)[j]'(by simp; omega) = b.reverse[j]'(by simpa using hj') := by
            simp only [List.reverse_append, List.reverse_cons, List.append_assoc]
            rw [List.getElem_append_left (by simpa using hj')]
          rw [this]
          have hm : b.reverse[j]'(by simpa using hj') ∈ b.reverse := List.getElem_mem _
          simpa using hm
        have := hb _ this
        simp only [decide_eq_true_eq]
        exact fun e => this e.symm
    rw [this]
    simp only
    congr 1
    rw [hl]
    have : (a ++ v :: b).length - 1 - b.length = a.length := by simp
    rw [this]
    simp

example : solelyNoidx exTable [(1, 5), (2, 6), (3, 7)] (9, 6) = ([(1, 5), (9, 6), (3, 7)], false) := by decide +kernel

end Sis.Fmap
