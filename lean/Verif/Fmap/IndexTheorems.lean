import Verif.Fmap.IndexLemmas
/-
Property theorems on the per-period index of a series (C17, C56) and on what a save writes (C57).
-/
namespace Sis.Fmap

variable {α : Type}

/-- Later records never belong to an earlier period. -/
def MonoPeriod (T : Table α) : Prop := ∀ a b, a ≤ b → T.sign a ≤ T.sign b

theorem periods_sorted {T : Table α} (hm : MonoPeriod T) {l : List α} (hs : Sorted T.ts l) : (periods T l).Pairwise (· ≤ ·) := by
  unfold periods
  rw [List.pairwise_map]
  exact hs.imp (fun h => hm _ _ h)

theorem periods_cut (T : Table α) (l : List α) (f n : Nat) :
    periods T (l.take f ++ l.drop (f + n)) = (periods T l).take f ++ (periods T l).drop (f + n) := by
  unfold periods; rw [List.map_append, List.map_take, List.map_drop]

theorem tsdbDel_fidxs (T : Table α) (g : Goto) (u : Unit α) (q : Query) {v : Int} {f n : Nat}
    (hsel : select T g u q.forDel = (v, ⟨f, n⟩)) (hv : 0 ≤ v) (hn : 0 < n) : (tsdbDel T g u q).2.fidxs = delIdx u.fidxs f n := by
  unfold tsdbDel
  simp only
  rw [hsel]
  simp only
  rw [if_neg (by omega), if_pos (by omega)]
  rfl

/-- A delete changes nothing, or cuts out the block of records the query with the same bounds returns. -/
theorem del_cases (T : Table α) (g : Goto) (u : Unit α) (hs : Sorted T.ts u.recs) (q : Query) :
    (tsdbDel T g u q).2 = u ∨ ∃ f n, 0 < n ∧ f + n ≤ u.recs.length ∧
      (tsdbRead T g u q.forDel).2 = (u.recs.drop f).take n ∧
      (tsdbDel T g u q).2.recs = u.recs.take f ++ u.recs.drop (f + n) ∧ (tsdbDel T g u q).2.fidxs = delIdx u.fidxs f n := by
  by_cases h : 0 < u.recs.length
  · have hcase : ∃ v c, select T g u q.forDel = (v, c) ∧ (v < 0 ∨ (0 ≤ v ∧ ∃ f n : Nat, c = ⟨f, n⟩ ∧ 0 < n ∧ f + n ≤ u.recs.length)) := by
      cases q with
      | whereTs t k =>
        have hsel : select T g u (Query.forDel (.whereTs t k)) = _ := select_where T g u hs t h
        have e1 := lo_le_hi T.ts u.recs (Nat.le_refl t)
        have e2 := hi_le T.ts u.recs t
        unfold sameRes at hsel
        by_cases hlt : (lo T.ts u.recs t : Int) < hi T.ts u.recs t
        · rw [if_pos hlt] at hsel
          refine ⟨_, _, hsel, .inr ⟨by omega, lo T.ts u.recs t, hi T.ts u.recs t - lo T.ts u.recs t, ?_, by omega, by omega⟩⟩
          congr 1
          omega
        · rw [if_neg hlt] at hsel
          exact ⟨_, _, hsel, .inl (by omega)⟩
      | range a b p =>
        have hsel : select T g u (Query.forDel (.range a b p)) = _ := select_range T g u hs a b false h
        simp only [Bool.false_eq_true, false_and, if_false] at hsel
        have e2 := hi_le T.ts u.recs (stopTs T.ts u.recs a b)
        by_cases hlt : (lo T.ts u.recs (startTs T.ts u.recs a) : Int) < hi T.ts u.recs (stopTs T.ts u.recs a b)
        · rw [if_pos hlt] at hsel
          refine ⟨_, _, hsel, .inr ⟨by omega, lo T.ts u.recs (startTs T.ts u.recs a),
            hi T.ts u.recs (stopTs T.ts u.recs a b) - lo T.ts u.recs (startTs T.ts u.recs a), ?_, by omega, by omega⟩⟩
          congr 1
          omega
        · rw [if_neg hlt] at hsel
          exact ⟨_, _, hsel, .inl (by omega)⟩
    obtain ⟨v, c, hsel, hv | ⟨hv, f, n, rfl, hn, hfn⟩⟩ := hcase
    · left; rw [tsdbDel_miss T g u q hsel hv]
    · right
      refine ⟨f, n, hn, hfn, ?_, (tsdbDel_hit T g u q hsel hv hn hfn).2, tsdbDel_fidxs T g u q hsel hv hn⟩
      rw [tsdbRead_hit T g u q.forDel hsel hv (by omega) (by omega)]
      rfl
  · have h1 : u.recs = [] := List.eq_nil_of_length_eq_zero (by omega)
    left
    cases q with
    | whereTs t k =>
      have e : u.hint g t = -1 := g.empty _ _ _ _ _ (by omega)
      simp [tsdbDel, Query.forDel, select, cmpWhere, cmpSame, e, h1]
    | range a b p => simp [tsdbDel, Query.forDel, select, cmpRange, h1]

/-! ### C17 -/

/-- **C17 (partial)** If the records a delete removes all belong to one period, the index describes the remaining records.
Missing: deletes that span periods without reaching the end of the series (`C17_violated`). -/
theorem C17_delete_in_one_period_partial (T : Table α) (hm : MonoPeriod T) (g : Goto) (u : Unit α) (hs : Sorted T.ts u.recs)
    (hi : IndexDescribes u.fidxs (periods T u.recs)) (q : Query) (p : Int)
    (hp : ∀ r ∈ (tsdbRead T g u q.forDel).2, T.sign (T.ts r) = p) :
    IndexDescribes (tsdbDel T g u q).2.fidxs (periods T (tsdbDel T g u q).2.recs) := by
  rcases del_cases T g u hs q with h | ⟨f, n, hn, hfn, hr, h1, h2⟩
  · rw [h]; exact hi
  · rw [h1, h2, periods_cut]
    refine delIdx_one hi (periods_sorted hm hs) (p := p) hn (by simp [periods]; omega) ?_
    intro i hi2 hi3 hi4
    simp only [periods, List.getElem_map]
    simp [periods] at hi2
    apply hp
    rw [hr, List.mem_iff_getElem]
    refine ⟨i - f, by simp; omega, ?_⟩
    simp only [List.getElem_take, List.getElem_drop]
    congr 1
    omega

/-- **C17 (partial)** A delete by exact timestamp always keeps the index right. -/
theorem C17_delete_where_partial (T : Table α) (hm : MonoPeriod T) (g : Goto) (u : Unit α) (hs : Sorted T.ts u.recs)
    (hi : IndexDescribes u.fidxs (periods T u.recs)) (t : Nat) (k : Int) :
    IndexDescribes (tsdbDel T g u (.whereTs t k)).2.fidxs (periods T (tsdbDel T g u (.whereTs t k)).2.recs) := by
  refine C17_delete_in_one_period_partial T hm g u hs hi _ (T.sign t) ?_
  intro r hr
  rw [show Query.forDel (.whereTs t k) = .whereTs t 0 from rfl, C11_where_returns_exactly_the_matches T g u hs t] at hr
  simp only [recordsAt, List.mem_filter, decide_eq_true_eq] at hr
  rw [hr.2]

/-- **C17 (partial)** A delete that removes everything from some record on keeps the index right. -/
theorem C17_delete_to_end_partial (T : Table α) (hm : MonoPeriod T) (g : Goto) (u : Unit α) (hs : Sorted T.ts u.recs)
    (hi : IndexDescribes u.fidxs (periods T u.recs)) (a : Nat) (b : Int) (hb : b < 0 ∨ ∀ r ∈ u.recs, T.ts r ≤ b.toNat ∧ 0 < b) :
    IndexDescribes (tsdbDel T g u (.range a b false)).2.fidxs (periods T (tsdbDel T g u (.range a b false)).2.recs) := by
  rcases del_cases T g u hs (.range a b false) with h | ⟨f, n, hn, hfn, hr, h1, h2⟩
  · rw [h]; exact hi
  · have hlast : f + n = u.recs.length := by
      have hdel := (C16_delete_range T g u hs a b false).1
      have hread := C12_range_returns_exactly_the_range T g u hs a b false (by simp)
      have hr' : rangeSpec T.ts u.recs a b false = (u.recs.drop f).take n := by
        rw [← hr, show Query.forDel (.range a b false) = .range a b false from rfl, hread]
      have hspec : rangeSpec T.ts u.recs a b false = recordsIn T.ts u.recs (startTs T.ts u.recs a) (stopTs T.ts u.recs a b) := by
        simp [rangeSpec]
      have hle : ∀ r ∈ u.recs, T.ts r ≤ stopTs T.ts u.recs a b := by
        intro r hr
        unfold stopTs
        by_cases hb0 : b < 0
        · rw [if_pos hb0]
          obtain ⟨i, hi, rfl⟩ := List.getElem_of_mem hr
          rw [List.getLast?_eq_getElem?, List.getElem?_eq_getElem (by omega)]
          simp only [Option.map_some, Option.getD_some]
          rcases Nat.lt_or_ge i (u.recs.length - 1) with hlt | hge
          · exact List.pairwise_iff_getElem.1 hs i _ hi (by omega) hlt
          · have : i = u.recs.length - 1 := by omega
            subst this; exact Nat.le_refl _
        · rcases hb with hb | hb
          · exact absurd hb hb0
          · have := hb r hr
            rw [if_neg hb0, if_neg (by omega)]; exact this.1
      rw [hspec] at hr'
      -- the last record is in the range
      have hmem : u.recs[f] ∈ (u.recs.drop f).take n := by
        rw [List.mem_iff_getElem]
        exact ⟨0, by simp; omega, by simp⟩
      rw [← hr'] at hmem
      unfold recordsIn at hmem
      rw [List.mem_filter] at hmem
      have ha := hmem.2
      simp at ha
      apply Decidable.byContradiction
      intro hne
      have hlast : u.recs[f + n] ∈ recordsIn T.ts u.recs (startTs T.ts u.recs a) (stopTs T.ts u.recs a b) := by
        unfold recordsIn
        rw [List.mem_filter]
        refine ⟨List.getElem_mem _, ?_⟩
        have h5 := hle u.recs[f + n] (List.getElem_mem _)
        have h6 := List.pairwise_iff_getElem.1 hs f (f + n) (by omega) (by omega) (by omega)
        simp
        omega
      rw [recordsIn_seg hs] at hr' hlast
      have hlen := congrArg List.length hr'
      rw [seg_length _ (hi_le _ _ _)] at hlen
      simp at hlen
      have hstop : Fmap.hi T.ts u.recs (stopTs T.ts u.recs a b) = u.recs.length := by
        unfold Fmap.hi
        rw [List.countP_eq_length]
        intro r hr
        simpa using hle r hr
      have hf : ¬ f < lo T.ts u.recs (startTs T.ts u.recs a) := by
        intro hf
        have := (lt_lo hs (x := startTs T.ts u.recs a) (show f < u.recs.length by omega)).2 hf
        omega
      omega
    rw [h1, h2, hlast, List.drop_length, List.append_nil]
    have hlenp : (periods T u.recs).length = u.recs.length := by simp [periods]
    have := delIdx_tail hi (periods_sorted hm hs) (index := f) (by omega)
    rw [hlenp, show (u.recs.length : Int) - f = n by omega] at this
    have e : periods T (u.recs.take f) = (periods T u.recs).take f := by unfold periods; rw [List.map_take]
    rw [e]
    exact this

/-- **C17 violated** A delete from the middle of one period into the middle of the next marks the second period as removed
although one of its records remains, and the next save removes the period from disk. -/
theorem C17_violated :
    ∃ (u : Unit (Nat × Nat)), Sorted exTable.ts u.recs ∧ IndexDescribes u.fidxs (periods exTable u.recs) ∧
      (tsdbDel exTable .interp u (.range 110 200 false)).2.recs = [(100, 1), (210, 4)] ∧
      (tsdbDel exTable .interp u (.range 110 200 false)).2.fidxs.map (fun f => (f.isign, f.count, f.moved)) =
        [(1, 1, false), (2, 0, true)] := by
  refine ⟨⟨[(100, 1), (110, 2), (200, 3), (210, 4)], [⟨1, 0, 2, false, false⟩, ⟨2, 2, 2, false, false⟩], 100, 210, 27⟩, ?_, ?_, ?_, ?_⟩
  · unfold Sorted exTable; decide
  · constructor <;> decide
  · decide +kernel
  · decide +kernel

theorem exTable_mono : MonoPeriod exTable := by
  intro a b h
  have := Nat.div_le_div_right (c := 100) h
  show ((a / 100 : Nat) : Int) ≤ ((b / 100 : Nat) : Int)
  omega

/-! ### C56 -/

theorem mindexLoop_index (T : Table α) (hm : MonoPeriod T) (g : Goto) (batch : List α) : ∀ (u : Unit α) (sidx : Int), Sorted T.ts u.recs →
    0 < u.recs.length → Sorted T.ts batch → IndexDescribes u.fidxs (periods T u.recs) →
    (∀ r ∈ batch, ScanOk u.fidxs sidx (T.sign (T.ts r))) →
    IndexDescribes (mindexLoop T g u (keyOf T.ts u.recs ((u.recs.length : Int) - 1)) sidx batch).fidxs
      (periods T (mindexRecs T.ts u.recs batch)) ∧
    ((batch ≠ [] ∨ ∃ f ∈ u.fidxs, f.writed = true ∧ f.moved = false) →
      ∃ f ∈ (mindexLoop T g u (keyOf T.ts u.recs ((u.recs.length : Int) - 1)) sidx batch).fidxs, f.writed = true ∧ f.moved = false) := by
  induction batch with
  | nil => intro u sidx _ _ _ hi _; exact ⟨hi, fun h => h.elim (fun h => absurd rfl h) id⟩
  | cons r rest ih =>
    intro u sidx hs h0 hb hi hscan
    have hsp := mindexOne_spec hs h0 (hint_inside g u (T.ts r) h0) r
    unfold mindexLoop
    simp only
    rw [hsp.1, hsp.2]
    have hb' := hb
    unfold Sorted at hb'
    rw [List.pairwise_cons] at hb'
    have hperm : (periods T (insAt u.recs (mindexPos T.ts u.recs (T.ts r)) r)).Perm (periods T u.recs ++ [T.sign (T.ts r)]) := by
      have := (insert_perm u.recs (mindexPos T.ts u.recs (T.ts r)) r).map (fun r => T.sign (T.ts r))
      unfold periods insAt
      rw [List.map_append (l₁ := u.recs)] at this
      exact this
    have hadd := addIdx_spec hi (hscan r (by simp)) hperm
    have := ih { u with recs := insAt u.recs (mindexPos T.ts u.recs (T.ts r)) r
                        fidxs := (addIdx u.fidxs sidx (T.sign (T.ts r))).1 } (addIdx u.fidxs sidx (T.sign (T.ts r))).2
      (insAt_sorted hs r) (by simp only [insAt_length]; omega) hb'.2 hadd.1 (by
        intro r2 hr2 j hj hlt _
        obtain ⟨k, hk, hkl, hks⟩ := hadd.2.2
        have h1 := List.pairwise_iff_getElem.1 hadd.1.ordered j k hj hkl (by omega)
        have h2 := hm _ _ (hb'.1 r2 hr2)
        rw [hks] at h1
        exact Int.lt_of_lt_of_le h1 h2)
    exact ⟨this.1, fun _ => this.2 (.inr hadd.2.1)⟩

/-- **C56 (partial)** After an update of a non-empty series by a batch in time order the index describes the stored
records.  Missing: batches out of order, and the first batch of a series (`C56_violated_*`). -/
theorem C56_update_keeps_index_partial (T : Table α) (hm : MonoPeriod T) (g : Goto) (u : Unit α) (hs : Sorted T.ts u.recs)
    (h0 : u.recs ≠ []) (hi : IndexDescribes u.fidxs (periods T u.recs)) (batch : List α) (hb : Sorted T.ts batch) :
    IndexDescribes (sdbUpdate T false g u batch).fidxs (periods T (sdbUpdate T false g u batch).recs) := by
  have hl : 0 < u.recs.length := List.length_pos_iff.2 h0
  rw [sdbUpdate_recs T g u hs, if_neg (by omega)]
  unfold sdbUpdate
  rw [if_neg (by omega)]
  exact (mindexLoop_index T hm g batch u (-1) hs hl hb hi (by intro r _ j _ h1 _; omega)).1

/-- **C56 violated** The first batch of a series is not indexed at all. -/
theorem C56_violated_first_batch :
    ∃ (u : Unit (Nat × Nat)), IndexDescribes u.fidxs (periods exTable u.recs) ∧
      ¬ IndexDescribes (sdbUpdate exTable false .interp u [(100, 1)]).fidxs (periods exTable (sdbUpdate exTable false .interp u [(100, 1)]).recs) := by
  refine ⟨⟨[], [], 0, 0, 0⟩, by constructor <;> decide, fun h => ?_⟩
  have := h.covered 1 (by decide +kernel)
  simp [sdbUpdate, Unit.reidx] at this

/-- **C56 violated** A batch that goes back to an earlier period enters that period a second time, behind a later one. -/
theorem C56_violated_unsorted_batch :
    ∃ (u : Unit (Nat × Nat)), Sorted exTable.ts u.recs ∧ IndexDescribes u.fidxs (periods exTable u.recs) ∧
      (sdbUpdate exTable false .interp u [(300, 7), (110, 8)]).fidxs.map (fun f => (f.isign, f.count)) = [(1, 1), (2, 1), (1, 1), (3, 1)] := by
  refine ⟨⟨[(100, 1), (200, 3)], [⟨1, 0, 1, false, false⟩, ⟨2, 1, 1, false, false⟩], 100, 200, 50⟩, ?_, ?_, ?_⟩
  · unfold Sorted exTable; decide
  · constructor <;> decide
  · decide +kernel

/-! ### C57 -/

/-- **C57 (partial)** After an update of a non-empty series by a non-empty batch in time order, a save writes the whole
series, and the periods it removes hold no records.  Missing: the first batch of a series
(`C57_violated_first_batch`). -/
theorem C57_save_after_update_partial (T : Table α) (hm : MonoPeriod T) (g : Goto) (u : Unit α) (hs : Sorted T.ts u.recs)
    (h0 : u.recs ≠ []) (hi : IndexDescribes u.fidxs (periods T u.recs)) (batch : List α) (hb : Sorted T.ts batch) (hne : batch ≠ []) :
    let u' := sdbUpdate T false g u batch
    SaveOp.write u'.recs ∈ saveSdb u' ∧ ∀ p, SaveOp.remove p ∈ saveSdb u' → ∀ r ∈ u'.recs, T.sign (T.ts r) ≠ p := by
  intro u'
  have hidx : IndexDescribes u'.fidxs (periods T u'.recs) := C56_update_keeps_index_partial T hm g u hs h0 hi batch hb
  have hl : 0 < u.recs.length := List.length_pos_iff.2 h0
  constructor
  · have hw : ∃ f ∈ u'.fidxs, f.writed = true ∧ f.moved = false := by
      have := (mindexLoop_index T hm g batch u (-1) hs hl hb hi (by intro r _ j _ h1 _; omega)).2 (.inl hne)
      show ∃ f ∈ (sdbUpdate T false g u batch).fidxs, _
      unfold sdbUpdate
      rw [if_neg (by omega)]
      exact this
    obtain ⟨f, hf, h1, h2⟩ := hw
    have hlen : u'.recs.length > 0 := by
      have := (C13_update_keeps_sorted_and_loses_nothing_partial T g u hs h0 batch).2.length_eq
      show (sdbUpdate T false g u batch).recs.length > 0
      rw [this]; simp; omega
    unfold saveSdb
    rw [List.mem_flatMap]
    refine ⟨f, hf, ?_⟩
    rw [h1, h2]
    simp [hlen]
  · intro p hp r hr he
    unfold saveSdb at hp
    rw [List.mem_flatMap] at hp
    obtain ⟨f, hf, hp⟩ := hp
    split at hp
    · simp at hp
    · split at hp
      · simp at hp
        rename_i _ hmv
        have h1 := hidx.removed f hf hmv
        have h2 := hidx.counts f hf
        rw [h1] at h2
        have h3 : (periods T u'.recs).count f.isign = 0 := by omega
        rw [List.count_eq_zero] at h3
        apply h3
        rw [← hp, ← he]
        exact List.mem_map.2 ⟨r, hr, rfl⟩
      · split at hp <;> simp at hp

/-- **C57 violated** A series whose first batch was just written is not saved at all. -/
theorem C57_violated_first_batch :
    ∃ (u : Unit (Nat × Nat)), u.recs = [] ∧ (sdbUpdate exTable false .interp u [(100, 1), (200, 2)]).recs = [(100, 1), (200, 2)] ∧
      saveSdb (sdbUpdate exTable false .interp u [(100, 1), (200, 2)]) = [] := by
  refine ⟨⟨[], [], 0, 0, 0⟩, rfl, ?_, ?_⟩
  · decide +kernel
  · simp [sdbUpdate, saveSdb, Unit.reidx]

/-- **C57 violated** After a delete across two periods the save removes a period that still holds a record. -/
theorem C57_violated_after_delete :
    ∃ (u : Unit (Nat × Nat)), Sorted exTable.ts u.recs ∧ IndexDescribes u.fidxs (periods exTable u.recs) ∧
      (210, 4) ∈ (tsdbDel exTable .interp u (.range 110 200 false)).2.recs ∧
      saveSdb (tsdbDel exTable .interp u (.range 110 200 false)).2 =
        [.write [(100, 1), (210, 4)], .remove (exTable.sign 210)] := by
  refine ⟨⟨[(100, 1), (110, 2), (200, 3), (210, 4)], [⟨1, 0, 2, false, false⟩, ⟨2, 2, 2, false, false⟩], 100, 210, 27⟩, ?_, ?_, ?_, ?_⟩
  · unfold Sorted exTable; decide
  · constructor <;> decide
  · decide +kernel
  · decide +kernel

end Sis.Fmap
