import Verif.Sdb.Refine
/- Marks of presence. -/
namespace Sis.Sdb
open Sis Sis.Disk
open Sis.Dyn (sameN getN setN Db sameN_iff sameN_refl getN_none getN_some setN_spec getN_congr)

/-- There is a mark of presence. -/
def Marked (maps : List (Bytes × MapE)) (n : Bytes) (day : Nat) : Prop := ∃ e, getN maps n = some e ∧ e.active = 1 ∧ (day, 1) ∈ e.days

/-- Nothing is removed. -/
def AllOnes (maps : List (Bytes × MapE)) : Prop := ∀ e ∈ maps, e.2.active = 1 ∧ ∀ x ∈ e.2.days, x.2 = 1

theorem mem_setDay {l : List (Nat × Nat)} {d : Nat} (h : getDay l d = none) (x : Nat × Nat) : x ∈ setDay l d 1 ↔ x ∈ l ∨ x = (d, 1) := by
  induction l with
  | nil => simp [setDay]
  | cons e l ih =>
    unfold getDay at h
    rw [List.find?_cons] at h
    by_cases he : (e.1 == d) = true
    · rw [he] at h; cases h
    · have he : (e.1 == d) = false := by simpa using he
      rw [he] at h
      rw [setDay, if_neg (by simp [he])]
      simp only [List.mem_cons, ih h]
      exact or_assoc.symm

theorem mark_ones {maps : List (Bytes × MapE)} (h : AllOnes maps) (n : Bytes) (kt day : Nat) : AllOnes (mark maps n kt day) := by
  have hset : ∀ v : MapE, (v.active = 1 ∧ ∀ x ∈ v.days, x.2 = 1) → AllOnes (setN maps n v).1 := by
    intro v hv e he
    rcases setN_spec maps n v with ⟨_, h2⟩ | ⟨i, e', _, _, _, h2⟩
    · rw [h2] at he
      rcases List.mem_append.1 he with he | he
      · exact h e he
      · rw [List.mem_singleton.1 he]; exact hv
    · rw [h2] at he
      rcases List.mem_or_eq_of_mem_set he with he | he
      · exact h e he
      · rw [he]; exact hv
  unfold mark
  split
  · exact hset _ ⟨rfl, by simp⟩
  · rename_i e he
    obtain ⟨_, m, hm', hme, _⟩ := getN_some he
    have hm := List.mem_of_getElem? hm'
    split
    · rename_i hd
      refine hset _ ⟨?_, fun x hx => ?_⟩
      · rw [← hme]; exact (h m hm).1
      · rcases (mem_setDay hd x).1 hx with hx | hx
        · rw [← hme] at hx; exact (h m hm).2 x hx
        · rw [hx]
    · exact h

theorem mark_iff {maps : List (Bytes × MapE)} (h : AllOnes maps) (n : Bytes) (kt day : Nat) (n' : Bytes) (day' : Nat) :
    Marked (mark maps n kt day) n' day' ↔ Marked maps n' day' ∨ (sameN n' n = true ∧ day' = day) := by
  unfold mark Marked
  split
  · rename_i hn
    rw [getN_setN]
    by_cases hs : sameN n' n = true
    · rw [if_pos hs, getN_congr _ hs, hn]
      simp [hs]
    · rw [if_neg hs]; simp [hs]
  · rename_i e he
    obtain ⟨_, m, hm', hme, _⟩ := getN_some he
    have hm := List.mem_of_getElem? hm'
    split
    · rename_i hd
      rw [getN_setN]
      by_cases hs : sameN n' n = true
      · rw [if_pos hs, getN_congr _ hs, he]
        simp only [Option.some.injEq, exists_eq_left', hs, true_and, mem_setDay hd, Prod.mk.injEq, and_true]
        have : e.active = 1 := by rw [← hme]; exact (h m hm).1
        simp [this]
      · rw [if_neg hs]; simp [hs]
    · rename_i v hd
      refine ⟨.inl, ?_⟩
      rintro (hx | ⟨hs, rfl⟩)
      · exact hx
      · rw [getN_congr _ hs, he]
        refine ⟨e, rfl, by rw [← hme]; exact (h m hm).1, ?_⟩
        unfold getDay at hd
        obtain ⟨y, hy, hyv⟩ := Option.map_eq_some_iff.1 hd
        have hym := List.mem_of_find?_eq_some hy
        have hyd : y.1 = day' := by simpa using List.find?_some hy
        have : y.2 = 1 := by rw [← hme] at hym; exact (h m hm).2 y hym
        rw [← hyd, ← this]
        exact hym

theorem markPieces_iff {n : Bytes} (q : Bytes → Nat) (rs : List Bytes) : ∀ (xs : List Bytes) (p : Nat) (maps : List (Bytes × MapE)), AllOnes maps → p < 2 ^ 31 → (∀ r ∈ rs, q r < 2 ^ 31) →
    AllOnes (markPieces n maps ((runsFrom q p xs rs).map piece)) ∧ ∀ n' day, Marked (markPieces n maps ((runsFrom q p xs rs).map piece)) n' day ↔
      Marked maps n' day ∨ (sameN n' n = true ∧ (day = p ∨ ∃ r ∈ rs, q r = day)) := by
  have hu : ∀ p : Nat, p < 2 ^ 31 → u32 (p : Int) = p := by intro p hp; unfold u32; omega
  induction rs with
  | nil =>
    intro xs p maps h hp _
    simp only [runsFrom, List.map_singleton, markPieces, List.foldl_cons, List.foldl_nil, piece, hu p hp]
    exact ⟨mark_ones h _ _ _, fun n' day => by rw [mark_iff h]; simp⟩
  | cons r rs ih =>
    intro xs p maps h hp hr
    have hr' : ∀ r ∈ rs, q r < 2 ^ 31 := fun r hx => hr r (by simp [hx])
    rw [runsFrom]
    split
    · rename_i hq
      obtain ⟨i1, i2⟩ := ih (xs ++ [r]) p maps h hp hr'
      refine ⟨i1, fun n' day => ?_⟩
      rw [i2]
      simp only [List.mem_cons, exists_eq_or_imp, hq]
      have : (day = p ∨ ∃ r ∈ rs, q r = day) ↔ (day = p ∨ p = day ∨ ∃ r ∈ rs, q r = day) :=
        ⟨fun hx => hx.imp_right .inr, fun hx => hx.elim .inl fun hx => hx.elim (fun hx => .inl hx.symm) .inr⟩
      rw [this]
    · obtain ⟨i1, i2⟩ := ih [r] (q r) (mark maps n 0 p) (mark_ones h _ _ _) (hr r (by simp)) hr'
      have e : markPieces n maps (((p, xs) :: runsFrom q (q r) [r] rs).map piece) = markPieces n (mark maps n 0 p) ((runsFrom q (q r) [r] rs).map piece) := by
        simp only [markPieces, List.map_cons, List.foldl_cons, piece, hu p hp]
      rw [e]
      refine ⟨i1, fun n' day => ?_⟩
      rw [i2, mark_iff h]
      simp only [List.mem_cons, exists_eq_or_imp]
      have : (day = q r ∨ ∃ r ∈ rs, q r = day) ↔ (q r = day ∨ ∃ r ∈ rs, q r = day) := or_congr_left eq_comm
      rw [this]
      generalize (q r = day ∨ ∃ r ∈ rs, q r = day) = A
      rw [or_assoc, ← and_or_left]

/-- All names of marks have a table and stand for records with times. -/
def Dated (maps : List (Bytes × MapE)) : Prop := ∀ e ∈ maps, (e.2.ktype = 0 ∧ e.2.days ≠ []) ∧ ∃ k s, (46 : UInt8) ∉ k ∧ e.1 = nodeName k (some s)

theorem mark_dated {maps : List (Bytes × MapE)} (h : Dated maps) {k s : Bytes} (hk : (46 : UInt8) ∉ k) (day : Nat) : Dated (mark maps (nodeName k (some s)) 0 day) := by
  have hset : ∀ v : MapE, v.ktype = 0 ∧ v.days ≠ [] → Dated (setN maps (nodeName k (some s)) v).1 := by
    intro v hv e he
    rcases setN_spec maps (nodeName k (some s)) v with ⟨_, h2⟩ | ⟨i, e', h1, _, _, h2⟩
    · rw [h2] at he
      rcases List.mem_append.1 he with he | he
      · exact h e he
      · rw [List.mem_singleton.1 he]; exact ⟨hv, k, s, hk, rfl⟩
    · rw [h2] at he
      rcases List.mem_or_eq_of_mem_set he with he | he
      · exact h e he
      · rw [he]; exact ⟨hv, (h e' (List.mem_of_getElem? h1)).2⟩
  unfold mark
  split
  · exact hset _ ⟨rfl, by simp⟩
  · rename_i e he
    obtain ⟨_, m, hm', hme, _⟩ := getN_some he
    split
    · rename_i hd
      exact hset _ ⟨by rw [← hme]; exact (h m (List.mem_of_getElem? hm')).1.1, List.ne_nil_of_mem ((mem_setDay hd (day, 1)).2 (.inr rfl))⟩
    · exact h

theorem markPieces_dated {k s : Bytes} (hk : (46 : UInt8) ∉ k) (ps : List (Int × Bytes)) : ∀ {maps : List (Bytes × MapE)}, Dated maps → Dated (markPieces (nodeName k (some s)) maps ps) := by
  induction ps with
  | nil => intro maps h; exact h
  | cons p ps ih => intro maps h; exact ih (mark_dated h hk _)

theorem mark_apart {maps : List (Bytes × MapE)} (h : maps.Pairwise fun a b => sameN a.1 b.1 = false) (n : Bytes) (kt day : Nat) :
    (mark maps n kt day).Pairwise fun a b => sameN a.1 b.1 = false := by
  unfold mark
  split
  · exact setN_diff _ _ _ h
  · split
    · exact setN_diff _ _ _ h
    · exact h

theorem markPieces_apart (n : Bytes) (ps : List (Int × Bytes)) : ∀ {maps : List (Bytes × MapE)}, (maps.Pairwise fun a b => sameN a.1 b.1 = false) →
    (markPieces n maps ps).Pairwise fun a b => sameN a.1 b.1 = false := by
  induction ps with
  | nil => intro maps h; exact h
  | cons p ps ih => intro maps h; exact ih (mark_apart h _ _ _)

end Sis.Sdb
