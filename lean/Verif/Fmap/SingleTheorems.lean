import Verif.Fmap.Single
import Verif.Fmap.QueryTheorems
/-
Property theorems on keys without time index: paging (C18), reading one's own writes (C60), deletion (C61), saving (C57).
-/
namespace Sis.Fmap

variable {γ : Type}

/-! ### C18 -/

/-- The window a client asks for: from `start` (counted from the end if negative) at most `count` records. -/
def window (l : List γ) (start count : Int) : List γ :=
  (l.drop (if start < 0 then (max ((l.length : Int) + start) 0).toNat else start.toNat)).take count.toNat

theorem notsCount_eq (n : Nat) (count inums : Int) : notsCount n count inums =
    if (0 : Int) ≥ inums then none else if (0 : Int) + count > inums then some (0, inums) else some (0, count) := by
  have h : ¬ ((n : Int) < 0) := by omega
  unfold notsCount
  simp only [if_neg h, Int.sub_zero]

/-- The start the client sends has no effect: the window always begins at the first record. -/
theorem nonRead_eq (l : List γ) (start count : Int) (hc : 0 ≤ count) : nonRead l start count = l.take count.toNat := by
  unfold nonRead
  rw [notsCount_eq]
  by_cases h0 : (0 : Int) ≥ l.length
  · simp only [if_pos h0]
    rw [List.eq_nil_of_length_eq_zero (show l.length = 0 by omega)]; simp
  · simp only [if_neg h0]
    by_cases h1 : (0 : Int) + count > l.length
    · simp only [if_pos h1]
      rw [List.take_of_length_le (by simp), List.take_of_length_le (by omega)]; simp
    · simp only [if_neg h1]; simp

/-- **C18 (partial)** From the beginning, a read honours the count.  Missing: any other start (`C18_violated`). -/
theorem C18_window_from_first_partial (l : List γ) (count : Int) (hc : 0 ≤ count) : nonRead l 0 count = window l 0 count := by
  rw [nonRead_eq l 0 count hc]; simp [window]

/-- **C18 (partial)** What is returned is always contiguous stored records in order, never more than `count`. -/
theorem C18_never_too_many_partial (l : List γ) (start count : Int) (hc : 0 ≤ count) :
    (nonRead l start count).length ≤ count.toNat ∧ nonRead l start count <+: l := by
  rw [nonRead_eq l start count hc]
  exact ⟨by simp; omega, List.take_prefix _ _⟩

/-- **C18 violated** The last record, asked for with start -1, is not what is returned; neither is the record at start 1. -/
theorem C18_violated : nonRead [10, 20, 30] (-1) 1 = [10] ∧ window [10, 20, 30] (-1) 1 = [30] ∧
    nonRead [10, 20, 30] 1 1 = [10] ∧ window [10, 20, 30] 1 1 = [20] := by decide +kernel

/-- **C18 (partial)** Deleting the first `count` records of a record list deletes exactly those. -/
theorem C18_delete_from_first_partial (l : List γ) (count : Int) (hc : 0 < count) : nonDel l 0 count = l.drop count.toNat := by
  unfold nonDel
  rw [notsCount_eq]
  by_cases h0 : (0 : Int) ≥ l.length
  · simp only [if_pos h0]
    rw [List.eq_nil_of_length_eq_zero (show l.length = 0 by omega)]; simp
  · simp only [if_neg h0]
    by_cases h1 : (0 : Int) + count > l.length
    · simp only [if_pos h1]
      rw [if_pos (by omega)]
      unfold slDelete
      rw [if_neg (by omega)]
      simp
      omega
    · simp only [if_neg h1]
      rw [if_pos (by omega)]
      unfold slDelete
      rw [if_neg (by omega)]
      simp

/-- **C18 violated** Deleting one value of a list-valued key deletes two; deleting the last deletes the first. -/
theorem C18_violated_delete : mulDel [10, 20, 30] 0 1 = [30] ∧ nonDel [10, 20, 30] (-1) 1 = [20, 30] := by decide +kernel

/-- **C18** In a list-valued key a replacement hits the element asked for and no other, counted from the end when the
position is negative; positions behind the end change nothing. -/
theorem C18_list_update (l : List γ) (i : Int) (v : γ) :
    mulUpdate l true i v = l ++ [v] ∧
    (∀ k : Nat, i = k → mulUpdate l false i v = l.set k v) ∧
    (∀ k : Nat, 0 < k → k ≤ l.length → i = -k → mulUpdate l false i v = l.set (l.length - k) v) := by
  refine ⟨rfl, ?_, ?_⟩
  · rintro k rfl
    unfold mulUpdate notsStart
    rw [if_neg (by simp)]
    simp only
    rw [if_neg (show ¬ (k : Int) < 0 by omega)]
    by_cases h : (k : Int) ≥ l.length
    · rw [if_pos h, if_neg (by omega), List.set_eq_of_length_le (by omega)]
    · rw [if_neg h, if_pos (by omega)]; simp
  · rintro k hk hkl rfl
    unfold mulUpdate notsStart
    rw [if_neg (by simp)]
    simp only
    rw [if_pos (show (-(k : Int)) < 0 by omega), if_neg (show ¬ max ((l.length : Int) + -k) 0 ≥ l.length by omega), if_pos (by omega)]
    congr 1
    omega

example : mulUpdate [10, 20, 30] false (-1) 7 = [10, 20, 7] := by decide +kernel

/-! ### C60: a client reads what it wrote -/

/-- **C60 (partial)** A single value written is the value the next read returns, if the key was read before or is not on
disk.  Missing: the first read of a key that is on disk (`C60_violated_one`). -/
theorem C60_read_your_write_partial (disk : Option (List γ)) (c : Cached (List γ)) (v : List γ) (h : 0 < c.reads ∨ disk = none) :
    ((c.setOne disk v).read disk).1 = v := by
  rcases h with h | rfl
  · have h0 : ¬ c.reads = 0 := by omega
    simp [Cached.setOne, Cached.read, Cached.load, h0]
  · by_cases h0 : c.reads = 0 <;> simp [Cached.setOne, Cached.read, Cached.load, h0]

/-- **C60 violated** A value written to a key that is on disk and has not been read yet is lost: the first read brings back
the old value from disk, and from then on it is what the key holds. -/
theorem C60_violated_one : ∃ (disk : Option (List Nat)) (c : Cached (List Nat)), c = Cached.create [] ∧
    ((c.setOne disk [2, 2]).read disk).1 = [1] ∧ (((c.setOne disk [2, 2]).read disk).2.read disk).1 = [1] :=
  ⟨some [1], _, rfl, by decide +kernel⟩

/-- The operations on a record list without time. -/
inductive NonOp (γ : Type)
  | set (batch : List γ)
  | read
  | del (count : Nat)

/-- One operation of the code. -/
def NonOp.run (T : Table γ) (uf : Bool) (disk : Option (List γ)) (c : Cached (List γ)) : NonOp γ → Cached (List γ)
  | .set batch => c.setNon T uf disk batch
  | .read => (c.read disk).2
  | .del n => c.delNon disk 0 n

/-- The same on the list a client thinks of. -/
def NonOp.spec (T : Table γ) (uf : Bool) (l : List γ) : NonOp γ → List γ
  | .set batch => nonUpdate T uf l batch
  | .read => l
  | .del n => l.drop n

theorem nonDel_drop (l : List γ) (n : Nat) : nonDel l 0 n = l.drop n := by
  rcases Nat.eq_zero_or_pos n with rfl | h
  · unfold nonDel
    rw [notsCount_eq]
    by_cases h0 : (0 : Int) ≥ l.length
    · simp only [if_pos h0]; simp
    · simp only [if_neg h0]
      rw [if_neg (by omega)]
      simp
  · rw [C18_delete_from_first_partial l n (by omega)]; simp

/-- **C60 over histories (partial)** For a record list that is not on disk, every read in any history of writes, reads and
deletes returns what the preceding operations leave.  For a key on disk this holds once it has been read
(`C60_history_read_partial`). -/
theorem C60_history_partial (T : Table γ) (uf : Bool) (ops : List (NonOp γ)) (c : Cached (List γ)) :
    ((ops.foldl (fun c o => o.run T uf none c) c).read none).1 = ops.foldl (fun l o => o.spec T uf l) c.value := by
  have hl : ∀ c : Cached (List γ), c.load none = c := by intro c; unfold Cached.load; split <;> rfl
  induction ops generalizing c with
  | nil => simp [Cached.read, hl]
  | cons o ops ih =>
    rw [List.foldl_cons, List.foldl_cons, ih]
    congr 1
    cases o with
    | set batch => simp [NonOp.run, NonOp.spec, Cached.setNon, hl]
    | read => simp [NonOp.run, NonOp.spec, Cached.read, hl]
    | del n => simp [NonOp.run, NonOp.spec, Cached.delNon, hl, nonDel_drop]

/-- **C60 over histories (partial)** The same for a key on disk that has been read before. -/
theorem C60_history_read_partial (T : Table γ) (uf : Bool) (disk : Option (List γ)) (ops : List (NonOp γ)) (c : Cached (List γ))
    (hr : 0 < c.reads) :
    ((ops.foldl (fun c o => o.run T uf disk c) c).read disk).1 = ops.foldl (fun l o => o.spec T uf l) c.value := by
  have hl : ∀ c : Cached (List γ), 0 < c.reads → c.load disk = c := by
    intro c h; unfold Cached.load; rw [if_neg (by omega)]
  induction ops generalizing c with
  | nil => simp [Cached.read, hl c hr]
  | cons o ops ih =>
    rw [List.foldl_cons, List.foldl_cons, ih]
    · congr 1
      cases o with
      | set batch => simp [NonOp.run, NonOp.spec, Cached.setNon, hl c hr]
      | read => simp [NonOp.run, NonOp.spec, Cached.read, hl c hr]
      | del n => simp [NonOp.run, NonOp.spec, Cached.delNon, hl c hr, nonDel_drop]
    · cases o with
      | set batch => simpa [NonOp.run, Cached.setNon, hl c hr] using hr
      | read => simp [NonOp.run, Cached.read]
      | del n => simpa [NonOp.run, Cached.delNon, hl c hr] using hr

/-- **C60 violated** For a record list on disk that has not been read, two writes and a read return only the list on disk. -/
theorem C60_violated_non : ∃ (disk : Option (List (Nat × Nat))) (c : Cached (List (Nat × Nat))), c = Cached.create [] ∧
    ((([NonOp.set [(2, 2)], .set [(3, 3)]] : List (NonOp (Nat × Nat))).foldl (fun c o => o.run exTable false disk c) c).read disk).1 = [(1, 1)] :=
  ⟨some [(1, 1)], _, rfl, by decide +kernel⟩

/-! ### C61: a deleted value stays deleted -/

/-- **C61 (partial)** After a removal a read finds nothing, if the key is not on disk; a `del` of a single value also when
the key was read before. -/
theorem C61_deleted_stays_deleted_partial (disk : Option (List γ)) (c : Cached (List γ)) :
    (disk = none → (c.remove.read disk).1 = []) ∧ (disk = none ∨ 0 < c.reads → (c.delOne.read disk).1 = []) := by
  constructor
  · rintro rfl; simp [Cached.remove, Cached.read, Cached.load]
  · rintro (rfl | h)
    · by_cases h0 : c.reads = 0 <;> simp [Cached.delOne, Cached.read, Cached.load, h0]
    · have h0 : ¬ c.reads = 0 := by omega
      simp [Cached.delOne, Cached.read, Cached.load, h0]

/-- **C61 violated** A removed key that is on disk comes back with the next read, however often it was read before. -/
theorem C61_violated : ∃ (disk : Option (List Nat)) (c : Cached (List Nat)), 0 < c.reads ∧ (c.remove.read disk).1 = [1] :=
  ⟨some [1], ⟨[1], 5, false, false⟩, by decide, by decide +kernel⟩

/-! ### C57 for keys without time index -/

/-- **C57 (partial)** Saving a single value writes what a read would return, if the key was not deleted since the last save
and was read before or is not on disk. -/
theorem C57_save_one_partial (disk : Option (List γ)) (c : Cached (List γ)) (hm : c.moved = false) (h : 0 < c.reads ∨ disk = none) :
    c.saveOne = .write (c.read disk).1 := by
  unfold Cached.saveOne Cached.read Cached.load
  rw [hm]
  rcases h with h | rfl
  · rw [if_neg (show ¬ c.reads = 0 by omega)]; rfl
  · by_cases h0 : c.reads = 0 <;> simp [h0]

/-- **C57 violated** A save overwrites every single value that is on disk and was not read since the start with the empty
string; a value set after a deletion is removed from disk; list-valued keys are not saved at all. -/
theorem C57_violated_one :
    ((Cached.create [] : Cached (List Nat)).read (some [1])).1 = [1] ∧ (Cached.create [] : Cached (List Nat)).saveOne = .write [] ∧
    (((⟨[1], 1, false, false⟩ : Cached (List Nat)).delOne.setOne (some [1]) [2]).read (some [1])).1 = [2] ∧
    ((⟨[1], 1, false, false⟩ : Cached (List Nat)).delOne.setOne (some [1]) [2]).saveOne = .remove ∧
    (∀ c : Cached (List (List Nat)), c.saveMul = .nothing) := by
  refine ⟨by decide +kernel, by decide +kernel, by decide +kernel, by decide +kernel, fun _ => rfl⟩

/-- **C57 (partial)** A record list that was written, not emptied by a delete, is saved whole. -/
theorem C57_save_non_partial (T : Table γ) (uf : Bool) (disk : Option (List γ)) (c : Cached (List γ)) (hm : c.moved = false)
    (batch : List γ) (hb : batch ≠ []) : (c.setNon T uf disk batch).saveNon = .write (c.setNon T uf disk batch).value := by
  have hlm : (c.load disk).moved = false := by
    unfold Cached.load; split
    · split <;> exact hm
    · exact hm
  have hbl : 0 < batch.length := List.length_pos_iff.2 hb
  have hlen : ∀ (batch : List γ) (l : List γ), 0 < l.length → 0 < (batch.foldl (fun l r => (solelyNoidx T l r).1) l).length := by
    intro batch
    induction batch with
    | nil => intro l h; exact h
    | cons r rest ih =>
      intro l h
      refine ih _ ?_
      show 0 < (solelyNoidx T l r).1.length
      unfold solelyNoidx
      split
      · simpa using h
      · simp
  have hv : 0 < (nonUpdate T uf (c.load disk).value batch).length := by
    unfold nonUpdate
    split
    · simp; omega
    · exact hlen _ _ (by omega)
  unfold Cached.saveNon Cached.setNon
  simp only [hlm, Bool.false_eq_true, if_false]
  rw [if_pos (by simp; right; omega), if_pos hv]

end Sis.Fmap
