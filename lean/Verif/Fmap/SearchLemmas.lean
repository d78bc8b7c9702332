import Verif.Fmap.Search
/-
What the search loops compute on a sorted series, for every starting hint.
`lo` = number of records below `x`, `hi` = number of records not above `x`.
-/
namespace Sis.Fmap

/-- `lo` and `hi` split the positions `0..count-1` by comparison with `x`. -/
structure Split (key : Int → Nat) (count : Int) (x : Nat) (lo hi : Int) : Prop where
  lo0 : 0 ≤ lo
  lohi : lo ≤ hi
  hic : hi ≤ count
  lt_iff : ∀ i, 0 ≤ i → i < count → (key i < x ↔ i < lo)
  le_iff : ∀ i, 0 ≤ i → i < count → (key i ≤ x ↔ i < hi)

variable {key : Int → Nat} {count : Int} {x : Nat} {lo hi : Int}

theorem Split.tri (h : Split key count x lo hi) {i : Int} (h0 : 0 ≤ i) (h1 : i < count) :
    (key i < x ∧ i < lo) ∨ (key i = x ∧ lo ≤ i ∧ i < hi) ∨ (x < key i ∧ hi ≤ i) := by
  have a := h.lt_iff i h0 h1
  have b := h.le_iff i h0 h1
  omega

theorem scanDown_spec (h : Split key count x lo hi) (k : Int) (h1 : lo - 1 ≤ k) (h2 : k < hi) :
    scanDown key x k = lo := by
  have := h.lo0; have := h.hic
  generalize hn : (k + 1).toNat = n
  induction n generalizing k with
  | zero => unfold scanDown; rw [if_neg (by omega)]; omega
  | succ n ih =>
    unfold scanDown
    rw [if_pos (by omega)]
    rcases h.tri (i := k) (by omega) (by omega) with ⟨a, b⟩ | ⟨a, b, c⟩ | ⟨a, b⟩
    · rw [if_pos (by omega)]; omega
    · rw [if_neg (by omega)]; exact ih (k - 1) (by omega) (by omega) (by omega)
    · omega

theorem scanUp_spec (h : Split key count x lo hi) (k : Int) (h1 : lo ≤ k) (h2 : k ≤ hi) :
    scanUp key count x k = if hi = count then count else hi - 1 := by
  have := h.lo0; have := h.hic
  generalize hn : (count - k).toNat = n
  induction n generalizing k with
  | zero => unfold scanUp; rw [if_neg (by omega), if_pos (by omega)]
  | succ n ih =>
    unfold scanUp
    rw [if_pos (by omega)]
    rcases h.tri (i := k) (by omega) (by omega) with ⟨a, b⟩ | ⟨a, b, c⟩ | ⟨a, b⟩
    · omega
    · rw [if_neg (by omega)]; exact ih (k + 1) (by omega) (by omega) (by omega)
    · rw [if_pos (by omega), if_neg (by omega)]; omega

/-- The position `find_tail` returns. -/
def tailPos (count lo hi : Int) : Int :=
  if lo < hi then (if hi = count then count else hi - 1)
  else if lo = 0 then -1 else if lo = count then count else lo

theorem findTailLoop_up (h : Split key count x lo hi) (i : Int) (h0 : 1 ≤ i) (h1 : i ≤ lo) :
    findTailLoop key count x i .up = tailPos count lo hi := by
  have := h.lo0; have := h.hic; have := h.lohi
  generalize hn : (count - i).toNat = n
  induction n generalizing i with
  | zero =>
    unfold findTailLoop tailPos
    rw [if_neg (by omega), if_pos rfl]
    repeat' split
    all_goals omega
  | succ n ih =>
    unfold findTailLoop
    rw [if_pos (by omega)]
    rcases h.tri (i := i) (by omega) (by omega) with ⟨a, b⟩ | ⟨a, b, c⟩ | ⟨a, b⟩
    · rw [if_pos (by omega), if_neg (by simp)]
      exact ih (i + 1) (by omega) (by omega) (by omega)
    · rw [if_neg (by omega), if_neg (by omega), scanUp_spec h i b (by omega)]
      unfold tailPos; rw [if_pos (show lo < hi by omega)]
    · rw [if_neg (by omega), if_pos (by omega), if_pos rfl]
      unfold tailPos
      repeat' split
      all_goals omega

theorem findTailLoop_down (h : Split key count x lo hi) (i : Int) (h0 : -1 ≤ i) (h1 : hi ≤ i + 1) (h2 : i ≤ count - 2) :
    findTailLoop key count x i .down = tailPos count lo hi := by
  have := h.lo0; have := h.hic; have := h.lohi
  generalize hn : (i + 1).toNat = n
  induction n generalizing i with
  | zero =>
    unfold findTailLoop tailPos
    rw [if_neg (by omega), if_neg (by simp)]
    repeat' split
    all_goals omega
  | succ n ih =>
    unfold findTailLoop
    rw [if_pos (by omega)]
    rcases h.tri (i := i) (by omega) (by omega) with ⟨a, b⟩ | ⟨a, b, c⟩ | ⟨a, b⟩
    · rw [if_pos (by omega), if_pos rfl]
      unfold tailPos
      repeat' split
      all_goals omega
    · rw [if_neg (by omega), if_neg (by omega), scanUp_spec h i b (by omega)]
      unfold tailPos; rw [if_pos (show lo < hi by omega)]
    · rw [if_neg (by omega), if_pos (by omega), if_neg (by simp)]
      exact ih (i - 1) (by omega) (by omega) (by omega) (by omega)

theorem findTail_spec (h : Split key count x lo hi) (hint : Int) (h0 : 0 ≤ hint) (h1 : hint < count) :
    findTail key count hint x = tailPos count lo hi := by
  have := h.lo0; have := h.hic; have := h.lohi
  unfold findTail
  rw [if_neg (by omega)]
  unfold findTailLoop
  rw [if_pos (by omega)]
  rcases h.tri (i := hint) (by omega) (by omega) with ⟨a, b⟩ | ⟨a, b, c⟩ | ⟨a, b⟩
  · rw [if_pos (by omega), if_neg (by simp)]
    exact findTailLoop_up h _ (by omega) (by omega)
  · rw [if_neg (by omega), if_neg (by omega), scanUp_spec h hint b (by omega)]
    unfold tailPos; rw [if_pos (show lo < hi by omega)]
  · rw [if_neg (by omega), if_pos (by omega), if_neg (by simp)]
    exact findTailLoop_down h _ (by omega) (by omega) (by omega)

/-- The position `find_head` returns. -/
def headPos (count lo hi : Int) : Int :=
  if lo < hi then lo else if lo = 0 then -1 else if lo = count then count else lo

theorem findHeadLoop_up (h : Split key count x lo hi) (i : Int) (h0 : 1 ≤ i) (h1 : i ≤ lo) :
    findHeadLoop key count x i .up = headPos count lo hi := by
  have := h.lo0; have := h.hic; have := h.lohi
  generalize hn : (count - i).toNat = n
  induction n generalizing i with
  | zero =>
    unfold findHeadLoop headPos
    rw [if_neg (by omega), if_pos rfl]
    repeat' split
    all_goals omega
  | succ n ih =>
    unfold findHeadLoop
    rw [if_pos (by omega)]
    rcases h.tri (i := i) (by omega) (by omega) with ⟨a, b⟩ | ⟨a, b, c⟩ | ⟨a, b⟩
    · rw [if_pos (by omega), if_neg (by simp)]
      exact ih (i + 1) (by omega) (by omega) (by omega)
    · rw [if_neg (by omega), if_neg (by omega), scanDown_spec h i (by omega) (by omega)]
      unfold headPos; rw [if_pos (show lo < hi by omega)]
    · rw [if_neg (by omega), if_pos (by omega), if_pos rfl]
      unfold headPos
      repeat' split
      all_goals omega

theorem findHeadLoop_down (h : Split key count x lo hi) (i : Int) (h0 : -1 ≤ i) (h1 : hi ≤ i + 1) (h2 : i ≤ count - 2) :
    findHeadLoop key count x i .down = headPos count lo hi := by
  have := h.lo0; have := h.hic; have := h.lohi
  generalize hn : (i + 1).toNat = n
  induction n generalizing i with
  | zero =>
    unfold findHeadLoop headPos
    rw [if_neg (by omega), if_neg (by simp)]
    repeat' split
    all_goals omega
  | succ n ih =>
    unfold findHeadLoop
    rw [if_pos (by omega)]
    rcases h.tri (i := i) (by omega) (by omega) with ⟨a, b⟩ | ⟨a, b, c⟩ | ⟨a, b⟩
    · rw [if_pos (by omega), if_pos rfl]
      unfold headPos
      repeat' split
      all_goals omega
    · rw [if_neg (by omega), if_neg (by omega), scanDown_spec h i (by omega) (by omega)]
      unfold headPos; rw [if_pos (show lo < hi by omega)]
    · rw [if_neg (by omega), if_pos (by omega), if_neg (by simp)]
      exact ih (i - 1) (by omega) (by omega) (by omega) (by omega)

theorem findHead_spec (h : Split key count x lo hi) (hint : Int) (h0 : 0 ≤ hint) (h1 : hint < count) :
    findHead key count hint x = headPos count lo hi := by
  have := h.lo0; have := h.hic; have := h.lohi
  unfold findHead
  rw [if_neg (by omega)]
  unfold findHeadLoop
  rw [if_pos (by omega)]
  rcases h.tri (i := hint) (by omega) (by omega) with ⟨a, b⟩ | ⟨a, b, c⟩ | ⟨a, b⟩
  · rw [if_pos (by omega), if_neg (by simp)]
    exact findHeadLoop_up h _ (by omega) (by omega)
  · rw [if_neg (by omega), if_neg (by omega), scanDown_spec h hint (by omega) (by omega)]
    unfold headPos; rw [if_pos (show lo < hi by omega)]
  · rw [if_neg (by omega), if_pos (by omega), if_neg (by simp)]
    exact findHeadLoop_down h _ (by omega) (by omega) (by omega)

theorem countUp_spec (h : Split key count x lo hi) (k : Int) (h1 : lo ≤ k) (h2 : k ≤ hi) :
    countUp key count x k = hi - k := by
  have := h.lo0; have := h.hic
  generalize hn : (count - k).toNat = n
  induction n generalizing k with
  | zero => unfold countUp; rw [if_neg (by omega)]; omega
  | succ n ih =>
    unfold countUp
    rw [if_pos (by omega)]
    rcases h.tri (i := k) (by omega) (by omega) with ⟨a, b⟩ | ⟨a, b, c⟩ | ⟨a, b⟩
    · omega
    · rw [if_neg (by omega), ih (k + 1) (by omega) (by omega) (by omega)]; omega
    · rw [if_pos (by omega)]; omega

/-- What `cmp_same` returns. -/
def sameRes (count lo hi : Int) : Int × Cmp :=
  if lo < hi then (hi - lo, ⟨lo, hi - lo⟩)
  else (-1, ⟨if lo = 0 then -1 else lo, 0⟩)

/-- Counting downwards from a hit. -/
theorem cmpSameLoop_hit_down (h : Split key count x lo hi) (i : Int) (h0 : lo - 1 ≤ i) (h1 : i + 1 < hi) :
    cmpSameLoop key count x i .down ⟨i + 1, hi - (i + 1)⟩ = (hi - lo, ⟨lo, hi - lo⟩) := by
  have := h.lo0; have := h.hic; have := h.lohi
  generalize hn : (i + 1).toNat = n
  induction n generalizing i with
  | zero =>
    unfold cmpSameLoop
    rw [if_neg (by omega), if_pos (by simp only; omega)]
    have : i + 1 = lo := by omega
    rw [this]
  | succ n ih =>
    unfold cmpSameLoop
    rw [if_pos (by omega)]
    rcases h.tri (i := i) (by omega) (by omega) with ⟨a, b⟩ | ⟨a, b, c⟩ | ⟨a, b⟩
    · rw [if_pos (by omega), if_pos (by simp only; omega)]
      have : i + 1 = lo := by omega
      rw [this]
    · rw [if_neg (by omega), if_neg (by omega), if_neg (by simp only; omega), if_pos rfl]
      have := ih (i - 1) (by omega) (by omega) (by omega)
      rw [show i - 1 + 1 = i by omega] at this
      simp only
      rw [show hi - (i + 1) + 1 = hi - i by omega]
      exact this
    · omega

/-- Counting upwards from a hit. -/
theorem cmpSameLoop_hit_up (h : Split key count x lo hi) (i : Int) (h0 : lo < i) (h1 : i ≤ hi) :
    cmpSameLoop key count x i .up ⟨lo, i - lo⟩ = (hi - lo, ⟨lo, hi - lo⟩) := by
  have := h.lo0; have := h.hic; have := h.lohi
  generalize hn : (count - i).toNat = n
  induction n generalizing i with
  | zero =>
    unfold cmpSameLoop
    rw [if_neg (by omega), if_pos (by simp only; omega)]
    have : i = hi := by omega
    rw [this]
  | succ n ih =>
    unfold cmpSameLoop
    rw [if_pos (by omega)]
    rcases h.tri (i := i) (by omega) (by omega) with ⟨a, b⟩ | ⟨a, b, c⟩ | ⟨a, b⟩
    · omega
    · rw [if_neg (by omega), if_neg (by omega), if_neg (by simp only; omega), if_neg (by simp), if_pos rfl]
      have := ih (i + 1) (by omega) (by omega) (by omega)
      simp only
      rw [show i - lo + 1 = i + 1 - lo by omega]
      exact this
    · rw [if_neg (by omega), if_pos (by omega), if_pos (by simp only; omega)]
      have : i = hi := by omega
      rw [this]

theorem cmpSameLoop_up (h : Split key count x lo hi) (i : Int) (h0 : 1 ≤ i) (h1 : i ≤ lo) :
    cmpSameLoop key count x i .up ⟨-1, 0⟩ = sameRes count lo hi := by
  have := h.lo0; have := h.hic; have := h.lohi
  generalize hn : (count - i).toNat = n
  induction n generalizing i with
  | zero =>
    unfold cmpSameLoop sameRes
    rw [if_neg (by omega), if_neg (by simp), if_neg (by omega), if_neg (by omega), if_neg (by omega)]
    have : lo = count := by omega
    simp [this]
  | succ n ih =>
    unfold cmpSameLoop
    rw [if_pos (by omega)]
    rcases h.tri (i := i) (by omega) (by omega) with ⟨a, b⟩ | ⟨a, b, c⟩ | ⟨a, b⟩
    · rw [if_pos (by omega), if_neg (by simp), if_neg (by simp)]
      exact ih (i + 1) (by omega) (by omega) (by omega)
    · rw [if_neg (by omega), if_neg (by omega), if_pos rfl, if_neg (by simp), if_neg (by simp)]
      have hi' : i = lo := by omega
      have := cmpSameLoop_hit_up h (i + 1) (by omega) (by omega)
      rw [show i + 1 - lo = 1 by omega, ← hi'] at this
      rw [this, sameRes, if_pos (by omega), hi']
    · rw [if_neg (by omega), if_pos (by omega), if_neg (by simp), if_pos rfl]
      unfold sameRes
      rw [if_neg (by omega), if_neg (by omega)]
      have : i = lo := by omega
      simp [this]

theorem cmpSameLoop_down (h : Split key count x lo hi) (i : Int) (h0 : -1 ≤ i) (h1 : hi ≤ i + 1) (h2 : i ≤ count - 2) :
    cmpSameLoop key count x i .down ⟨-1, 0⟩ = sameRes count lo hi := by
  have := h.lo0; have := h.hic; have := h.lohi
  generalize hn : (i + 1).toNat = n
  induction n generalizing i with
  | zero =>
    unfold cmpSameLoop sameRes
    rw [if_neg (by omega), if_neg (by simp), if_pos (by omega), if_neg (by omega), if_pos (by omega)]
  | succ n ih =>
    unfold cmpSameLoop
    rw [if_pos (by omega)]
    rcases h.tri (i := i) (by omega) (by omega) with ⟨a, b⟩ | ⟨a, b, c⟩ | ⟨a, b⟩
    · rw [if_pos (by omega), if_neg (by simp), if_pos rfl]
      unfold sameRes
      rw [if_neg (by omega), if_neg (by omega)]
      have : i + 1 = lo := by omega
      simp [this]
    · rw [if_neg (by omega), if_neg (by omega), if_pos rfl, if_neg (by simp), if_pos rfl]
      have := cmpSameLoop_hit_down h (i - 1) (by omega) (by omega)
      rw [show i - 1 + 1 = i by omega, show hi - i = 1 by omega] at this
      rw [this, sameRes, if_pos (by omega)]
    · rw [if_neg (by omega), if_pos (by omega), if_neg (by simp), if_neg (by simp)]
      exact ih (i - 1) (by omega) (by omega) (by omega) (by omega)

theorem cmpSame_spec (h : Split key count x lo hi) (hint : Int) (h0 : 0 ≤ hint) (h1 : hint < count) :
    cmpSame key count hint x = sameRes count lo hi := by
  have := h.lo0; have := h.hic; have := h.lohi
  unfold cmpSame
  rw [if_neg (by omega)]
  unfold cmpSameLoop
  rw [if_pos (by omega)]
  rcases h.tri (i := hint) (by omega) (by omega) with ⟨a, b⟩ | ⟨a, b, c⟩ | ⟨a, b⟩
  · rw [if_pos (by omega), if_neg (by simp), if_neg (by simp)]
    exact cmpSameLoop_up h _ (by omega) (by omega)
  · rw [if_neg (by omega), if_neg (by omega), if_pos rfl, if_pos rfl]
    rw [countUp_spec h _ (by omega) (by omega)]
    have := cmpSameLoop_hit_down h (hint - 1) (by omega) (by omega)
    rw [show hint - 1 + 1 = hint by omega] at this
    rw [show hi - (hint + 1) + 1 = hi - hint by omega, this, sameRes, if_pos (by omega)]
  · rw [if_neg (by omega), if_pos (by omega), if_neg (by simp), if_neg (by simp)]
    exact cmpSameLoop_down h _ (by omega) (by omega) (by omega)

/-! ### range_head / range_tail -/

/-- What `_fmap_cmp_range_head` reports. -/
def rangeHeadRes (count lo hi : Int) (r : Find × Int) : Prop :=
  (lo < hi ∧ r = (.ok, lo)) ∨
  (lo = hi ∧ lo = 0 ∧ r.1 = .headNone) ∨
  (lo = hi ∧ lo = count ∧ 0 < lo ∧ r.1 = .tailNone) ∨
  (lo = hi ∧ 0 < lo ∧ lo < count ∧ r = (.ago, lo - 1))

theorem rangeHeadLoop_hit (h : Split key count x lo hi) (i n : Int) (hn : 0 < n) (h0 : lo - 1 ≤ i) (h1 : i + 1 < hi) :
    rangeHeadLoop key count x i .down ⟨i + 1, n⟩ = (.ok, lo) := by
  have := h.lo0; have := h.hic; have := h.lohi
  generalize hm : (i + 1).toNat = m
  induction m generalizing i n with
  | zero =>
    unfold rangeHeadLoop
    rw [if_neg (by omega), if_pos (by simp only; omega)]
    have : i + 1 = lo := by omega
    rw [this]
  | succ m ih =>
    unfold rangeHeadLoop
    rw [if_pos (by omega)]
    rcases h.tri (i := i) (by omega) (by omega) with ⟨a, b⟩ | ⟨a, b, c⟩ | ⟨a, b⟩
    · rw [if_pos (by omega), if_pos (by simp only; omega)]
      have : i + 1 = lo := by omega
      rw [this]
    · rw [if_neg (by omega), if_neg (by omega), if_neg (by simp)]
      have := ih (i - 1) (n + 1) (by omega) (by omega) (by omega) (by omega)
      rw [show i - 1 + 1 = i by omega] at this
      exact this
    · omega

theorem rangeHeadLoop_up (h : Split key count x lo hi) (i : Int) (h0 : 1 ≤ i) (h1 : i ≤ lo) :
    rangeHeadRes count lo hi (rangeHeadLoop key count x i .up ⟨-1, 0⟩) := by
  have := h.lo0; have := h.hic; have := h.lohi
  generalize hm : (count - i).toNat = m
  induction m generalizing i with
  | zero =>
    unfold rangeHeadLoop
    rw [if_neg (by omega), if_neg (by simp), if_neg (by omega)]
    exact .inr (.inr (.inl ⟨by omega, by omega, by omega, rfl⟩))
  | succ m ih =>
    unfold rangeHeadLoop
    rw [if_pos (by omega)]
    rcases h.tri (i := i) (by omega) (by omega) with ⟨a, b⟩ | ⟨a, b, c⟩ | ⟨a, b⟩
    · rw [if_pos (by omega), if_neg (by simp), if_neg (by simp)]
      exact ih (i + 1) (by omega) (by omega) (by omega)
    · rw [if_neg (by omega), if_neg (by omega), if_pos rfl]
      exact .inl ⟨by omega, by rw [show i = lo by omega]⟩
    · rw [if_neg (by omega), if_pos (by omega), if_neg (by simp), if_pos rfl]
      exact .inr (.inr (.inr ⟨by omega, by omega, by omega, by rw [show i = lo by omega]⟩))

theorem rangeHeadLoop_down (h : Split key count x lo hi) (i : Int) (h0 : -1 ≤ i) (h1 : hi ≤ i + 1) (h2 : i ≤ count - 2) :
    rangeHeadRes count lo hi (rangeHeadLoop key count x i .down ⟨-1, 0⟩) := by
  have := h.lo0; have := h.hic; have := h.lohi
  generalize hm : (i + 1).toNat = m
  induction m generalizing i with
  | zero =>
    unfold rangeHeadLoop
    rw [if_neg (by omega), if_neg (by simp), if_pos (by omega)]
    exact .inr (.inl ⟨by omega, by omega, rfl⟩)
  | succ m ih =>
    unfold rangeHeadLoop
    rw [if_pos (by omega)]
    rcases h.tri (i := i) (by omega) (by omega) with ⟨a, b⟩ | ⟨a, b, c⟩ | ⟨a, b⟩
    · rw [if_pos (by omega), if_neg (by simp), if_pos rfl]
      exact .inr (.inr (.inr ⟨by omega, by omega, by omega, by rw [show i = lo - 1 by omega]⟩))
    · rw [if_neg (by omega), if_neg (by omega), if_neg (by simp)]
      have := rangeHeadLoop_hit h (i - 1) (0 + 1) (by omega) (by omega) (by omega)
      rw [show i - 1 + 1 = i by omega] at this
      rw [this]
      exact .inl ⟨by omega, rfl⟩
    · rw [if_neg (by omega), if_pos (by omega), if_neg (by simp), if_neg (by simp)]
      exact ih (i - 1) (by omega) (by omega) (by omega) (by omega)

theorem rangeHead_spec (h : Split key count x lo hi) (hint : Int) (h0 : 0 ≤ hint) (h1 : hint < count) :
    rangeHeadRes count lo hi (rangeHead key count hint x) := by
  have := h.lo0; have := h.hic; have := h.lohi
  unfold rangeHead rangeHeadLoop
  rw [if_pos (by omega)]
  rcases h.tri (i := hint) (by omega) (by omega) with ⟨a, b⟩ | ⟨a, b, c⟩ | ⟨a, b⟩
  · rw [if_pos (by omega), if_neg (by simp), if_neg (by simp)]
    exact rangeHeadLoop_up h _ (by omega) (by omega)
  · rw [if_neg (by omega), if_neg (by omega), if_neg (by simp)]
    have := rangeHeadLoop_hit h (hint - 1) (0 + 1) (by omega) (by omega) (by omega)
    rw [show hint - 1 + 1 = hint by omega] at this
    rw [this]
    exact .inl ⟨by omega, rfl⟩
  · rw [if_neg (by omega), if_pos (by omega), if_neg (by simp), if_neg (by simp)]
    exact rangeHeadLoop_down h _ (by omega) (by omega) (by omega)

/-- What `_fmap_cmp_range_tail` reports: "before everything", "behind everything" or the last record not above `x`. -/
def rangeTailRes (count hi : Int) (r : Find × Int) : Prop :=
  (hi = 0 ∧ r.1 = .headNone) ∨
  (hi = count ∧ 0 < hi ∧ r.1 = .tailNone) ∨
  (0 < hi ∧ (r.1 = .ok ∨ r.1 = .ago) ∧ r.2 = hi - 1)

theorem rangeTailLoop_hit (h : Split key count x lo hi) (i n : Int) (hn : 0 < n) (h0 : lo < i) (h1 : i ≤ hi) :
    rangeTailLoop key count x i .up ⟨i - 1, n⟩ = (.ok, hi - 1) := by
  have := h.lo0; have := h.hic; have := h.lohi
  generalize hm : (count - i).toNat = m
  induction m generalizing i n with
  | zero =>
    unfold rangeTailLoop
    rw [if_neg (by omega), if_pos (by simp only; omega)]
    have : i = hi := by omega
    rw [this]
  | succ m ih =>
    unfold rangeTailLoop
    rw [if_pos (by omega)]
    rcases h.tri (i := i) (by omega) (by omega) with ⟨a, b⟩ | ⟨a, b, c⟩ | ⟨a, b⟩
    · omega
    · rw [if_neg (by omega), if_neg (by omega), if_neg (by simp)]
      have := ih (i + 1) (n + 1) (by omega) (by omega) (by omega) (by omega)
      rw [show i + 1 - 1 = i by omega] at this
      exact this
    · rw [if_neg (by omega), if_pos (by omega), if_pos (by simp only; omega)]
      have : i = hi := by omega
      rw [this]

theorem rangeTailLoop_up (h : Split key count x lo hi) (i : Int) (h0 : 1 ≤ i) (h1 : i ≤ lo) :
    rangeTailRes count hi (rangeTailLoop key count x i .up ⟨-1, 0⟩) := by
  have := h.lo0; have := h.hic; have := h.lohi
  generalize hm : (count - i).toNat = m
  induction m generalizing i with
  | zero =>
    unfold rangeTailLoop
    rw [if_neg (by omega), if_neg (by simp), if_neg (by omega)]
    exact .inr (.inl ⟨by omega, by omega, rfl⟩)
  | succ m ih =>
    unfold rangeTailLoop
    rw [if_pos (by omega)]
    rcases h.tri (i := i) (by omega) (by omega) with ⟨a, b⟩ | ⟨a, b, c⟩ | ⟨a, b⟩
    · rw [if_pos (by omega), if_neg (by simp), if_neg (by simp)]
      exact ih (i + 1) (by omega) (by omega) (by omega)
    · rw [if_neg (by omega), if_neg (by omega), if_neg (by simp)]
      have := rangeTailLoop_hit h (i + 1) (0 + 1) (by omega) (by omega) (by omega)
      rw [show i + 1 - 1 = i by omega] at this
      rw [this]
      exact .inr (.inr ⟨by omega, .inl rfl, rfl⟩)
    · rw [if_neg (by omega), if_pos (by omega), if_neg (by simp), if_pos rfl]
      exact .inr (.inr ⟨by omega, .inr rfl, by simp only; omega⟩)

theorem rangeTailLoop_down (h : Split key count x lo hi) (i : Int) (h0 : -1 ≤ i) (h1 : hi ≤ i + 1) (h2 : i ≤ count - 2) :
    rangeTailRes count hi (rangeTailLoop key count x i .down ⟨-1, 0⟩) := by
  have := h.lo0; have := h.hic; have := h.lohi
  generalize hm : (i + 1).toNat = m
  induction m generalizing i with
  | zero =>
    unfold rangeTailLoop
    rw [if_neg (by omega), if_neg (by simp), if_pos (by omega)]
    exact .inl ⟨by omega, rfl⟩
  | succ m ih =>
    unfold rangeTailLoop
    rw [if_pos (by omega)]
    rcases h.tri (i := i) (by omega) (by omega) with ⟨a, b⟩ | ⟨a, b, c⟩ | ⟨a, b⟩
    · rw [if_pos (by omega), if_neg (by simp), if_pos rfl]
      exact .inr (.inr ⟨by omega, .inr rfl, by simp only; omega⟩)
    · rw [if_neg (by omega), if_neg (by omega), if_pos rfl]
      exact .inr (.inr ⟨by omega, .inl rfl, by simp only; omega⟩)
    · rw [if_neg (by omega), if_pos (by omega), if_neg (by simp), if_neg (by simp)]
      exact ih (i - 1) (by omega) (by omega) (by omega) (by omega)

theorem rangeTail_spec (h : Split key count x lo hi) (hint : Int) (h0 : 0 ≤ hint) (h1 : hint < count) :
    rangeTailRes count hi (rangeTail key count hint x) := by
  have := h.lo0; have := h.hic; have := h.lohi
  unfold rangeTail rangeTailLoop
  rw [if_pos (by omega)]
  rcases h.tri (i := hint) (by omega) (by omega) with ⟨a, b⟩ | ⟨a, b, c⟩ | ⟨a, b⟩
  · rw [if_pos (by omega), if_neg (by simp), if_neg (by simp)]
    exact rangeTailLoop_up h _ (by omega) (by omega)
  · rw [if_neg (by omega), if_neg (by omega), if_neg (by simp)]
    have := rangeTailLoop_hit h (hint + 1) (0 + 1) (by omega) (by omega) (by omega)
    rw [show hint + 1 - 1 = hint by omega] at this
    rw [this]
    exact .inr (.inr ⟨by omega, .inl rfl, rfl⟩)
  · rw [if_neg (by omega), if_pos (by omega), if_neg (by simp), if_neg (by simp)]
    exact rangeTailLoop_down h _ (by omega) (by omega) (by omega)

/-- `cmp_range` in terms of the two splits. -/
theorem cmpRange_spec {lo1 hi1 lo2 hi2 : Int} (start stop : Int) (ifprev : Bool) (hintOf : Nat → Int) (hc : 0 < count)
    (hh : ∀ y, 0 ≤ hintOf y ∧ hintOf y < count)
    (h1 : Split key count (if start ≤ -1 then key (max 0 (count + start)) else start.toNat) lo1 hi1)
    (h2 : Split key count (if stop ≤ -1 then key (count - 1)
      else if stop = 0 then (if start ≤ -1 then key (max 0 (count + start)) else start.toNat) else stop.toNat) lo2 hi2) :
    cmpRange key count hintOf start stop ifprev =
      (let b := if ifprev ∧ lo1 = hi1 ∧ 0 < lo1 then lo1 - 1 else lo1
       if b < hi2 then (b, ⟨b, hi2 - b⟩) else (-1, ⟨-1, 0⟩)) := by
  unfold cmpRange
  simp only
  rw [if_neg (by omega)]
  generalize (if start ≤ -1 then key (max 0 (count + start)) else start.toNat) = s' at *
  generalize (if stop ≤ -1 then key (count - 1) else if stop = 0 then s' else stop.toNat) = t' at *
  have a := rangeHead_spec h1 (hintOf s') (hh s').1 (hh s').2
  have b := rangeTail_spec h2 (hintOf t') (hh t').1 (hh t').2
  have := h1.lo0; have := h1.hic; have := h1.lohi
  have := h2.lo0; have := h2.hic; have := h2.lohi
  generalize rangeHead key count (hintOf s') s' = r1 at a
  generalize rangeTail key count (hintOf t') t' = r2 at b
  obtain ⟨f1, i1⟩ := r1
  obtain ⟨f2, i2⟩ := r2
  have hb : 0 ≤ (if ifprev ∧ lo1 = hi1 ∧ 0 < lo1 then lo1 - 1 else lo1) := by split <;> omega
  have fin : ∀ hd t : Int, 0 ≤ hd → t = hi2 - 1 → 0 < hi2 →
      (if hd < 0 ∨ t < 0 ∨ hd > t then ((-1, ⟨-1, 0⟩) : Int × Cmp) else (hd, ⟨hd, t - hd + 1⟩)) =
      if hd < hi2 then (hd, ⟨hd, hi2 - hd⟩) else (-1, ⟨-1, 0⟩) := by
    intro hd t h0 ht h0
    by_cases hlt : hd < hi2
    · rw [if_neg (by omega), if_pos hlt, show t - hd + 1 = hi2 - hd by omega]
    · rw [if_pos (by omega), if_neg hlt]
  have hd : headIdx count ifprev (f1, i1) = some (if ifprev ∧ lo1 = hi1 ∧ 0 < lo1 then lo1 - 1 else lo1) ∨
      (headIdx count ifprev (f1, i1) = none ∧ lo1 = count ∧ ifprev = false) := by
    clear b fin hb
    rcases a with ⟨p, q⟩ | ⟨p, q, r⟩ | ⟨p, q, r, s⟩ | ⟨p, q, r, s⟩
    · simp only [Prod.mk.injEq] at q
      obtain ⟨rfl, q⟩ := q
      rw [q, if_neg (by omega)]
      exact .inl rfl
    · simp only at r
      subst r
      rw [if_neg (by omega), q]
      exact .inl rfl
    · simp only at s
      rw [s]
      cases ifprev with
      | true => rw [if_pos ⟨rfl, p, r⟩, q]; exact .inl rfl
      | false => exact .inr ⟨rfl, q, rfl⟩
    · simp only [Prod.mk.injEq] at s
      rw [s.1, s.2]
      cases ifprev with
      | true => rw [if_pos ⟨rfl, p, q⟩]; exact .inl rfl
      | false => left; simp [headIdx]; omega
  rcases hd with hd | ⟨hd, e1, e2⟩
  · generalize (if ifprev ∧ lo1 = hi1 ∧ 0 < lo1 then lo1 - 1 else lo1) = w at *
    rw [hd]
    clear a h1
    rcases b with ⟨p, q⟩ | ⟨p, q, r⟩ | ⟨p, q, r⟩
    · simp only at q; subst q
      rw [if_neg (by omega)]
    · simp only at r; subst r
      rw [← fin w (count - 1) hb (by omega) q]
      simp
    · simp only at q r
      rw [← fin w i2 hb r p]
      rcases q with rfl | rfl <;> simp
  · rw [if_neg (by simp [e2]; omega), hd]

end Sis.Fmap
