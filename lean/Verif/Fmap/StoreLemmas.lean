import Verif.Fmap.Store
import Verif.Fmap.SearchLemmas
import Verif.Fmap.Spec
/- Helper lemmas for the theorems on series. -/
namespace Sis.Fmap

variable {α : Type}

theorem countP_iff {R : α → α → Prop} {p : α → Bool} (hp : ∀ a b, R a b → p b = true → p a = true) :
    ∀ {l : List α}, l.Pairwise R → ∀ i (h : i < l.length), (p l[i] = true ↔ i < l.countP p)
  | [], _, i, h => by simp at h
  | a :: l, hl, i, h => by
    rw [List.pairwise_cons] at hl
    rw [List.countP_cons]
    by_cases ha : p a = true
    · cases i with
      | zero => simp [ha]
      | succ i =>
        have := countP_iff hp hl.2 i (by simpa using h)
        simp only [List.getElem_cons_succ, ha, if_true]; rw [this]; omega
    · have h0 : l.countP p = 0 := by
        rw [List.countP_eq_zero]
        intro b hb hpb
        exact ha (hp a b (hl.1 b hb) hpb)
      rw [h0, if_neg ha]
      cases i with
      | zero => simp [ha]
      | succ i =>
        simp only [List.getElem_cons_succ]
        have hm : l[i]'(by simpa using h) ∈ l := List.getElem_mem _
        have : ¬ p (l[i]'(by simpa using h)) = true := fun hpb => ha (hp a _ (hl.1 _ hm) hpb)
        simp [this]

theorem filter_eq_take {R : α → α → Prop} {p : α → Bool} (hp : ∀ a b, R a b → p b = true → p a = true) :
    ∀ {l : List α}, l.Pairwise R → l.filter p = l.take (l.countP p)
  | [], _ => rfl
  | a :: l, hl => by
    rw [List.pairwise_cons] at hl
    rw [List.countP_cons]
    by_cases ha : p a = true
    · simp [ha, filter_eq_take hp hl.2]
    · have h0 : l.countP p = 0 := by
        rw [List.countP_eq_zero]
        intro b hb hpb
        exact ha (hp a b (hl.1 b hb) hpb)
      have h1 : l.filter p = [] := by
        rw [List.filter_eq_nil_iff]
        intro b hb hpb
        exact ha (hp a b (hl.1 b hb) hpb)
      simp [ha, h0, h1]

theorem filter_not_eq_drop {R : α → α → Prop} {p : α → Bool} (hp : ∀ a b, R a b → p b = true → p a = true) :
    ∀ {l : List α}, l.Pairwise R → l.filter (fun a => !p a) = l.drop (l.countP p)
  | [], _ => rfl
  | a :: l, hl => by
    rw [List.pairwise_cons] at hl
    rw [List.countP_cons]
    by_cases ha : p a = true
    · simp [ha, filter_not_eq_drop hp hl.2]
    · have h0 : l.countP p = 0 := by
        rw [List.countP_eq_zero]
        intro b hb hpb
        exact ha (hp a b (hl.1 b hb) hpb)
      have h1 : l.filter (fun a => !p a) = l := by
        rw [List.filter_eq_self]
        intro b hb
        have : ¬ p b = true := fun hpb => ha (hp a b (hl.1 b hb) hpb)
        simpa using this
      simp [ha, h0, h1]

/-- Number of records below / not above `x`. -/
def lo (ts : α → Nat) (l : List α) (x : Nat) : Nat := l.countP fun r => decide (ts r < x)
def hi (ts : α → Nat) (l : List α) (x : Nat) : Nat := l.countP fun r => decide (ts r ≤ x)

theorem lo_le_hi (ts : α → Nat) (l : List α) {x y : Nat} (h : x ≤ y) : lo ts l x ≤ hi ts l y := by
  unfold lo hi
  exact List.countP_mono_left (by intro a _ ha; simp at ha ⊢; omega)

theorem hi_le_lo (ts : α → Nat) (l : List α) {x y : Nat} (h : x < y) : hi ts l x ≤ lo ts l y := by
  unfold lo hi
  exact List.countP_mono_left (by intro a _ ha; simp at ha ⊢; omega)

theorem hi_le (ts : α → Nat) (l : List α) (x : Nat) : hi ts l x ≤ l.length := List.countP_le_length
theorem lo_le (ts : α → Nat) (l : List α) (x : Nat) : lo ts l x ≤ l.length := List.countP_le_length

theorem closed_lt (ts : α → Nat) (x : Nat) : ∀ a b, ts a ≤ ts b → decide (ts b < x) = true → decide (ts a < x) = true := by
  intro a b h h2; simp at h2 ⊢; omega
theorem closed_le (ts : α → Nat) (x : Nat) : ∀ a b, ts a ≤ ts b → decide (ts b ≤ x) = true → decide (ts a ≤ x) = true := by
  intro a b h h2; simp at h2 ⊢; omega

theorem lt_lo {ts : α → Nat} {l : List α} (hs : Sorted ts l) {x i : Nat} (h : i < l.length) : ts l[i] < x ↔ i < lo ts l x := by
  have := countP_iff (closed_lt ts x) hs i h
  simpa [lo] using this

theorem le_hi {ts : α → Nat} {l : List α} (hs : Sorted ts l) {x i : Nat} (h : i < l.length) : ts l[i] ≤ x ↔ i < hi ts l x := by
  have := countP_iff (closed_le ts x) hs i h
  simpa [hi] using this

theorem keyOf_get (ts : α → Nat) (l : List α) {i : Int} (h0 : 0 ≤ i) (h1 : i < l.length) :
    keyOf ts l i = ts (l[i.toNat]'(by omega)) := by
  unfold keyOf
  rw [if_neg (by omega), List.getElem?_eq_getElem (by omega)]

theorem split_of_sorted {ts : α → Nat} {l : List α} (hs : Sorted ts l) (x : Nat) :
    Split (keyOf ts l) l.length x (lo ts l x) (hi ts l x) where
  lo0 := Int.natCast_nonneg _
  lohi := by have := lo_le_hi ts l (Nat.le_refl x); omega
  hic := by have := hi_le ts l x; omega
  lt_iff := by
    intro i h0 h1
    rw [keyOf_get ts l h0 h1, lt_lo hs]; omega
  le_iff := by
    intro i h0 h1
    rw [keyOf_get ts l h0 h1, le_hi hs]; omega

theorem filter_lt {ts : α → Nat} {l : List α} (hs : Sorted ts l) (x : Nat) : recordsBefore ts l x = l.take (lo ts l x) :=
  filter_eq_take (closed_lt ts x) hs

theorem filter_ge {ts : α → Nat} {l : List α} (hs : Sorted ts l) (x : Nat) :
    l.filter (fun r => !decide (ts r < x)) = l.drop (lo ts l x) :=
  filter_not_eq_drop (closed_lt ts x) hs

theorem filter_le {ts : α → Nat} {l : List α} (hs : Sorted ts l) (x : Nat) :
    l.filter (fun r => decide (ts r ≤ x)) = l.take (hi ts l x) :=
  filter_eq_take (closed_le ts x) hs

theorem filter_gt {ts : α → Nat} {l : List α} (hs : Sorted ts l) (x : Nat) :
    l.filter (fun r => !decide (ts r ≤ x)) = l.drop (hi ts l x) :=
  filter_not_eq_drop (closed_le ts x) hs

/-- The records between two positions. -/
def seg (l : List α) (a b : Nat) : List α := (l.drop a).take (b - a)

theorem recordsIn_seg {ts : α → Nat} {l : List α} (hs : Sorted ts l) (a b : Nat) :
    recordsIn ts l a b = seg l (lo ts l a) (hi ts l b) := by
  have h1 : recordsIn ts l a b = (l.filter (fun r => decide (ts r ≤ b))).filter (fun r => !decide (ts r < a)) := by
    rw [List.filter_filter]
    unfold recordsIn
    apply List.filter_congr
    intro r _
    by_cases h : a ≤ ts r <;> simp [h] <;> omega
  have hs2 : Sorted ts (l.filter (fun r => decide (ts r ≤ b))) := List.Pairwise.filter _ hs
  rw [h1, filter_ge hs2]
  rw [filter_le hs, List.drop_take]
  unfold seg lo
  by_cases hab : lo ts l a ≤ hi ts l b
  · have : (l.take (hi ts l b)).countP (fun r => decide (ts r < a)) = lo ts l a := by
      have e := congrArg List.length (filter_lt hs a)
      have : (l.take (hi ts l b)).countP (fun r => decide (ts r < a)) =
          (((l.filter (fun r => decide (ts r ≤ b)))).filter (fun r => decide (ts r < a))).length := by
        rw [filter_le hs, List.countP_eq_length_filter]
      rw [this, List.filter_filter]
      by_cases hba : a ≤ b + 1
      · have : l.filter (fun r => decide (ts r < a) && decide (ts r ≤ b)) = l.filter (fun r => decide (ts r < a)) := by
          apply List.filter_congr
          intro r _
          by_cases h : ts r < a
          · simp [h]; omega
          · simp [h]
        rw [this, ← List.countP_eq_length_filter]; rfl
      · have e2 := hi_le_lo ts l (show b < a by omega)
        have : l.filter (fun r => decide (ts r < a) && decide (ts r ≤ b)) = l.filter (fun r => decide (ts r ≤ b)) := by
          apply List.filter_congr
          intro r _
          by_cases h : ts r ≤ b
          · simp [h]; omega
          · simp [h]
        rw [this, ← List.countP_eq_length_filter]
        show hi ts l b = lo ts l a
        omega
    rw [this]; rfl
  · have hba : b < a := by
      apply Decidable.byContradiction
      intro hn
      exact hab (lo_le_hi ts l (by omega))
    have : (l.take (hi ts l b)).countP (fun r => decide (ts r < a)) = (l.take (hi ts l b)).length := by
      rw [List.countP_eq_length]
      intro r hr
      rw [← filter_le hs] at hr
      simp at hr ⊢
      omega
    rw [this]
    have h3 := hi_le ts l b
    have e1 : hi ts l b - (l.take (hi ts l b)).length = 0 := by simp; omega
    have e2 : hi ts l b - List.countP (fun r => decide (ts r < a)) l = 0 := by
      show hi ts l b - lo ts l a = 0
      omega
    rw [e1, e2]; simp

theorem recordsAt_eq_in (ts : α → Nat) (l : List α) (t : Nat) : recordsAt ts l t = recordsIn ts l t t := by
  unfold recordsAt recordsIn
  apply List.filter_congr
  intro r _
  by_cases h : ts r = t
  · simp [h]
  · simp [h]; omega

theorem recordsAt_seg {ts : α → Nat} {l : List α} (hs : Sorted ts l) (t : Nat) :
    recordsAt ts l t = seg l (lo ts l t) (hi ts l t) := by
  rw [recordsAt_eq_in, recordsIn_seg hs]

theorem seg_length (l : List α) {a b : Nat} (h : b ≤ l.length) : (seg l a b).length = b - a := by
  unfold seg; simp; omega

theorem seg_nil (l : List α) {a b : Nat} (h : b ≤ a) : seg l a b = [] := by
  unfold seg; rw [show b - a = 0 by omega]; rfl

/-- Everything outside a range. -/
theorem filter_out {ts : α → Nat} {l : List α} (hs : Sorted ts l) {a b : Nat} (hab : a ≤ b + 1) :
    l.filter (fun r => !(decide (a ≤ ts r) && decide (ts r ≤ b))) = l.take (lo ts l a) ++ l.drop (hi ts l b) := by
  induction l with
  | nil => simp [lo, hi]
  | cons r l ih =>
    have hs' : Sorted ts l := (List.pairwise_cons.1 hs).2
    have hr := (List.pairwise_cons.1 hs).1
    have ih := ih hs'
    unfold lo hi
    rw [List.countP_cons, List.countP_cons]
    by_cases h1 : ts r < a
    · have h2 : ts r ≤ b := by omega
      have h3 : ¬ a ≤ ts r := by omega
      simp only [h1, h2, h3, decide_true, decide_false, if_true, Bool.false_and, Bool.not_false, List.filter_cons_of_pos,
        List.take_succ_cons, List.drop_succ_cons, List.cons_append]
      rw [ih]; rfl
    · have z : l.countP (fun r => decide (ts r < a)) = 0 := by
        rw [List.countP_eq_zero]; intro c hc; have := hr c hc; simp; omega
      have z' : lo ts l a = 0 := z
      have h3 : a ≤ ts r := by omega
      rw [z', List.take_zero, List.nil_append] at ih
      by_cases h2 : ts r ≤ b
      · simp only [z, h1, h2, h3, decide_true, decide_false, if_true, Bool.and_self, Bool.not_true, Bool.false_eq_true,
          if_false, Nat.add_zero, List.take_zero, List.nil_append, List.drop_succ_cons, not_false_eq_true, List.filter_cons_of_neg]
        exact ih
      · have y : l.countP (fun r => decide (ts r ≤ b)) = 0 := by
          rw [List.countP_eq_zero]; intro c hc; have := hr c hc; simp; omega
        have y' : hi ts l b = 0 := y
        rw [y', List.drop_zero] at ih
        simp only [z, y, h1, h2, h3, decide_true, decide_false, if_true, Bool.and_false, Bool.not_false, Bool.false_eq_true,
          if_false, Nat.add_zero, List.take_zero, List.nil_append, List.drop_zero, List.filter_cons_of_pos, ih]

/-! ### insertion -/

theorem insert_perm (l : List α) (k : Nat) (r : α) : (l.take k ++ r :: l.drop k).Perm (l ++ [r]) := by
  have h1 : (l.take k ++ r :: l.drop k).Perm (r :: (l.take k ++ l.drop k)) := List.perm_middle
  rw [List.take_append_drop] at h1
  exact h1.trans (List.perm_append_singleton r l).symm

theorem insert_sorted {ts : α → Nat} {l : List α} (hs : Sorted ts l) (r : α) {k : Nat} (h1 : lo ts l (ts r) ≤ k) (h2 : k ≤ hi ts l (ts r)) :
    Sorted ts (l.take k ++ r :: l.drop k) := by
  have hk : k ≤ l.length := Nat.le_trans h2 (hi_le _ _ _)
  unfold Sorted
  rw [List.pairwise_append, List.pairwise_cons]
  have below : ∀ a ∈ l.take k, ts a ≤ ts r := by
    intro a ha
    rw [List.mem_take_iff_getElem] at ha
    obtain ⟨i, hi', rfl⟩ := ha
    exact (le_hi hs (by omega)).2 (by omega)
  have above : ∀ b ∈ l.drop k, ts r ≤ ts b := by
    intro b hb
    rw [List.mem_drop_iff_getElem] at hb
    obtain ⟨i, hi', rfl⟩ := hb
    have := lt_lo hs (x := ts r) (i := k + i) (by omega)
    omega
  have hs' : Sorted ts (l.take k ++ l.drop k) := by rw [List.take_append_drop]; exact hs
  refine ⟨List.Pairwise.sublist (List.take_sublist _ _) hs, ⟨above, List.Pairwise.sublist (List.drop_sublist _ _) hs⟩, ?_⟩
  intro a ha b hb
  have ha' := below a ha
  rcases List.mem_cons.1 hb with rfl | hb
  · exact ha'
  · exact Nat.le_trans ha' (above b hb)

theorem slInsert_mid (l : List α) (k : Nat) (r : α) (h : k < l.length) : slInsert l k r = l.take k ++ r :: l.drop k := by
  unfold slInsert
  rw [if_neg (by omega)]; simp

theorem append_eq_insert (l : List α) (r : α) : l ++ [r] = l.take l.length ++ r :: l.drop l.length := by simp

end Sis.Fmap
