import Verif.Fmap.IndexSpec
import Verif.Fmap.UpdateTheorems
/-
Facts about the per-period index used by the property theorems.
-/
namespace Sis.Fmap

variable {α : Type}

/-- Sum of the counts of a list of entries. -/
def total : List Fidx → Int
  | [] => 0
  | f :: fs => f.count + total fs

theorem total_cons (f : Fidx) (fs : List Fidx) : total (f :: fs) = f.count + total fs := rfl

theorem countP_split (ps : List Int) (p q : Int → Bool) : ps.countP p = ps.countP (fun x => p x && q x) + ps.countP (fun x => p x && !q x) := by
  induction ps with
  | nil => rfl
  | cons a ps ih => simp only [List.countP_cons, ih]; cases p a <;> cases q a <;> simp <;> omega

/-- The counts of the entries in front of period `p` add up to the number of records of earlier periods. -/
theorem total_lt (ps : List Int) (pre : List Fidx) (hord : pre.Pairwise fun a b => a.isign < b.isign)
    (hc : ∀ f ∈ pre, f.count = (ps.count f.isign : Int)) : total pre = (ps.countP (fun x => decide (x ∈ pre.map Fidx.isign)) : Int) := by
  induction pre with
  | nil => simp [total]
  | cons f pre ih =>
    rw [List.pairwise_cons] at hord
    have := ih hord.2 (fun g hg => hc g (by simp [hg]))
    unfold total
    rw [this, hc f (by simp)]
    rw [countP_split ps (fun x => decide (x ∈ (f :: pre).map Fidx.isign)) (fun x => x == f.isign)]
    have e1 : ps.countP (fun x => decide (x ∈ (f :: pre).map Fidx.isign) && (x == f.isign)) = ps.count f.isign := by
      unfold List.count
      apply List.countP_congr
      intro x _
      simp
      intro h; exact .inl h
    have e2 : ps.countP (fun x => decide (x ∈ (f :: pre).map Fidx.isign) && !(x == f.isign)) =
        ps.countP (fun x => decide (x ∈ pre.map Fidx.isign)) := by
      apply List.countP_congr
      intro x _
      simp
      constructor
      · rintro ⟨h | h, h2⟩
        · exact absurd h h2
        · exact h
      · rintro ⟨g, hg, hx⟩
        refine ⟨.inr ⟨g, hg, hx⟩, ?_⟩
        have := hord.1 g hg
        omega
    rw [e1, e2]
    omega

theorem delLoop_rest (post : List Fidx) (nums : Int) :
    delIdxLoop post 0 0 nums = post.map fun f => { f with start := f.start - nums } := by
  induction post with
  | nil => rfl
  | cons f post ih => unfold delIdxLoop; rw [if_pos ⟨rfl, rfl⟩, ih]; rfl

theorem delLoop_one (pre : List Fidx) (f : Fidx) (post : List Fidx) (index count nums : Int) (hc : 0 < count)
    (hpre : ∀ g ∈ pre, 0 ≤ g.count) (h1 : total pre ≤ index) (h2 : index + count ≤ total pre + f.count) :
    delIdxLoop (pre ++ f :: post) index count nums = pre ++ delIdxLoop.mark { f with count := f.count - count } ::
      post.map fun g => { g with start := g.start - (nums + count) } := by
  induction pre generalizing index with
  | nil =>
    simp only [total, List.nil_append] at *
    unfold delIdxLoop
    rw [if_neg (by omega), if_neg (by omega), if_pos (by omega)]
    simp only
    rw [delLoop_rest]
  | cons g pre ih =>
    have hg := hpre g (by simp)
    have ht : 0 ≤ total pre := by
      have : ∀ l : List Fidx, (∀ g ∈ l, 0 ≤ g.count) → 0 ≤ total l := by
        intro l
        induction l with
        | nil => intro _; simp [total]
        | cons a l ih => intro h; have := ih (fun g hg => h g (by simp [hg])); have := h a (by simp); unfold total; omega
      exact this pre (fun g hg => hpre g (by simp [hg]))
    unfold total at h1 h2
    simp only [List.cons_append]
    conv => lhs; unfold delIdxLoop
    rw [if_neg (by omega), if_pos (by omega), ih _ (fun g hg => hpre g (by simp [hg])) (by omega) (by omega)]

theorem mark_isign (f : Fidx) : (delIdxLoop.mark f).isign = f.isign := by unfold delIdxLoop.mark; split <;> rfl
theorem mark_count (f : Fidx) : (delIdxLoop.mark f).count = f.count := by unfold delIdxLoop.mark; split <;> rfl
theorem mark_moved (f : Fidx) (h : f.moved = true → f.count = 0 ∨ f.count < 0) :
    (delIdxLoop.mark f).moved = true → f.count = 0 ∨ f.count < 0 := by
  unfold delIdxLoop.mark
  split
  · intro _; exact .inl ‹_›
  · exact h

theorem closedI_lt (x : Int) : ∀ a b : Int, a ≤ b → decide (b < x) = true → decide (a < x) = true := by
  intro a b h h2; simp at h2 ⊢; omega
theorem closedI_le (x : Int) : ∀ a b : Int, a ≤ b → decide (b ≤ x) = true → decide (a ≤ x) = true := by
  intro a b h h2; simp at h2 ⊢; omega

/-- Position of the records of one period in a list sorted by period. -/
theorem period_bounds {ps : List Int} (hs : ps.Pairwise (· ≤ ·)) {p : Int} {index count : Nat} (hc : 0 < count)
    (hn : index + count ≤ ps.length) (hp : ∀ i (h : i < ps.length), index ≤ i → i < index + count → ps[i] = p) :
    ps.countP (fun x => decide (x < p)) ≤ index ∧ index + count ≤ ps.countP (fun x => decide (x < p)) + ps.count p := by
  have e : ps.countP (fun x => decide (x ≤ p)) = ps.countP (fun x => decide (x < p)) + ps.count p := by
    rw [countP_split ps (fun x => decide (x ≤ p)) (fun x => decide (x < p))]
    congr 1
    · apply List.countP_congr; intro x _; simp; omega
    · unfold List.count; apply List.countP_congr; intro x _; simp; omega
  constructor
  · have := countP_iff (closedI_lt p) hs index (by omega)
    rw [hp index (by omega) (by omega) (by omega)] at this
    simp at this
    omega
  · have := countP_iff (closedI_le p) hs (index + count - 1) (by omega)
    rw [hp (index + count - 1) (by omega) (by omega) (by omega)] at this
    simp at this
    omega

theorem countP_lt_pre {fs pre post : List Fidx} {f : Fidx} {ps : List Int} (h : IndexDescribes fs ps) (hfs : fs = pre ++ f :: post) :
    total pre = (ps.countP (fun x => decide (x < f.isign)) : Int) := by
  have hord := h.ordered
  rw [hfs, List.pairwise_append, List.pairwise_cons] at hord
  rw [total_lt ps pre hord.1 (fun g hg => h.counts g (by simp [hfs, hg]))]
  congr 1
  apply List.countP_congr
  intro x hx
  simp
  constructor
  · rintro ⟨g, hg, rfl⟩; exact hord.2.2 g hg f (by simp)
  · intro hlt
    obtain ⟨g, hg, rfl⟩ := h.covered x hx
    rw [hfs] at hg
    simp at hg
    rcases hg with hg | rfl | hg
    · exact ⟨g, hg, rfl⟩
    · omega
    · have := hord.2.1.1 g hg; omega

theorem describes_map {fs : List Fidx} {ps : List Int} (m : Fidx → Fidx) (h1 : ∀ f, (m f).isign = f.isign)
    (h2 : ∀ f, (m f).count = f.count) (h3 : ∀ f, (m f).moved = f.moved) (h : IndexDescribes fs ps) : IndexDescribes (fs.map m) ps where
  ordered := by rw [List.pairwise_map]; simpa [h1] using h.ordered
  counts := by intro f hf; simp at hf; obtain ⟨g, hg, rfl⟩ := hf; rw [h1, h2]; exact h.counts g hg
  removed := by intro f hf; simp at hf; obtain ⟨g, hg, rfl⟩ := hf; rw [h2, h3]; exact h.removed g hg
  covered := by
    intro p hp
    obtain ⟨f, hf, rfl⟩ := h.covered p hp
    exact ⟨m f, List.mem_map.2 ⟨f, hf, rfl⟩, h1 f⟩

/-- Replacing one entry and the list of periods: what has to be checked. -/
theorem describes_replace {pre post : List Fidx} {f f' : Fidx} {ps ps' : List Int} (m : Fidx → Fidx)
    (h1 : ∀ f, (m f).isign = f.isign) (h2 : ∀ f, (m f).count = f.count) (h3 : ∀ f, (m f).moved = f.moved)
    (h : IndexDescribes (pre ++ f :: post) ps)
    (hf : f'.isign = f.isign) (hc : f'.count = (ps'.count f.isign : Int)) (hm : f'.moved = true → f'.count = 0)
    (hother : ∀ q, q ≠ f.isign → ps'.count q = ps.count q) :
    IndexDescribes (pre ++ f' :: post.map m) ps' := by
  have hord := h.ordered
  rw [List.pairwise_append, List.pairwise_cons] at hord
  constructor
  · rw [List.pairwise_append, List.pairwise_cons]
    refine ⟨hord.1, ⟨?_, ?_⟩, ?_⟩
    · intro g hg; simp at hg; obtain ⟨x, hx, rfl⟩ := hg; rw [h1, hf]; exact hord.2.1.1 x hx
    · rw [List.pairwise_map]; simpa [h1] using hord.2.1.2
    · intro a ha b hb
      simp at hb
      rcases hb with rfl | ⟨x, hx, rfl⟩
      · rw [hf]; exact hord.2.2 a ha f (by simp)
      · rw [h1]; exact hord.2.2 a ha x (by simp [hx])
  · intro g hg
    simp at hg
    rcases hg with hg | rfl | ⟨x, hx, rfl⟩
    · rw [hother _ (by have := hord.2.2 g hg f (by simp); omega)]
      exact h.counts g (by simp [hg])
    · rw [hf]; exact hc
    · rw [h1, h2, hother _ (by have := hord.2.1.1 x hx; omega)]
      exact h.counts x (by simp [hx])
  · intro g hg
    simp at hg
    rcases hg with hg | rfl | ⟨x, hx, rfl⟩
    · exact h.removed g (by simp [hg])
    · exact hm
    · rw [h2, h3]; exact h.removed x (by simp [hx])
  · intro p hp
    by_cases he : p = f.isign
    · exact ⟨f', by simp, by rw [hf, he]⟩
    · have : p ∈ ps := by
        rw [← List.count_pos_iff, ← hother p he, List.count_pos_iff]; exact hp
      obtain ⟨x, hx, rfl⟩ := h.covered p this
      simp at hx
      rcases hx with hx | rfl | hx
      · exact ⟨x, by simp [hx], rfl⟩
      · exact absurd rfl he
      · exact ⟨m x, by simp; exact .inr (.inr ⟨x, hx, rfl⟩), h1 x⟩

theorem count_nonneg {fs : List Fidx} {ps : List Int} (h : IndexDescribes fs ps) {f : Fidx} (hf : f ∈ fs) : 0 ≤ f.count := by
  rw [h.counts f hf]; exact Int.natCast_nonneg _

theorem mid_replicate {ps : List Int} {p : Int} {index count : Nat} (hn : index + count ≤ ps.length)
    (hp : ∀ i (h : i < ps.length), index ≤ i → i < index + count → ps[i] = p) :
    ps = ps.take index ++ (List.replicate count p ++ ps.drop (index + count)) := by
  have : (ps.drop index).take count = List.replicate count p := by
    apply List.ext_getElem
    · simp; omega
    · intro i h1 h2
      simp at h1 h2
      simp
      exact hp _ (by omega) (by omega) (by omega)
  conv => lhs; rw [← List.take_append_drop index ps]
  congr 1
  conv => lhs; rw [← List.take_append_drop count (ps.drop index)]
  rw [this, List.drop_drop]

/-- Deleting records of one period keeps the index right. -/
theorem delIdx_one {fs : List Fidx} {ps : List Int} (h : IndexDescribes fs ps) (hs : ps.Pairwise (· ≤ ·)) {p : Int} {index count : Nat}
    (hc : 0 < count) (hn : index + count ≤ ps.length)
    (hp : ∀ i (h : i < ps.length), index ≤ i → i < index + count → ps[i] = p) :
    IndexDescribes (delIdx fs index count) (ps.take index ++ ps.drop (index + count)) := by
  have hmem : p ∈ ps := by rw [← hp index (by omega) (by omega) (by omega)]; exact List.getElem_mem _
  obtain ⟨f, hf, hfp⟩ := h.covered p hmem
  obtain ⟨pre, post, hfs⟩ := List.append_of_mem hf
  have hb := period_bounds hs hc hn hp
  have ht := countP_lt_pre h hfs
  have hcf := h.counts f hf
  rw [hfp] at hcf ht
  have hcount : ∀ q, (ps.count q : Int) = (ps.take index ++ ps.drop (index + count)).count q + (if p = q then count else 0 : Nat) := by
    intro q
    conv => lhs; rw [mid_replicate hn hp]
    rw [List.count_append, List.count_append, List.count_append, List.count_replicate]
    simp only [beq_iff_eq]
    omega
  unfold delIdx
  rw [hfs] at h ⊢
  rw [delLoop_one pre f post index count 0 (by omega) (fun g hg => count_nonneg h (by simp [hg])) (by omega) (by omega)]
  refine describes_replace (f := f) (f' := delIdxLoop.mark { f with count := f.count - count }) _ (fun _ => rfl) (fun _ => rfl) (fun _ => rfl) h
    (by rw [mark_isign]) ?_ ?_ ?_
  · rw [mark_count, hfp]
    have := hcount p
    rw [if_pos rfl] at this
    show f.count - (count : Int) = _
    omega
  · rw [mark_count]
    show _ → f.count - (count : Int) = 0
    unfold delIdxLoop.mark
    split
    · intro _; assumption
    · intro hm
      have := h.removed f (by simp) hm
      simp only at *
      omega
  · intro q hq
    have := hcount q
    rw [if_neg (by rw [← hfp]; exact fun e => hq e.symm)] at this
    omega

/-! ### deletes that reach the end of the series -/

theorem total_nonneg : ∀ l : List Fidx, (∀ g ∈ l, 0 ≤ g.count) → 0 ≤ total l
  | [], _ => by simp [total]
  | a :: l, h => by
    have := total_nonneg l (fun g hg => h g (by simp [hg])); have := h a (by simp); unfold total; omega

theorem delLoop_all (post : List Fidx) (count nums : Int) (hc : 0 < count) (hpost : ∀ g ∈ post, 0 ≤ g.count) (h : total post < count) :
    (delIdxLoop post 0 count nums).map Fidx.isign = post.map Fidx.isign ∧ ∀ g ∈ delIdxLoop post 0 count nums, g.count = 0 := by
  induction post generalizing nums with
  | nil => simp [delIdxLoop]
  | cons f post ih =>
    have h0 := total_nonneg post (fun g hg => hpost g (by simp [hg]))
    have hf := hpost f (by simp)
    unfold total at h
    unfold delIdxLoop
    rw [if_neg (by omega)]
    by_cases hz : (0 : Int) ≥ f.count
    · rw [if_pos hz, show (0 : Int) - f.count = 0 by omega]
      have := ih nums (fun g hg => hpost g (by simp [hg])) (by omega)
      refine ⟨by simp [this.1], ?_⟩
      intro g hg
      simp only [List.mem_cons] at hg
      rcases hg with rfl | hg
      · omega
      · exact this.2 g hg
    · rw [if_neg hz, if_neg (by omega)]
      simp only
      rw [show count - (f.count - (f.count - 0) - 0) = count by omega]
      have := ih (nums + (f.count - 0)) (fun g hg => hpost g (by simp [hg])) (by omega)
      refine ⟨by rw [List.map_cons, this.1, mark_isign]; rfl, ?_⟩
      intro g hg
      simp only [List.mem_cons] at hg
      rcases hg with rfl | hg
      · rw [mark_count]; simp
      · exact this.2 g hg

theorem delLoop_tail (pre : List Fidx) (f : Fidx) (post : List Fidx) (index count nums : Int) (hc : 0 < count)
    (hpre : ∀ g ∈ pre, 0 ≤ g.count) (hpost : ∀ g ∈ post, 0 ≤ g.count) (h1 : total pre ≤ index) (h2 : index < total pre + f.count)
    (h3 : index + count = total pre + f.count + total post) :
    ∃ f' post', delIdxLoop (pre ++ f :: post) index count nums = pre ++ f' :: post' ∧ f'.isign = f.isign ∧
      f'.count = index - total pre ∧ (f'.moved = true → f'.count = 0 ∨ f.moved = true) ∧
      post'.map Fidx.isign = post.map Fidx.isign ∧ ∀ g ∈ post', g.count = 0 := by
  induction pre generalizing index with
  | nil =>
    simp only [total, List.nil_append] at *
    have h0 := total_nonneg post hpost
    unfold delIdxLoop
    rw [if_neg (by omega), if_neg (by omega)]
    by_cases he : f.count - index ≥ count
    · rw [if_pos he]
      refine ⟨_, _, rfl, mark_isign _, ?_, ?_, ?_, ?_⟩
      · rw [mark_count]; show f.count - count = _; omega
      · unfold delIdxLoop.mark
        split
        · intro _; exact .inl ‹_›
        · exact .inr
      · rw [delLoop_rest]; simp
      · intro g hg
        rw [delLoop_rest] at hg
        simp at hg
        obtain ⟨x, hx, rfl⟩ := hg
        have : ∀ l : List Fidx, (∀ g ∈ l, 0 ≤ g.count) → total l = 0 → ∀ g ∈ l, g.count = 0 := by
          intro l
          induction l with
          | nil => intro _ _ g hg; simp at hg
          | cons a l ih =>
            intro hl ht g hg
            have h1 := total_nonneg l (fun g hg => hl g (by simp [hg]))
            have h2 := hl a (by simp)
            unfold total at ht
            simp only [List.mem_cons] at hg
            rcases hg with rfl | hg
            · omega
            · exact ih (fun g hg => hl g (by simp [hg])) (by omega) g hg
        exact this post hpost (by omega) x hx
    · rw [if_neg he]
      simp only
      have := delLoop_all post (count - (f.count - (f.count - index) - index)) (nums + (f.count - index)) (by omega) hpost (by omega)
      refine ⟨_, _, rfl, mark_isign _, ?_, ?_, this.1, this.2⟩
      · rw [mark_count]; show f.count - (f.count - index) = _; omega
      · unfold delIdxLoop.mark
        split
        · intro _; exact .inl ‹_›
        · exact .inr
  | cons g pre ih =>
    have hg := hpre g (by simp)
    have ht := total_nonneg pre (fun g hg => hpre g (by simp [hg]))
    rw [total_cons] at h1 h2 h3
    simp only [List.cons_append]
    unfold delIdxLoop
    rw [if_neg (by omega), if_pos (by omega)]
    obtain ⟨f', post', e1, e2, e3, e4⟩ := ih (index - g.count) (fun g hg => hpre g (by simp [hg])) (by omega) (by omega) (by omega)
    exact ⟨f', post', by rw [e1], e2, by rw [total_cons]; omega, e4⟩

theorem describes_of {fs fs' : List Fidx} {ps ps' : List Int} (h : IndexDescribes fs ps) (hm : fs'.map Fidx.isign = fs.map Fidx.isign)
    (hc : ∀ f ∈ fs', f.count = (ps'.count f.isign : Int)) (hr : ∀ f ∈ fs', f.moved = true → f.count = 0)
    (hp : ∀ p ∈ ps', p ∈ ps) : IndexDescribes fs' ps' where
  ordered := by
    have h1 : (fs.map Fidx.isign).Pairwise (· < ·) := by rw [List.pairwise_map]; exact h.ordered
    rw [← hm, List.pairwise_map] at h1
    exact h1
  counts := hc
  removed := hr
  covered := by
    intro p hp'
    obtain ⟨f, hf, he⟩ := h.covered p (hp p hp')
    have : p ∈ fs'.map Fidx.isign := by rw [hm]; exact List.mem_map.2 ⟨f, hf, he⟩
    rw [List.mem_map] at this
    exact this

theorem total_append (a b : List Fidx) : total (a ++ b) = total a + total b := by
  induction a with
  | nil => simp [total]
  | cons f a ih => simp only [List.cons_append, total, ih]; omega

theorem total_all {fs : List Fidx} {ps : List Int} (h : IndexDescribes fs ps) : total fs = (ps.length : Int) := by
  rw [total_lt ps fs h.ordered h.counts]
  congr 1
  rw [List.countP_eq_length]
  intro p hp
  obtain ⟨f, hf, rfl⟩ := h.covered p hp
  simp
  exact ⟨f, hf, rfl⟩

/-- Deleting everything from a position on keeps the index right. -/
theorem delIdx_tail {fs : List Fidx} {ps : List Int} (h : IndexDescribes fs ps) (hs : ps.Pairwise (· ≤ ·)) {index : Nat}
    (hn : index < ps.length) : IndexDescribes (delIdx fs index ((ps.length : Int) - index)) (ps.take index) := by
  obtain ⟨f, hf, hfp⟩ := h.covered ps[index] (List.getElem_mem hn)
  obtain ⟨pre, post, hfs⟩ := List.append_of_mem hf
  have ht := countP_lt_pre h hfs
  have hcf := h.counts f hf
  have hall := total_all h
  have hb := period_bounds (p := ps[index]) (index := index) (count := 1) hs (by omega) (by omega)
    (fun i hi h1 h2 => by have : i = index := by omega
                          subst this; rfl)
  rw [hfp] at hcf ht
  rw [hfs, total_append, total_cons] at hall
  obtain ⟨f', post', e1, e2, e3, e4, e5, e6⟩ := delLoop_tail pre f post index ((ps.length : Int) - index) 0 (by omega)
    (fun g hg => count_nonneg h (by simp [hfs, hg])) (fun g hg => count_nonneg h (by simp [hfs, hg])) (by omega) (by omega) (by omega)
  have hord := h.ordered
  rw [hfs, List.pairwise_append, List.pairwise_cons] at hord
  -- every period before that of the first deleted record is untouched, every later one is gone
  have hcut : ∀ q, ps.count q = (ps.take index).count q + (ps.drop index).count q := by
    intro q; conv => lhs; rw [← List.take_append_drop index ps]
    rw [List.count_append]
  have hlow : ∀ q, q < ps[index] → (ps.drop index).count q = 0 := by
    intro q hq
    rw [List.count_eq_zero]
    intro hmem
    rw [List.mem_iff_getElem] at hmem
    obtain ⟨j, hj, hq2⟩ := hmem
    simp at hj hq2
    have : ps[index] ≤ ps[index + j] := by
      rcases Nat.eq_zero_or_pos j with rfl | hj0
      · simp
      · exact List.pairwise_iff_getElem.1 hs index (index + j) hn (by omega) (by omega)
    omega
  have hhigh : ∀ q, ps[index] < q → (ps.take index).count q = 0 := by
    intro q hq
    rw [List.count_eq_zero]
    intro hmem
    rw [List.mem_iff_getElem] at hmem
    obtain ⟨j, hj, hq2⟩ := hmem
    simp at hj hq2
    have : ps[j] ≤ ps[index] := List.pairwise_iff_getElem.1 hs j index (by omega) hn (by omega)
    omega
  have hsame : ((ps.take index).count ps[index] : Int) = index - ps.countP (fun x => decide (x < ps[index])) := by
    have h1 : (ps.take index).countP (fun x => decide (x < ps[index])) + (ps.take index).count ps[index] = index := by
      have : (ps.take index).length = index := by simp; omega
      have h2 := countP_split (ps.take index) (fun _ => true) (fun x => decide (x < ps[index]))
      simp only [List.countP_true, Bool.true_and] at h2
      rw [this] at h2
      have h3 : (ps.take index).countP (fun x => !decide (x < ps[index])) = (ps.take index).count ps[index] := by
        unfold List.count
        apply List.countP_congr
        intro x hx
        rw [List.mem_iff_getElem] at hx
        obtain ⟨j, hj, hq2⟩ := hx
        simp at hj hq2
        have : ps[j] ≤ ps[index] := List.pairwise_iff_getElem.1 hs j index (by omega) hn (by omega)
        simp
        omega
      omega
    have h2 : ps.countP (fun x => decide (x < ps[index])) = (ps.take index).countP (fun x => decide (x < ps[index])) := by
      have happ := List.countP_append (p := fun x => decide (x < ps[index])) (l₁ := ps.take index) (l₂ := ps.drop index)
      rw [List.take_append_drop] at happ
      rw [happ]
      have : (ps.drop index).countP (fun x => decide (x < ps[index])) = 0 := by
        rw [List.countP_eq_zero]
        intro x hx
        simp
        rw [List.mem_iff_getElem] at hx
        obtain ⟨j, hj, hq2⟩ := hx
        simp at hj hq2
        rw [← hq2]
        rcases Nat.eq_zero_or_pos j with rfl | hj0
        · simp
        · exact List.pairwise_iff_getElem.1 hs index (index + j) hn (by omega) (by omega)
      omega
    omega
  unfold delIdx
  rw [hfs] at h ⊢
  rw [e1]
  refine describes_of h (by simp [e2, e5]) ?_ ?_ (fun p hp => List.mem_of_mem_take hp)
  · intro g hg
    simp at hg
    rcases hg with hg | rfl | hg
    · have hlt := hord.2.2 g hg f (by simp)
      rw [h.counts g (by simp [hg]), hcut, hlow _ (by omega)]
      rfl
    · rw [e3, e2, hfp, hsame]; omega
    · rw [e6 g hg]
      have : g.isign ∈ post.map Fidx.isign := by rw [← e5]; exact List.mem_map.2 ⟨g, hg, rfl⟩
      rw [List.mem_map] at this
      obtain ⟨x, hx, hxe⟩ := this
      have := hord.2.1.1 x hx
      rw [hhigh _ (by omega)]
      rfl
  · intro g hg
    simp at hg
    rcases hg with hg | rfl | hg
    · exact h.removed g (by simp [hg])
    · intro hm
      rcases e4 hm with h1 | h1
      · exact h1
      · have := h.removed f (by simp) h1
        omega
    · intro _; exact e6 g hg

/-! ### counting one more record -/

/-- An entry without its `start`. -/
def core (f : Fidx) : Fidx := { f with start := 0 }

theorem core_inj {f g : Fidx} (h : core g = core f) : g.isign = f.isign ∧ g.count = f.count ∧ g.moved = f.moved ∧ g.writed = f.writed := by
  unfold core at h
  injection h with h1 h2 h3 h4 h5
  exact ⟨h1, h3, h4, h5⟩

theorem core_isign (f : Fidx) : (core f).isign = f.isign := rfl

theorem describes_core_mp {fs fs' : List Fidx} {ps : List Int} (hc : fs'.map core = fs.map core) (h : IndexDescribes fs ps) :
    IndexDescribes fs' ps := by
  have hmem : ∀ f ∈ fs', ∃ g ∈ fs, core g = core f := by
    intro f hf
    have : core f ∈ fs.map core := by rw [← hc]; exact List.mem_map.2 ⟨f, hf, rfl⟩
    rw [List.mem_map] at this
    exact this
  have hsign : fs'.map Fidx.isign = fs.map Fidx.isign := by
    have := congrArg (List.map Fidx.isign) hc
    rw [List.map_map, List.map_map] at this
    exact this
  refine describes_of h hsign ?_ ?_ (fun p hp => hp)
  · intro f hf
    obtain ⟨g, hg, he⟩ := hmem f hf
    have h1 : g.count = f.count := (core_inj he).2.1
    have h2 : g.isign = f.isign := (core_inj he).1
    rw [← h1, ← h2]; exact h.counts g hg
  · intro f hf
    obtain ⟨g, hg, he⟩ := hmem f hf
    have h1 : g.count = f.count := (core_inj he).2.1
    have h2 : g.moved = f.moved := (core_inj he).2.2.1
    rw [← h1, ← h2]; exact h.removed g hg

theorem shift_core (l : List Fidx) : (shiftIdx l).map core = l.map core := by
  unfold shiftIdx; rw [List.map_map]; rfl

/-- What the loop of `add_idx` does, up to the `start` members. -/
theorem addLoop_spec (isign : Int) (fs : List Fidx) (hord : fs.Pairwise fun a b => a.isign < b.isign) (i cnt : Int) :
    (∃ pre f post, fs = pre ++ f :: post ∧ f.isign = isign ∧
      (addIdxLoop isign fs i cnt).1.map core =
        pre.map core ++ core { f with count := f.count + 1, moved := false, writed := true } :: post.map core ∧
      (addIdxLoop isign fs i cnt).2 = i + pre.length) ∨
    (∃ pre post, fs = pre ++ post ∧ (∀ g ∈ pre, g.isign < isign) ∧ (∀ g ∈ post, isign < g.isign) ∧
      (addIdxLoop isign fs i cnt).1.map core = pre.map core ++ core ⟨isign, 0, 1, false, true⟩ :: post.map core ∧
      (addIdxLoop isign fs i cnt).2 = i + pre.length) := by
  induction fs generalizing i cnt with
  | nil => right; exact ⟨[], [], rfl, by simp, by simp, rfl, by simp [addIdxLoop]⟩
  | cons f fs ih =>
    rw [List.pairwise_cons] at hord
    unfold addIdxLoop
    by_cases h1 : isign = f.isign
    · rw [if_pos h1]
      left
      exact ⟨[], f, fs, rfl, h1.symm, by simp [shift_core], by simp⟩
    · rw [if_neg h1]
      by_cases h2 : isign < f.isign
      · rw [if_pos h2]
        right
        refine ⟨[], f :: fs, rfl, by simp, ?_, by simp [shift_core, core], by simp⟩
        intro g hg
        simp at hg
        rcases hg with rfl | hg
        · exact h2
        · have := hord.1 g hg; omega
      · rw [if_neg h2]
        simp only
        rcases ih hord.2 (i + 1) (cnt + f.count) with ⟨pre, g, post, e1, e2, e3, e4⟩ | ⟨pre, post, e1, e2, e3, e4, e5⟩
        · left
          refine ⟨f :: pre, g, post, by rw [e1]; rfl, e2, by rw [List.map_cons, e3]; rfl, ?_⟩
          rw [e4]; simp; omega
        · right
          refine ⟨f :: pre, post, by rw [e1]; rfl, ?_, e3, by rw [List.map_cons, e4]; rfl, ?_⟩
          · intro g hg
            simp at hg
            rcases hg with rfl | hg
            · omega
            · exact e2 g hg
          · rw [e5]; simp; omega

/-- `startidx` is a good place to start the search for `isign`. -/
def ScanOk (fs : List Fidx) (startidx isign : Int) : Prop :=
  ∀ j (h : j < fs.length), (j : Int) < startidx → startidx < fs.length → fs[j].isign < isign

/-- Counting a record of period `isign`. -/
theorem addIdx_spec {fs : List Fidx} {ps : List Int} (h : IndexDescribes fs ps) {startidx isign : Int} (hscan : ScanOk fs startidx isign)
    {ps' : List Int} (hps : ps'.Perm (ps ++ [isign])) :
    IndexDescribes (addIdx fs startidx isign).1 ps' ∧
    (∃ f ∈ (addIdx fs startidx isign).1, f.writed = true ∧ f.moved = false) ∧
    ∃ k : Nat, (addIdx fs startidx isign).2 = k ∧ ∃ hk : k < (addIdx fs startidx isign).1.length, ((addIdx fs startidx isign).1[k]).isign = isign := by
  have hlow : ∀ g ∈ fs.take (scanFrom startidx fs.length), g.isign < isign := by
    intro g hg
    unfold scanFrom at hg
    split at hg
    · simp at hg
    · rw [List.mem_iff_getElem] at hg
      obtain ⟨j, hj, rfl⟩ := hg
      simp at hj
      rw [List.getElem_take]
      exact hscan j (by omega) (by omega) (by omega)
  have hcnt : ∀ q, ps'.count q = ps.count q + if isign = q then 1 else 0 := by
    intro q
    rw [hps.count_eq, List.count_append, List.count_singleton]
    simp only [beq_iff_eq]
  have hsub : ∀ q, q ≠ isign → ps'.count q = ps.count q := by
    intro q hq
    rw [hcnt, if_neg (fun e => hq e.symm)]
    rfl
  have hord := h.ordered
  unfold addIdx
  simp only
  generalize hs : scanFrom startidx fs.length = s at *
  have hsl : s ≤ fs.length := by
    rw [← hs]; unfold scanFrom; split <;> omega
  have hord2 : (fs.drop s).Pairwise fun a b => a.isign < b.isign := List.Pairwise.sublist (List.drop_sublist _ _) hord
  rcases addLoop_spec isign (fs.drop s) hord2 s 0 with ⟨pre, f, post, e1, e2, e3, e4⟩ | ⟨pre, post, e1, e2, e3, e4, e5⟩
  · have hfs : fs = (fs.take s ++ pre) ++ f :: post := by
      rw [List.append_assoc, ← e1, List.take_append_drop]
    have hlen : (addIdxLoop isign (fs.drop s) s 0).1.length = pre.length + 1 + post.length := by
      have := congrArg List.length e3; simp at this; omega
    have hmem : core { f with count := f.count + 1, moved := false, writed := true } ∈ (addIdxLoop isign (fs.drop s) s 0).1.map core := by
      rw [e3]; simp
    refine ⟨?_, ?_, ?_⟩
    · rw [hfs] at h
      have hd := describes_replace (f := f) (f' := { f with count := f.count + 1, moved := false, writed := true }) (ps' := ps') id
        (fun _ => rfl) (fun _ => rfl) (fun _ => rfl) h rfl ?_ (by simp) ?_
      · refine describes_core_mp ?_ hd
        rw [List.map_append, e3]
        simp
      · rw [hcnt, if_pos e2.symm, h.counts f (by simp), e2]
        simp
      · intro q hq; exact hsub q (by rw [← e2]; exact hq)
    · rw [List.mem_map] at hmem
      obtain ⟨g, hg, he⟩ := hmem
      refine ⟨g, by simp [hg], ?_, ?_⟩
      · exact (core_inj he).2.2.2
      · exact (core_inj he).2.2.1
    · refine ⟨s + pre.length, by rw [e4]; omega, by simp [hlen]; omega, ?_⟩
      rw [List.getElem_append_right (by simp; omega)]
      have h1 : ((addIdxLoop isign (fs.drop s) s 0).1.map core)[pre.length]? =
          some (core { f with count := f.count + 1, moved := false, writed := true }) := by
        rw [e3, List.getElem?_append_right (by simp)]; simp
      rw [List.getElem?_map, Option.map_eq_some_iff] at h1
      obtain ⟨g, hg, he⟩ := h1
      rw [List.getElem?_eq_some_iff] at hg
      obtain ⟨hgl, hg⟩ := hg
      have : s + pre.length - (fs.take s).length = pre.length := by simp; omega
      simp only [this, hg]
      rw [← e2]
      exact (core_inj he).1
  · have hfs : fs = (fs.take s ++ pre) ++ post := by
      rw [List.append_assoc, ← e1, List.take_append_drop]
    have hlen : (addIdxLoop isign (fs.drop s) s 0).1.length = pre.length + 1 + post.length := by
      have := congrArg List.length e4; simp at this; omega
    have hmem : core ⟨isign, 0, 1, false, true⟩ ∈ (addIdxLoop isign (fs.drop s) s 0).1.map core := by
      rw [e4]; simp
    have hnew : isign ∉ ps := by
      intro hin
      obtain ⟨g, hg, he⟩ := h.covered isign hin
      rw [hfs] at hg
      simp only [List.mem_append] at hg
      rcases hg with (hg | hg) | hg
      · have := hlow g hg; omega
      · have := e2 g hg; omega
      · have := e3 g hg; omega
    have hlow2 : ∀ g ∈ fs.take s ++ pre, g.isign < isign := by
      intro g hg
      simp only [List.mem_append] at hg
      rcases hg with hg | hg
      · exact hlow g hg
      · exact e2 g hg
    refine ⟨?_, ?_, ?_⟩
    · refine describes_core_mp (fs := (fs.take s ++ pre) ++ ⟨isign, 0, 1, false, true⟩ :: post) ?_ ?_
      · rw [List.map_append, e4]; simp
      · rw [hfs] at hord h
        rw [List.pairwise_append] at hord
        constructor
        · rw [List.pairwise_append, List.pairwise_cons]
          refine ⟨hord.1, ⟨e3, hord.2.1⟩, ?_⟩
          intro a ha b hb
          simp only [List.mem_cons] at hb
          rcases hb with rfl | hb
          · exact hlow2 a ha
          · exact hord.2.2 a ha b hb
        · intro g hg
          simp only [List.mem_append, List.mem_cons] at hg
          rcases hg with hg | rfl | hg
          · have := hlow2 g (by simpa using hg)
            rw [hsub _ (by omega)]
            exact h.counts g (by simp only [List.mem_append]; exact .inl hg)
          · rw [hcnt, if_pos rfl, List.count_eq_zero.2 hnew]; rfl
          · have := e3 g hg
            rw [hsub _ (by omega)]
            exact h.counts g (by simp only [List.mem_append]; exact .inr hg)
        · intro g hg
          simp only [List.mem_append, List.mem_cons] at hg
          rcases hg with hg | rfl | hg
          · exact h.removed g (by simp only [List.mem_append]; exact .inl hg)
          · intro hm; simp at hm
          · exact h.removed g (by simp only [List.mem_append]; exact .inr hg)
        · intro p hp
          rw [hps.mem_iff] at hp
          simp only [List.mem_append, List.mem_singleton] at hp
          rcases hp with hp | rfl
          · obtain ⟨g, hg, he⟩ := h.covered p hp
            refine ⟨g, ?_, he⟩
            simp only [List.mem_append, List.mem_cons] at hg ⊢
            rcases hg with hg | hg
            · exact .inl hg
            · exact .inr (.inr hg)
          · exact ⟨⟨p, 0, 1, false, true⟩, by simp, rfl⟩
    · rw [List.mem_map] at hmem
      obtain ⟨g, hg, he⟩ := hmem
      refine ⟨g, by simp [hg], ?_, ?_⟩
      · exact (core_inj he).2.2.2
      · exact (core_inj he).2.2.1
    · refine ⟨s + pre.length, by rw [e5]; omega, by simp [hlen]; omega, ?_⟩
      rw [List.getElem_append_right (by simp; omega)]
      have h1 : ((addIdxLoop isign (fs.drop s) s 0).1.map core)[pre.length]? = some (core ⟨isign, 0, 1, false, true⟩) := by
        rw [e4, List.getElem?_append_right (by simp)]; simp
      rw [List.getElem?_map, Option.map_eq_some_iff] at h1
      obtain ⟨g, hg, he⟩ := h1
      rw [List.getElem?_eq_some_iff] at hg
      obtain ⟨hgl, hg⟩ := hg
      have : s + pre.length - (fs.take s).length = pre.length := by simp; omega
      simp only [this, hg]
      exact (core_inj he).1

end Sis.Fmap
