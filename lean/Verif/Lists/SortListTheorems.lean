import Verif.Lists.SortList
import Verif.Lists.StructListLemmas
/-
C42: the sorted list keeps its keys in strict order and finds the last value set for a key.
-/
namespace Sis.Sort
open Sis.SL (SList intMax)

variable {α : Type}

/-- The calls that change a sorted list. -/
inductive Op (α : Type)
  | set (k : Int) (v : α)
  | del (k : Int)
  | deli (i : Int)
  | clear

/-- The program: one call. -/
def step (s : SortL α) : Op α → Option (SortL α)
  | .set k v => set s k v
  | .del k => delKey s k
  | .deli i => deli s i
  | .clear => some (clear s)

/-- The program on a history. -/
def run (s : SortL α) : List (Op α) → Option (SortL α)
  | [] => some s
  | o :: os => (step s o).bind (run · os)

/-! Specification: a finite map as an unordered list of key/value pairs. -/

/-- The value of a key. -/
def lookup (m : List (Int × α)) (k : Int) : Option α := (m.find? fun e => e.1 == k).map (·.2)

/-- The entry that has exactly `i` entries before it in key order. -/
def nth (asc : Bool) (m : List (Int × α)) (i : Int) : Option (Int × α) :=
  m.find? fun e => decide (((m.filter fun f => before asc f.1 e.1).length : Int) = i)

/-- A map without the key. -/
def without (m : List (Int × α)) (k : Int) : List (Int × α) := m.filter fun e => e.1 != k

/-- Specification of the calls. -/
def specStep (asc : Bool) (m : List (Int × α)) : Op α → List (Int × α)
  | .set k v => (k, v) :: without m k
  | .del k => without m k
  | .deli i => match nth asc m i with
    | some e => without m e.1
    | none => m
  | .clear => []

/-- Specification of a history. -/
def specRun (asc : Bool) (m : List (Int × α)) (os : List (Op α)) : List (Int × α) := os.foldl (specStep asc) m

/-! Proof. -/

theorem before_trans {asc : Bool} {a b c : Int} (h1 : before asc a b = true) (h2 : before asc b c = true) : before asc a c = true := by
  unfold before at *; cases asc <;> simp_all <;> omega

theorem before_irrefl {asc : Bool} {a : Int} : before asc a a = false := by
  unfold before; cases asc <;> simp

theorem before_asymm {asc : Bool} {a b : Int} (h : before asc a b = true) : before asc b a = false := by
  unfold before at *; cases asc <;> simp_all <;> omega

theorem before_total {asc : Bool} {a b : Int} (h1 : before asc a b = false) (h2 : before asc b a = false) : a = b := by
  unfold before at *; cases asc <;> simp_all <;> omega

/-- The keys are strictly ordered. -/
def Sorted (asc : Bool) (l : List (Int × α)) : Prop := l.Pairwise fun a b => before asc a.1 b.1 = true

/-- The two arrays hold `l`. -/
structure Rep (s : SortL α) (l : List (Int × α)) : Prop where
  key : SL.Rep s.key (l.map (·.1))
  val : SL.Rep s.val (l.map (·.2))
  start : s.val.start = 0
  sorted : Sorted s.asc l
  klen : s.key.len = 8

theorem bfindN_spec (asc : Bool) {keys : SList Int} {ks : List Int} (r : SL.Rep keys ks)
    (hs : ks.Pairwise fun a b => before asc a b = true) (key : Int) (n : Nat) (start stop : Int) (hn : stop + 1 - start ≤ n)
    (h0 : 0 ≤ start) (h1 : stop < ks.length)
    (hl : ∀ (i : Nat) (h : i < ks.length), (i : Int) < start → before asc ks[i] key = true)
    (hr : ∀ (i : Nat) (h : i < ks.length), stop < (i : Int) → before asc key ks[i] = true) :
    ∃ j, bfindN asc keys key n start stop = some j ∧
      ((0 ≤ j ∧ ks[j.toNat]? = some key) ∨ (j = -1 ∧ key ∉ ks)) := by
  have hend : stop < start → key ∉ ks := by
    intro h hmem
    obtain ⟨i, hi, he⟩ := List.getElem_of_mem hmem
    by_cases hlt : (i : Int) < start
    · have := hl i hi hlt; rw [he, before_irrefl] at this; exact absurd this (by decide)
    · have := hr i hi (by omega); rw [he, before_irrefl] at this; exact absurd this (by decide)
  induction n generalizing start stop with
  | zero => exact ⟨-1, rfl, Or.inr ⟨rfl, hend (by omega)⟩⟩
  | succ n ih =>
    simp only [bfindN]
    by_cases h : start ≤ stop
    · rw [if_pos h]
      obtain ⟨m, hm⟩ : ∃ m, (stop - start) / 2 + start = m := ⟨_, rfl⟩
      have hm1 : start ≤ m ∧ m ≤ stop := by omega
      have hmn : m.toNat < ks.length := by omega
      rw [hm, SL.get_spec r, if_pos (by omega), List.getElem?_eq_getElem hmn]
      simp only
      have hpw := List.pairwise_iff_getElem.1 hs
      have hcut : ∀ a b : Int, (∀ (i : Nat) (h : i < ks.length), (i : Int) < a → before asc ks[i] key = true) →
          (∀ (i : Nat) (h : i < ks.length), b < (i : Int) → before asc key ks[i] = true) → b < a → key ∉ ks := by
        intro a b ha hb hab hmem
        obtain ⟨i, hi, he⟩ := List.getElem_of_mem hmem
        by_cases hlt : (i : Int) < a
        · have := ha i hi hlt; rw [he, before_irrefl] at this; exact absurd this (by decide)
        · have := hb i hi (by omega); rw [he, before_irrefl] at this; exact absurd this (by decide)
      by_cases hb : before asc key ks[m.toNat] = true
      · rw [if_pos hb]
        have hr' : ∀ (i : Nat) (h : i < ks.length), m - 1 < (i : Int) → before asc key ks[i] = true := by
          intro i hi hlt
          by_cases he : i = m.toNat
          · subst he; exact hb
          · exact before_trans hb (hpw m.toNat i hmn hi (by omega))
        exact ih start (m - 1) (by omega) h0 (by omega) hl hr' (hcut _ _ hl hr')
      · rw [if_neg hb]
        by_cases hb2 : before asc ks[m.toNat] key = true
        · rw [if_pos hb2]
          have hl' : ∀ (i : Nat) (h : i < ks.length), (i : Int) < m + 1 → before asc ks[i] key = true := by
            intro i hi hlt
            by_cases he : i = m.toNat
            · subst he; exact hb2
            · exact before_trans (hpw i m.toNat hi hmn (by omega)) hb2
          exact ih (m + 1) stop (by omega) (by omega) h1 hl' hr (hcut _ _ hl' hr)
        · rw [if_neg hb2]
          have := before_total (Bool.eq_false_iff.2 hb) (Bool.eq_false_iff.2 hb2)
          exact ⟨m, rfl, Or.inl ⟨by omega, by rw [List.getElem?_eq_getElem hmn, ← this]⟩⟩
    · rw [if_neg h]
      exact ⟨-1, rfl, Or.inr ⟨rfl, hend (by omega)⟩⟩

theorem bfind_spec (asc : Bool) {keys : SList Int} {ks : List Int} (r : SL.Rep keys ks)
    (hs : ks.Pairwise fun a b => before asc a b = true) (key : Int) (start stop : Int) (h0 : 0 ≤ start) (h1 : stop < ks.length)
    (hl : ∀ (i : Nat) (h : i < ks.length), (i : Int) < start → before asc ks[i] key = true)
    (hr : ∀ (i : Nat) (h : i < ks.length), stop < (i : Int) → before asc key ks[i] = true) :
    ∃ j, bfind asc keys key start stop = some j ∧
      ((0 ≤ j ∧ ks[j.toNat]? = some key) ∨ (j = -1 ∧ key ∉ ks)) :=
  bfindN_spec asc r hs key _ start stop (by omega) h0 h1 hl hr

theorem sorted_nodup {asc : Bool} {l : List (Int × α)} (h : Sorted asc l) {a b : Int × α} {i j : Nat} (hi : l[i]? = some a)
    (hj : l[j]? = some b) (he : a.1 = b.1) : i = j := by
  obtain ⟨hi', e1⟩ := List.getElem?_eq_some_iff.1 hi
  obtain ⟨hj', e2⟩ := List.getElem?_eq_some_iff.1 hj
  have hpw := List.pairwise_iff_getElem.1 h
  by_cases h1 : i < j
  · have := hpw i j hi' hj' h1; rw [e1, e2, he, before_irrefl] at this; exact absurd this (by decide)
  · by_cases h2 : j < i
    · have := hpw j i hj' hi' h2; rw [e1, e2, he, before_irrefl] at this; exact absurd this (by decide)
    · omega

theorem find_spec {s : SortL α} {l : List (Int × α)} (r : Rep s l) (key : Int) :
    (∃ (i : Nat) (v : α), find s key = some (some ((i : Int), v)) ∧ l[i]? = some (key, v)) ∨
    (find s key = some none ∧ ∀ e ∈ l, e.1 ≠ key) := by
  have hs : (l.map (·.1)).Pairwise fun a b => before s.asc a b = true := by
    rw [List.pairwise_map]; exact r.sorted
  obtain ⟨j, hj, hor⟩ := bfind_spec s.asc r.key hs key 0 (s.key.count - 1) (by omega)
    (by rw [r.key.count]; omega) (by intro i _ h; omega) (by intro i h1 h2; rw [r.key.count] at h2; omega)
  unfold find
  simp only [hj, Option.bind_eq_bind, Option.bind_some]
  rcases hor with ⟨h0, h1⟩ | ⟨h0, h1⟩
  · left
    rw [List.getElem?_map, Option.map_eq_some_iff] at h1
    obtain ⟨e, he, hk⟩ := h1
    refine ⟨j.toNat, e.2, ?_, by rw [he, ← hk]⟩
    rw [if_pos h0, SL.get_spec r.val, if_pos h0, List.getElem?_map, he]
    simp only [Option.map_some, Option.bind_some]
    have : (j.toNat : Int) = j := by omega
    rw [this]
  · right
    rw [if_neg (by omega)]
    exact ⟨rfl, fun e he hk => h1 (List.mem_map.2 ⟨e, he, hk⟩)⟩

theorem scan_spec (asc : Bool) {keys : SList Int} {ks : List Int} (r : SL.Rep keys ks) (key : Int) (n i : Nat)
    (h : i + n = ks.length) :
    scan asc keys key n i = some (((ks.drop i).findIdx? fun k => before asc key k).map fun j => ((i + j : Nat) : Int)) := by
  induction n generalizing i with
  | zero =>
    rw [List.drop_eq_nil_iff.2 (by omega)]; rfl
  | succ n ih =>
    have hi : i < ks.length := by omega
    simp only [scan]
    rw [SL.get_spec r, if_pos (by omega)]
    have : (i : Int).toNat = i := rfl
    rw [this, List.getElem?_eq_getElem hi, List.drop_eq_getElem_cons hi, List.findIdx?_cons]
    simp only
    by_cases hb : before asc key ks[i] = true
    · simp [if_pos hb]
    · rw [if_neg hb, if_neg hb]
      have h2 := ih (i + 1) (by omega)
      rw [show ((i + 1 : Nat) : Int) = (i : Int) + 1 from rfl] at h2
      rw [h2, Option.map_map]
      congr 2
      funext j
      simp; omega

theorem insert_start {s s' : SList α} {i : Int} {rs : List α} {n : Int} (h : SL.inserts s i rs = some (s', n)) (h0 : s.start = 0) :
    s'.start = 0 := by
  have hgrow : ∀ {t t' : SList α} {k}, SL.grow t k = some t' → t.start = 0 → t'.start = 0 := by
    intro t t' k h h0
    unfold SL.grow SL.enlarge at h
    rw [if_neg (by omega)] at h
    simp only at h
    split at h
    · cases h; exact h0
    · split at h
      · split at h
        · simp only [Option.bind_eq_bind, Option.bind_eq_some_iff] at h
          obtain ⟨_, _, _, _, h⟩ := h
          cases h; rfl
        · cases h; rfl
      · cases h
  have hpush : ∀ {t t' : SList α} {rs n}, SL.pushs t rs = some (t', n) → t.start = 0 → t'.start = 0 := by
    intro t t' rs n h h0
    unfold SL.pushs at h
    simp only [Option.bind_eq_bind, Option.bind_eq_some_iff] at h
    obtain ⟨t1, h1, b, h2, h3⟩ := h
    cases h3
    show t1.start = 0
    exact hgrow h1 h0
  unfold SL.inserts at h
  split at h
  · exact hpush h h0
  · simp only [Option.bind_eq_bind, Option.bind_eq_some_iff] at h
    obtain ⟨t1, h1, b, h2, c, h3, d, h4, h5⟩ := h
    cases h5
    show t1.start = 0
    exact hgrow h1 h0

theorem push_start {s s' : SList α} {x : α} {n : Int} (h : SL.push s x = some (s', n)) (h0 : s.start = 0) : s'.start = 0 := by
  have : SL.inserts s (s.count + 1) [x] = some (s', n) := by
    unfold SL.inserts; rw [if_pos (by omega)]; exact h
  exact insert_start this h0

theorem update_start {s s' : SList α} {i : Int} {x : α} {n : Int} (h : SL.update s i x = some (s', n)) (h0 : s.start = 0) :
    s'.start = 0 := by
  unfold SL.update at h
  split at h
  · simp only [Option.bind_eq_bind, Option.bind_eq_some_iff] at h
    obtain ⟨_, _, h⟩ := h; cases h; exact h0
  · cases h; exact h0

theorem delete_start {s s' : SList α} {i n k : Int} (h : SL.delete s i n = some (s', k)) (h0 : s.start = 0) : s'.start = 0 := by
  unfold SL.delete SL.front at h
  split at h
  · cases h; exact h0
  · rw [if_neg (by omega)] at h
    simp only [Option.bind_eq_bind, Option.bind_some, Option.bind_eq_some_iff] at h
    obtain ⟨_, _, _, _, h⟩ := h; cases h; exact h0

theorem map_eraseIdx' {β γ : Type} (f : β → γ) (l : List β) (i : Nat) : (l.map f).eraseIdx i = (l.eraseIdx i).map f := by
  rw [List.eraseIdx_eq_take_drop_succ, List.eraseIdx_eq_take_drop_succ, List.map_append, List.map_take, List.map_drop]

/-- Deleting position `i` of both arrays. -/
theorem deli_spec {s : SortL α} {l : List (Int × α)} (r : Rep s l) (i : Int) :
    ∃ s', deli s i = some s' ∧ Rep s' (if 0 ≤ i then l.eraseIdx i.toNat else l) ∧ s'.asc = s.asc ∧ s'.val.len = s.val.len := by
  obtain ⟨k, hk1, hk2, hk3⟩ := SL.delete_spec r.key i 1
  obtain ⟨w, hw1, hw2, hw3⟩ := SL.delete_spec r.val i 1
  unfold deli
  simp only [hk1, hw1, Option.bind_eq_bind, Option.bind_some]
  refine ⟨_, rfl, ?_, rfl, hw3⟩
  have hst := delete_start hw1 r.start
  simp only [List.length_map] at hk2 hw2
  by_cases h : 0 ≤ i ∧ i < l.length
  · rw [if_neg (by omega)] at hk2 hw2
    rw [if_pos h.1]
    have e : (i + 1).toNat = i.toNat + 1 := by omega
    rw [e, ← List.eraseIdx_eq_take_drop_succ] at hk2 hw2
    refine ⟨?_, ?_, hst, ?_, hk3.trans r.klen⟩
    · rw [← map_eraseIdx']; exact hk2
    · rw [← map_eraseIdx']; exact hw2
    · exact List.Pairwise.sublist (List.eraseIdx_sublist l i.toNat) r.sorted
  · rw [if_pos (by omega)] at hk2 hw2
    have : (if 0 ≤ i then l.eraseIdx i.toNat else l) = l := by
      split
      · exact List.eraseIdx_of_length_le (by omega)
      · rfl
    rw [this]
    exact ⟨hk2, hw2, hst, r.sorted, hk3.trans r.klen⟩

theorem before_false_of {asc : Bool} {l : List (Int × α)} (h : ∀ e ∈ l, e.1 ≠ k) {e : Int × α} (he : e ∈ l) (hb : before asc k e.1 = false) :
    before asc e.1 k = true := by
  by_cases h' : before asc e.1 k = true
  · exact h'
  · exact absurd (before_total hb (Bool.eq_false_iff.2 h')).symm (h e he)

theorem room {a n len : Nat} (h : 16 * (a + 1 + n) * len < intMax) (c : Nat) (hc : c ≤ a + n) :
    SL.newMax c * len < intMax := by
  have h1 : SL.newMax c ≤ 16 * (a + 1 + n) := by
    by_cases h0 : 1 ≤ c
    · have := SL.newMax_le c h0; omega
    · have : c = 0 := by omega
      subst this; show 16 ≤ _; omega
  exact Nat.lt_of_le_of_lt (Nat.mul_le_mul_right len h1) h

theorem set_spec {s : SortL α} {l : List (Int × α)} (r : Rep s l) (k : Int) (v : α)
    (hk : 16 * (l.length + 2) * 8 < intMax) (hv : 16 * (l.length + 2) * s.val.len < intMax) :
    ∃ s' l', set s k v = some s' ∧ Rep s' l' ∧ s'.asc = s.asc ∧ s'.val.len = s.val.len ∧
      l'.Perm ((k, v) :: without l k) := by
  have hk' : SL.newMax ((l.map (·.1)).length + [k].length) * s.key.len < intMax := by
    rw [r.klen]; exact room (a := l.length) (n := 1) hk _ (by simp)
  have hv' : SL.newMax ((l.map (·.2)).length + [v].length) * s.val.len < intMax :=
    room (a := l.length) (n := 1) hv _ (by simp)
  unfold set
  rcases find_spec r k with ⟨i, w, hf, hi⟩ | ⟨hf, hno⟩
  · -- overwrite
    have hil : i < l.length := (List.getElem?_eq_some_iff.1 hi).1
    obtain ⟨u, hu1, hu2, hu3⟩ := SL.update_spec r.val (i : Int) v
    simp only [hf, Option.bind_eq_bind, Option.bind_some, hu1]
    rw [if_pos (by simp; omega)] at hu2
    have ei : ((i : Nat) : Int).toNat = i := rfl
    rw [ei] at hu2
    have hle : l[i] = (k, w) := by rw [List.getElem?_eq_getElem hil] at hi; exact Option.some.inj hi
    obtain ⟨l1, l2, rfl, hl1⟩ : ∃ l1 l2, l = l1 ++ (k, w) :: l2 ∧ l1.length = i :=
      ⟨l.take i, l.drop (i + 1), by rw [← hle]; simp, by simp; omega⟩
    refine ⟨_, l1 ++ (k, v) :: l2, rfl, ⟨?_, ?_, update_start hu1 r.start, ?_, r.klen⟩, rfl, hu3, ?_⟩
    · have := r.key; simpa using this
    · have : (List.map (·.2) (l1 ++ (k, w) :: l2)).set i v = List.map (·.2) (l1 ++ (k, v) :: l2) := by
        rw [← hl1]; simp
      rw [← this]; exact hu2
    · have hs := r.sorted
      unfold Sorted at hs ⊢
      rw [List.pairwise_append, List.pairwise_cons] at hs ⊢
      refine ⟨hs.1, ⟨fun b hb => hs.2.1.1 b hb, hs.2.1.2⟩, ?_⟩
      intro a ha b hb
      rcases List.mem_cons.1 hb with rfl | hb
      · exact hs.2.2 a ha (k, w) (List.mem_cons_self ..)
      · exact hs.2.2 a ha b (List.mem_cons_of_mem _ hb)
    · have hs := r.sorted
      unfold Sorted at hs
      rw [List.pairwise_append, List.pairwise_cons] at hs
      have e1 : without l1 k = l1 := by
        refine List.filter_eq_self.2 ?_
        intro a ha
        have := hs.2.2 a ha (k, w) (List.mem_cons_self ..)
        simp only [bne_iff_ne, ne_eq]
        intro he; rw [he, before_irrefl] at this; exact absurd this (by decide)
      have e2 : without l2 k = l2 := by
        refine List.filter_eq_self.2 ?_
        intro a ha
        have := hs.2.1.1 a ha
        simp only [bne_iff_ne, ne_eq]
        intro he; rw [he, before_irrefl] at this; exact absurd this (by decide)
      have e3 : without (l1 ++ (k, w) :: l2) k = l1 ++ l2 := by
        unfold without at *
        rw [List.filter_append, List.filter_cons, e1, e2]; simp
      rw [e3]
      exact List.perm_middle
  · have e0 : without l k = l := List.filter_eq_self.2 (fun a ha => by simpa using hno a ha)
    simp only [hf, Option.bind_eq_bind, Option.bind_some]
    have hscan := scan_spec s.asc r.key k s.key.count 0 (by rw [r.key.count]; simp)
    rw [List.drop_zero] at hscan
    have hscan' : scan s.asc s.key k s.key.count 0 = some (((l.map (·.1)).findIdx? fun k' => before s.asc k k').map fun j => ((0 + j : Nat) : Int)) := hscan
    rw [hscan', Option.bind_some]
    cases hfi : (l.map (·.1)).findIdx? fun k' => before s.asc k k' with
    | none =>
      simp only [Option.map_none]
      obtain ⟨a, ha1, ha2, ha3⟩ := SL.pushs_spec r.key [k] hk'
      obtain ⟨b, hb1, hb2, hb3⟩ := SL.pushs_spec r.val [v] hv'
      unfold SL.push
      simp only [ha1, hb1, Option.bind_some]
      refine ⟨_, l ++ [(k, v)], rfl, ⟨by simpa using ha2, by simpa using hb2, push_start hb1 r.start, ?_, ha3.trans r.klen⟩, rfl, hb3, ?_⟩
      · unfold Sorted
        rw [List.pairwise_append]
        refine ⟨r.sorted, List.pairwise_singleton _ _, ?_⟩
        intro x hx y hy
        rw [List.mem_singleton] at hy; subst hy
        rw [List.findIdx?_eq_none_iff] at hfi
        exact before_false_of hno hx (hfi x.1 (List.mem_map.2 ⟨x, hx, rfl⟩))
      · rw [e0]; exact List.perm_append_singleton _ _
    | some i =>
      simp only [Option.map_some]
      obtain ⟨hil, hbi, hlt⟩ := List.findIdx?_eq_some_iff_getElem.1 hfi
      simp only [List.length_map] at hil
      have e0i : (0 + i : Nat) = i := by omega
      rw [e0i]
      have ei : ((i : Nat) : Int).toNat = i := rfl
      obtain ⟨a, ha1, ha2, ha3⟩ := SL.inserts_spec r.key (i : Int) [k] hk'
      obtain ⟨b, hb1, hb2, hb3⟩ := SL.inserts_spec r.val (i : Int) [v] hv'
      unfold SL.insert
      simp only [ha1, hb1, Option.bind_some]
      refine ⟨_, l.take i ++ (k, v) :: l.drop i, rfl, ⟨?_, ?_, insert_start hb1 r.start, ?_, ha3.trans r.klen⟩, rfl, hb3, ?_⟩
      · rw [ei] at ha2; simpa [List.map_take, List.map_drop] using ha2
      · rw [ei] at hb2; simpa [List.map_take, List.map_drop] using hb2
      · have hs := r.sorted
        have hsplit := List.take_append_drop i l
        rw [← hsplit] at hs
        unfold Sorted at hs ⊢
        rw [List.pairwise_append] at hs
        have hpre : ∀ x ∈ l.take i, before s.asc x.1 k = true := by
          intro x hx
          obtain ⟨j, hj, he⟩ := List.getElem_of_mem hx
          simp only [List.length_take] at hj
          have := hlt j (by omega)
          simp only [List.getElem_map, Bool.not_eq_true] at this
          rw [List.getElem_take] at he
          rw [he] at this
          exact before_false_of hno (List.mem_of_mem_take hx) this
        have hpost : ∀ x ∈ l.drop i, before s.asc k x.1 = true := by
          intro x hx
          rw [List.getElem_map] at hbi
          have hd : l.drop i = l[i] :: l.drop (i + 1) := List.drop_eq_getElem_cons hil
          rw [hd] at hx
          rcases List.mem_cons.1 hx with rfl | hx
          · exact hbi
          · have := hs.2.1
            rw [hd, List.pairwise_cons] at this
            exact before_trans hbi (this.1 x hx)
        rw [List.pairwise_append, List.pairwise_cons]
        refine ⟨hs.1, ⟨hpost, hs.2.1⟩, ?_⟩
        intro x hx y hy
        rcases List.mem_cons.1 hy with rfl | hy
        · exact hpre x hx
        · exact hs.2.2 x hx y hy
      · rw [e0]
        have := List.perm_middle (a := (k, v)) (l₁ := l.take i) (l₂ := l.drop i)
        rw [List.take_append_drop] at this
        exact this

theorem without_perm {l m : List (Int × α)} (h : l.Perm m) (k : Int) : (without l k).Perm (without m k) := h.filter _

theorem sorted_erase {asc : Bool} {l : List (Int × α)} (h : Sorted asc l) {i : Nat} {e : Int × α} (hi : l[i]? = some e) :
    l.eraseIdx i = without l e.1 := by
  obtain ⟨hil, hle⟩ := List.getElem?_eq_some_iff.1 hi
  obtain ⟨l1, l2, rfl, hl1⟩ : ∃ l1 l2, l = l1 ++ e :: l2 ∧ l1.length = i :=
    ⟨l.take i, l.drop (i + 1), by rw [← hle]; simp, by simp; omega⟩
  unfold Sorted at h
  rw [List.pairwise_append, List.pairwise_cons] at h
  have e1 : without l1 e.1 = l1 := by
    refine List.filter_eq_self.2 ?_
    intro a ha
    have := h.2.2 a ha e (List.mem_cons_self ..)
    simp only [bne_iff_ne, ne_eq]
    intro he; rw [he, before_irrefl] at this; exact absurd this (by decide)
  have e2 : without l2 e.1 = l2 := by
    refine List.filter_eq_self.2 ?_
    intro a ha
    have := h.2.1.1 a ha
    simp only [bne_iff_ne, ne_eq]
    intro he; rw [he, before_irrefl] at this; exact absurd this (by decide)
  unfold without at *
  rw [List.filter_append, List.filter_cons, e1, e2, ← hl1]
  simp [List.eraseIdx_append_of_length_le]

/-- In a sorted list the entries before position `i` are those with smaller keys. -/
theorem rank_eq {asc : Bool} {l : List (Int × α)} (h : Sorted asc l) {i : Nat} {e : Int × α} (hi : l[i]? = some e) :
    (l.filter fun f => before asc f.1 e.1).length = i := by
  obtain ⟨hil, hle⟩ := List.getElem?_eq_some_iff.1 hi
  obtain ⟨l1, l2, rfl, hl1⟩ : ∃ l1 l2, l = l1 ++ e :: l2 ∧ l1.length = i :=
    ⟨l.take i, l.drop (i + 1), by rw [← hle]; simp, by simp; omega⟩
  unfold Sorted at h
  rw [List.pairwise_append, List.pairwise_cons] at h
  have e1 : l1.filter (fun f => before asc f.1 e.1) = l1 :=
    List.filter_eq_self.2 (fun a ha => h.2.2 a ha e (List.mem_cons_self ..))
  have e2 : l2.filter (fun f => before asc f.1 e.1) = [] := by
    refine List.filter_eq_nil_iff.2 (fun a ha => ?_)
    rw [before_asymm (h.2.1.1 a ha)]; decide
  rw [List.filter_append, List.filter_cons, e1, e2, before_irrefl]
  simp [hl1]

theorem nth_eq {asc : Bool} {l m : List (Int × α)} (h : Sorted asc l) (hp : l.Perm m) (i : Int) :
    nth asc m i = if 0 ≤ i then l[i.toNat]? else none := by
  have hlen : ∀ e : Int × α, (m.filter fun f => before asc f.1 e.1).length = (l.filter fun f => before asc f.1 e.1).length :=
    fun e => (hp.filter _).length_eq.symm
  cases hn : nth asc m i with
  | none =>
    unfold nth at hn
    rw [List.find?_eq_none] at hn
    by_cases h0 : 0 ≤ i
    · rw [if_pos h0]
      cases hl : l[i.toNat]? with
      | none => rfl
      | some e =>
        have h1 := rank_eq h hl
        have hmem : e ∈ m := hp.mem_iff.1 (List.mem_of_getElem? hl)
        have := hn e hmem
        rw [hlen e, h1] at this
        exact absurd (by simp; omega) this
    · rw [if_neg h0]
  | some e =>
    unfold nth at hn
    have h1 := List.find?_some hn
    have hmem : e ∈ l := hp.mem_iff.2 (List.mem_of_find?_eq_some hn)
    simp only [decide_eq_true_eq, hlen e] at h1
    obtain ⟨j, hj, he⟩ := List.getElem_of_mem hmem
    have hje : l[j]? = some e := by rw [List.getElem?_eq_getElem hj, he]
    have h2 := rank_eq h hje
    rw [h2] at h1
    rw [if_pos (by omega), ← h1]
    exact hje.symm

theorem step_spec {s : SortL α} {l m : List (Int × α)} (r : Rep s l) (hp : l.Perm m) (o : Op α)
    (hk : 16 * (l.length + 2) * 8 < intMax) (hv : 16 * (l.length + 2) * s.val.len < intMax) :
    ∃ s' l', step s o = some s' ∧ Rep s' l' ∧ l'.Perm (specStep s.asc m o) ∧ s'.asc = s.asc ∧ s'.val.len = s.val.len ∧
      l'.length ≤ l.length + 1 := by
  cases o with
  | set k v =>
    obtain ⟨s', l', h1, h2, h3, h4, h5⟩ := set_spec r k v hk hv
    refine ⟨s', l', h1, h2, h5.trans ((without_perm hp k).cons _), h3, h4, ?_⟩
    rw [h5.length_eq]
    simp only [List.length_cons, without]
    have := List.length_filter_le (fun e : Int × α => e.1 != k) l
    omega
  | del k =>
    simp only [step, delKey]
    rcases find_spec r k with ⟨i, w, hf, hi⟩ | ⟨hf, hno⟩
    · simp only [hf, Option.bind_eq_bind, Option.bind_some, delAt, r.start]
      obtain ⟨s', h1, h2, h3, h4⟩ := deli_spec r (i : Int)
      have e1 : (i : Int) + ((0 : Nat) : Int) = i := by omega
      rw [e1]
      rw [if_pos (by omega)] at h2
      have ei : ((i : Nat) : Int).toNat = i := rfl
      rw [ei, sorted_erase r.sorted hi] at h2
      refine ⟨s', _, h1, h2, without_perm hp k, h3, h4, ?_⟩
      exact Nat.le_succ_of_le (List.length_filter_le _ _)
    · simp only [hf, Option.bind_eq_bind, Option.bind_some]
      have e0 : without l k = l := List.filter_eq_self.2 (fun a ha => by simpa using hno a ha)
      refine ⟨s, l, rfl, r, ?_, rfl, rfl, by omega⟩
      have := without_perm hp k
      rw [e0] at this
      exact this
  | deli i =>
    obtain ⟨s', h1, h2, h3, h4⟩ := deli_spec r i
    refine ⟨s', _, h1, h2, ?_, h3, h4, ?_⟩
    · simp only [specStep]
      rw [nth_eq r.sorted hp]
      by_cases h0 : 0 ≤ i
      · simp only [if_pos h0]
        cases hl : l[i.toNat]? with
        | none =>
          rw [List.eraseIdx_of_length_le (by simpa using hl)]
          exact hp
        | some e =>
          rw [sorted_erase r.sorted hl]
          exact without_perm hp e.1
      · simp only [if_neg h0]; exact hp
    · split
      · have := List.length_eraseIdx_le l i.toNat; omega
      · omega
  | clear =>
    refine ⟨clear s, [], rfl, ⟨SL.clear_spec, SL.clear_spec, rfl, List.Pairwise.nil, r.klen⟩, List.Perm.refl _, rfl, rfl, by simp⟩

theorem run_spec {s : SortL α} {l m : List (Int × α)} (r : Rep s l) (hp : l.Perm m) (os : List (Op α))
    (hk : 16 * (l.length + os.length + 1) * 8 < intMax) (hv : 16 * (l.length + os.length + 1) * s.val.len < intMax) :
    ∃ s' l', run s os = some s' ∧ Rep s' l' ∧ l'.Perm (specRun s.asc m os) ∧ s'.asc = s.asc := by
  induction os generalizing s l m with
  | nil => exact ⟨s, l, rfl, r, hp, rfl⟩
  | cons o os ih =>
    simp only [List.length_cons] at hk hv
    have bound : ∀ {a b c : Nat}, a ≤ b → 16 * b * c < intMax → 16 * a * c < intMax := fun h1 h2 =>
      Nat.lt_of_le_of_lt (Nat.mul_le_mul_right _ (by omega)) h2
    obtain ⟨s1, l1, h1, h2, h3, h4, h5, h6⟩ := step_spec r hp o (bound (by omega) hk) (bound (by omega) hv)
    obtain ⟨s2, l2, h7, h8, h9, h10⟩ := ih h2 h3 (bound (by omega) hk) (by rw [h5]; exact bound (by omega) hv)
    refine ⟨s2, l2, ?_, h8, ?_, h10.trans h4⟩
    · simp only [run, h1, Option.bind_some, h7]
    · rw [h4] at h9; exact h9

theorem create_rep (asc : Bool) (len : Nat) (hlen : 1 ≤ len) : ∃ s : SortL α, create asc len = some s ∧ Rep s [] ∧ s.asc = asc ∧ s.val.len = len := by
  refine ⟨⟨asc, ⟨[], 0, 0, 8⟩, ⟨[], 0, 0, len⟩⟩, ?_, ⟨⟨rfl, by simp, by simp⟩, ⟨rfl, by simp, by simp⟩, rfl, List.Pairwise.nil, rfl⟩, rfl, rfl⟩
  simp [create, SL.create, show ¬ len < 1 from by omega]

theorem lookup_spec {s : SortL α} {l m : List (Int × α)} (r : Rep s l) (hp : l.Perm m) (k : Int) :
    (find s k).map (·.map (·.2)) = some (lookup m k) := by
  unfold lookup
  rcases find_spec r k with ⟨i, w, hf, hi⟩ | ⟨hf, hno⟩
  · rw [hf]
    have hmem : (k, w) ∈ m := hp.mem_iff.1 (List.mem_of_getElem? hi)
    cases hfd : m.find? fun e => e.1 == k with
    | none =>
      rw [List.find?_eq_none] at hfd
      exact absurd (by simp) (hfd _ hmem)
    | some e =>
      have h1 := List.find?_some hfd
      have h2 := List.mem_of_find?_eq_some hfd
      simp only [beq_iff_eq] at h1
      have h3 : e ∈ l := hp.mem_iff.2 h2
      obtain ⟨j, hj, he⟩ := List.getElem_of_mem h3
      have hje : l[j]? = some e := by rw [List.getElem?_eq_getElem hj, he]
      have : i = j := sorted_nodup r.sorted hi hje (by simp [h1])
      subst this
      rw [hi] at hje
      have := Option.some.inj hje
      simp [← this]
  · rw [hf]
    have : (m.find? fun e => e.1 == k) = none := by
      rw [List.find?_eq_none]
      intro e he
      simpa using hno e (hp.mem_iff.2 he)
    rw [this]; rfl

theorem spec_nodup (asc : Bool) (m : List (Int × α)) (h : (m.map (·.1)).Nodup) (o : Op α) : ((specStep asc m o).map (·.1)).Nodup := by
  have hw : ∀ k, ((without m k).map (·.1)).Nodup := fun k =>
    List.Nodup.sublist (List.Sublist.map _ List.filter_sublist) h
  cases o with
  | set k v =>
    simp only [specStep, List.map_cons, List.nodup_cons]
    refine ⟨?_, hw k⟩
    intro hmem
    obtain ⟨e, he, hk⟩ := List.mem_map.1 hmem
    simp only [without, List.mem_filter, bne_iff_ne] at he
    exact he.2 hk
  | del k => exact hw k
  | deli i =>
    simp only [specStep]
    split
    · exact hw _
    · exact h
  | clear => exact List.nodup_nil

theorem specRun_nodup (asc : Bool) (m : List (Int × α)) (h : (m.map (·.1)).Nodup) (os : List (Op α)) :
    ((specRun asc m os).map (·.1)).Nodup := by
  induction os generalizing m with
  | nil => exact h
  | cons o os ih => exact ih _ (spec_nodup asc m h o)

/-- C42: after every history of sets and deletions (by key, by position, or of everything), a lookup finds exactly the last
value set for the key, the value at position `i` is that of the entry with exactly `i` keys before it, the size is the
number of keys, and the stored keys are in strict order.  The hypothesis bounds the memory needed by a C `int` of bytes. -/
theorem C42_sort_list (asc : Bool) (len : Nat) (hlen : 1 ≤ len) (os : List (Op α))
    (hk : 16 * (os.length + 1) * 8 < intMax) (hv : 16 * (os.length + 1) * len < intMax) :
    ∃ s s', create asc len = some s ∧ run s os = some s' ∧
      (∀ k, (find s' k).map (·.map (·.2)) = some (lookup (specRun asc [] os) k)) ∧
      (∀ i, get s' i = some ((nth asc (specRun asc [] os) i).map (·.2))) ∧
      size s' = (specRun asc [] os).length ∧
      ∀ (i j : Nat) (a b : Int), i < j → SL.get s'.key i = some (some a) → SL.get s'.key j = some (some b) →
        before asc a b = true := by
  obtain ⟨s, h1, h2, h3, h4⟩ := create_rep (α := α) asc len hlen
  obtain ⟨s', l', h5, h6, h7, h8⟩ := run_spec h2 (List.Perm.refl _) os (by simpa using hk) (by rw [h4]; simpa using hv)
  have hasc := h8.trans h3
  rw [h3] at h7
  have hsort := h6.sorted
  rw [hasc] at hsort
  refine ⟨s, s', h1, h5, fun k => lookup_spec h6 h7 k, ?_, ?_, ?_⟩
  · intro i
    unfold get
    rw [SL.get_spec h6.val, nth_eq hsort h7]
    split
    · rw [List.getElem?_map]
    · rfl
  · unfold size
    rw [h6.key.count, h6.val.count]
    simp [h7.length_eq]
  · intro i j a b hij ha hb
    rw [SL.get_spec h6.key, if_pos (by omega)] at ha hb
    have ei : ∀ n : Nat, ((n : Nat) : Int).toNat = n := fun _ => rfl
    rw [ei, List.getElem?_map] at ha hb
    simp only [Option.some.injEq, Option.map_eq_some_iff] at ha hb
    obtain ⟨e, he, rfl⟩ := ha
    obtain ⟨f, hf, rfl⟩ := hb
    obtain ⟨hi, e1⟩ := List.getElem?_eq_some_iff.1 he
    obtain ⟨hj, e2⟩ := List.getElem?_eq_some_iff.1 hf
    have := List.pairwise_iff_getElem.1 hsort i j hi hj hij
    rw [e1, e2] at this
    exact this

/-- An ordinary history meets the hypotheses; what it gives. -/
example : 16 * (([.set 5 50, .set 3 30, .set 5 51, .del 3, .set 9 90] : List (Op Nat)).length + 1) * 8 < intMax ∧
    lookup (specRun true [] ([.set 5 50, .set 3 30, .set 5 51, .del 3, .set 9 90] : List (Op Nat))) 5 = some 51 ∧
    nth true (specRun true [] ([.set 5 50, .set 3 30, .set 5 51, .del 3, .set 9 90] : List (Op Nat))) 1 = some (9, 90) := by
  decide

/-- C42 fails for copies: a copy of an ascending list into a new list (which is descending) does not find a key that is in it. -/
theorem C42_clone_violated :
    ((create true 4).bind fun s => (run s ([.set 1 10, .set 2 20] : List (Op Nat))).bind fun a =>
      (create false 4).bind fun d => (clone a d).map fun c => (find a 2, find c 2)) =
      some (some (some (1, 20)), some none) := by decide +kernel

end Sis.Sort
