import Verif.Lists.FsortList
import Verif.Lists.PointerListLemmas
/-
C43: the ranked list is ordered by decreasing score, equal scores in the order of arrival.
-/
namespace Sis.Fsort
open Sis.SL (SList intMax)

variable {α β : Type}

/-- The calls that change a ranked list. -/
inductive Op (β α : Type)
  | set (k : β) (v : α)
  | del (i : Int)
  | clear

/-- The program: one call. -/
def step (lt : β → β → Bool) (s : FList β α) : Op β α → Option (FList β α)
  | .set k v => (set lt s k v).map (·.1)
  | .del i => (del s i).map (·.1)
  | .clear => (clear s).map (·.1)

/-- The program on a history. -/
def run (lt : β → β → Bool) (s : FList β α) : List (Op β α) → Option (FList β α)
  | [] => some s
  | o :: os => (step lt s o).bind (run lt · os)

/-! Specification: the items present, each with its score and the number of its arrival. -/

/-- An item with its score and the number of its arrival. -/
structure Item (β α : Type) where
  score : β
  item : α
  no : Nat

/-- `a` is ranked before `b`: a higher score, or the same score and an earlier arrival. -/
def ahead (lt : β → β → Bool) (a b : Item β α) : Bool := lt b.score a.score || (!lt a.score b.score && decide (a.no < b.no))

/-- The item with exactly `i` items ahead of it. -/
def nth (lt : β → β → Bool) (m : List (Item β α)) (i : Int) : Option (Item β α) :=
  m.find? fun e => decide (((m.filter fun f => ahead lt f e).length : Int) = i)

/-- Specification of the calls; `t` is the number of the next arrival. -/
def specStep (lt : β → β → Bool) (t : Nat) (m : List (Item β α)) : Op β α → List (Item β α)
  | .set k v => ⟨k, v, t⟩ :: m
  | .del i => match nth lt m i with
    | some e => m.filter fun f => f.no != e.no
    | none => m
  | .clear => []

/-- Specification of a history: the number of the arrival is the number of the call. -/
def specRun (lt : β → β → Bool) (t : Nat) (m : List (Item β α)) : List (Op β α) → List (Item β α)
  | [] => m
  | o :: os => specRun lt (t + 1) (specStep lt t m o) os

/-- What the comparison of scores has to satisfy for `ahead` to be an order: a strict weak order, as `<` is on `double`s
other than NaN. -/
structure Weak (lt : β → β → Bool) : Prop where
  irrefl : ∀ a, lt a a = false
  trans : ∀ a b c, lt a b = true → lt b c = true → lt a c = true
  ntrans : ∀ a b c, lt a b = false → lt b c = false → lt a c = false

/-! Proof. -/

/-- The order kept by the list: no item has a higher score than one before it, and of two items neither of which has a
higher score than the other the earlier arrival is first. -/
def Sorted (lt : β → β → Bool) (l : List (Item β α)) : Prop := l.Pairwise fun a b => ahead lt a b = true

structure Rep (s : FList β α) (l : List (Item β α)) : Prop where
  key : SL.Rep s.key (l.map (·.score))
  val : PL.Rep s.val (l.map (·.item))
  klen : s.key.len = 8

theorem ahead_irrefl {lt : β → β → Bool} (w : Weak lt) (a : Item β α) : ahead lt a a = false := by
  simp [ahead, w.irrefl]

theorem lt_asymm {lt : β → β → Bool} (w : Weak lt) {a b : β} (h : lt a b = true) : lt b a = false := by
  cases h' : lt b a with
  | false => rfl
  | true => have := w.trans a b a h h'; rw [w.irrefl] at this; exact this.symm

theorem ahead_asymm {lt : β → β → Bool} (w : Weak lt) {a b : Item β α} (h : ahead lt a b = true) : ahead lt b a = false := by
  simp only [ahead, Bool.or_eq_true, Bool.and_eq_true, Bool.not_eq_true', decide_eq_true_eq, Bool.or_eq_false_iff,
    Bool.and_eq_false_imp, decide_eq_false_iff_not] at h ⊢
  rcases h with h | ⟨h1, h2⟩
  · exact ⟨lt_asymm w h, fun h' => by rw [h] at h'; exact absurd h' (by decide)⟩
  · exact ⟨h1, fun _ => by omega⟩

theorem rank_eq {lt : β → β → Bool} (w : Weak lt) {l : List (Item β α)} (h : Sorted lt l) {i : Nat} {e : Item β α}
    (hi : l[i]? = some e) : (l.filter fun f => ahead lt f e).length = i := by
  obtain ⟨hil, hle⟩ := List.getElem?_eq_some_iff.1 hi
  obtain ⟨l1, l2, rfl, hl1⟩ : ∃ l1 l2, l = l1 ++ e :: l2 ∧ l1.length = i :=
    ⟨l.take i, l.drop (i + 1), by rw [← hle]; simp, by simp; omega⟩
  unfold Sorted at h
  rw [List.pairwise_append, List.pairwise_cons] at h
  have e1 : l1.filter (fun f => ahead lt f e) = l1 :=
    List.filter_eq_self.2 (fun a ha => h.2.2 a ha e (List.mem_cons_self ..))
  have e2 : l2.filter (fun f => ahead lt f e) = [] := by
    refine List.filter_eq_nil_iff.2 (fun a ha => ?_)
    rw [ahead_asymm w (h.2.1.1 a ha)]; decide
  rw [List.filter_append, List.filter_cons, e1, e2, ahead_irrefl w]
  simp [hl1]

theorem nth_eq {lt : β → β → Bool} (w : Weak lt) {l m : List (Item β α)} (h : Sorted lt l) (hp : l.Perm m) (i : Int) :
    nth lt m i = if 0 ≤ i then l[i.toNat]? else none := by
  have hlen : ∀ e : Item β α, (m.filter fun f => ahead lt f e).length = (l.filter fun f => ahead lt f e).length :=
    fun e => (hp.filter _).length_eq.symm
  cases hn : nth lt m i with
  | none =>
    unfold nth at hn
    rw [List.find?_eq_none] at hn
    by_cases h0 : 0 ≤ i
    · rw [if_pos h0]
      cases hl : l[i.toNat]? with
      | none => rfl
      | some e =>
        have h1 := rank_eq w h hl
        have := hn e (hp.mem_iff.1 (List.mem_of_getElem? hl))
        rw [hlen e, h1] at this
        exact absurd (by simp; omega) this
    · rw [if_neg h0]
  | some e =>
    unfold nth at hn
    have h1 := List.find?_some hn
    have hmem : e ∈ l := hp.mem_iff.2 (List.mem_of_find?_eq_some hn)
    simp only [decide_eq_true_eq, hlen e] at h1
    obtain ⟨j, hj, he⟩ := List.getElem_of_mem hmem
    have hje : l[j]? = some e := by rw [List.getElem?_eq_getElem hj, he]
    have h2 := rank_eq w h hje
    rw [h2] at h1
    rw [if_pos (by omega), ← h1]
    exact hje.symm

theorem scan_spec (lt : β → β → Bool) {keys : SList β} {ks : List β} (r : SL.Rep keys ks) (k : β) (n i : Nat) (x : Int)
    (h : i + n = ks.length) :
    scan lt keys k n i x = some (if n = 0 then x else ((ks.drop i).findIdx? fun v => lt v k).elim (ks.length : Int)
      fun j => ((i + j : Nat) : Int)) := by
  induction n generalizing i x with
  | zero => rfl
  | succ n ih =>
    have hi : i < ks.length := by omega
    simp only [scan]
    rw [SL.get_spec r, if_pos (by omega)]
    have : (i : Int).toNat = i := rfl
    rw [this, List.getElem?_eq_getElem hi, List.drop_eq_getElem_cons hi, List.findIdx?_cons]
    simp only
    by_cases hb : lt ks[i] k = true
    · simp [if_pos hb]
    · rw [if_neg hb, if_neg hb, if_neg (by omega)]
      have h2 := ih (i + 1) ((i : Int) + 1) (by omega)
      rw [show ((i + 1 : Nat) : Int) = (i : Int) + 1 from rfl] at h2
      rw [h2]
      by_cases hn : n = 0
      · subst hn
        rw [if_pos rfl, List.drop_eq_nil_iff.2 (by omega)]
        simp; omega
      · rw [if_neg hn]
        cases (ks.drop (i + 1)).findIdx? fun v => lt v k with
        | none => rfl
        | some j => simp; omega

theorem del_spec {s : FList β α} {l : List (Item β α)} (r : Rep s l) (i : Int) :
    ∃ s', del s i = some (s', if 0 ≤ i then PL.freed s.val.vf (l[i.toNat]?.toList.map (·.item)) else []) ∧
      Rep s' (if 0 ≤ i then l.eraseIdx i.toNat else l) ∧ s'.val.vf = s.val.vf := by
  obtain ⟨k, hk1, hk2, hk3⟩ := SL.delete_spec r.key i 1
  obtain ⟨w, hw1, hw2, hw3⟩ := PL.delete_spec r.val i 1
  unfold del
  simp only [hk1, hw1, Option.bind_eq_bind, Option.bind_some]
  simp only [List.length_map] at hk2 hw2 ⊢
  have hmap : ∀ {γ : Type} (f : Item β α → γ), (l.map f).eraseIdx i.toNat = (l.eraseIdx i.toNat).map f := by
    intro γ f
    rw [List.eraseIdx_eq_take_drop_succ, List.eraseIdx_eq_take_drop_succ, List.map_append, List.map_take, List.map_drop]
  by_cases h : 0 ≤ i ∧ i < l.length
  · have hc : ¬ (i < 0 ∨ (1 : Int) < 1 ∨ i + 1 > l.length) := by omega
    rw [if_neg hc] at hk2 hw2 ⊢
    rw [if_pos h.1, if_pos h.1]
    have e : (i + 1).toNat = i.toNat + 1 := by omega
    rw [e, ← List.eraseIdx_eq_take_drop_succ] at hk2 hw2
    refine ⟨⟨k, w⟩, ?_, ⟨by rw [← hmap]; exact hk2, by rw [← hmap]; exact hw2, hk3.trans r.klen⟩, hw3⟩
    have hi : i.toNat < l.length := by omega
    have e2 : List.drop i.toNat (List.map (fun x => x.item) l) = l[i.toNat].item :: (l.drop (i.toNat + 1)).map (·.item) := by
      rw [← List.map_drop, List.drop_eq_getElem_cons hi, List.map_cons]
    rw [List.getElem?_eq_getElem hi, e2]
    simp
  · have hc : i < 0 ∨ (1 : Int) < 1 ∨ i + 1 > l.length := by omega
    rw [if_pos hc] at hk2 hw2 ⊢
    have e : (if 0 ≤ i then l.eraseIdx i.toNat else l) = l := by
      split
      · exact List.eraseIdx_of_length_le (by omega)
      · rfl
    rw [e]
    refine ⟨⟨k, w⟩, ?_, ⟨hk2, hw2, hk3.trans r.klen⟩, hw3⟩
    split
    · rw [List.getElem?_eq_none (by omega)]; simp [PL.freed]
    · rfl

/-- Where a new item goes: behind everything that is not lower. -/
def place (lt : β → β → Bool) (l : List (Item β α)) (k : β) : Nat := ((l.map (·.score)).findIdx? fun v => lt v k).getD l.length

theorem set_spec (lt : β → β → Bool) {s : FList β α} {l : List (Item β α)} (r : Rep s l) (k : β) (v : α) (t : Nat)
    (hk : 16 * (l.length + 2) * 8 < intMax) (hv : (l.length + 1281) * 8 < intMax) :
    ∃ s', set lt s k v = some (s', (place lt l k : Int)) ∧
      Rep s' (l.take (place lt l k) ++ ⟨k, v, t⟩ :: l.drop (place lt l k)) ∧ s'.val.vf = s.val.vf := by
  have hk' : SL.newMax ((l.map (·.score)).length + [k].length) * s.key.len < intMax := by
    rw [r.klen]
    have := SL.newMax_le ((l.map (·.score)).length + [k].length) (by simp)
    refine Nat.lt_of_le_of_lt (Nat.mul_le_mul_right 8 this) ?_
    simp only [List.length_map, List.length_singleton]
    exact Nat.lt_of_le_of_lt (Nat.mul_le_mul_right 8 (by omega)) hk
  have hc : s.key.count = l.length := by rw [r.key.count]; simp
  have hsc := scan_spec lt r.key k s.key.count 0 (-1) (by rw [r.key.count]; omega)
  have hsc' : scan lt s.key k s.key.count 0 (-1) = some (if s.key.count = 0 then -1 else
      ((l.map (·.score)).findIdx? fun v => lt v k).elim ((l.map (·.score)).length : Int) fun j => ((0 + j : Nat) : Int)) := hsc
  unfold set
  rw [hsc']
  simp only [Option.bind_eq_bind, Option.bind_some]
  unfold place
  cases hfi : (l.map (·.score)).findIdx? fun v => lt v k with
  | none =>
    have hcond : (if s.key.count = 0 then -1 else (none : Option Nat).elim ((l.map (·.score)).length : Int) fun j => ((0 + j : Nat) : Int)) < 0 ∨
        (if s.key.count = 0 then -1 else (none : Option Nat).elim ((l.map (·.score)).length : Int) fun j => ((0 + j : Nat) : Int)) >
        (s.key.count : Int) - 1 := by
      split
      · left; omega
      · right; simp only [Option.elim_none, List.length_map]; omega
    rw [if_pos hcond]
    obtain ⟨a, ha1, ha2, ha3⟩ := SL.pushs_spec r.key [k] hk'
    obtain ⟨b, hb1, hb2, hb3⟩ := PL.push_spec r.val v (by simpa using hv)
    unfold SL.push
    simp only [ha1, hb1, Option.bind_some]
    refine ⟨_, by rw [hc]; rfl, ⟨?_, ?_, ha3.trans r.klen⟩, hb3⟩
    · simpa using ha2
    · simpa using hb2
  | some i =>
    obtain ⟨hil, hbi, hlt⟩ := List.findIdx?_eq_some_iff_getElem.1 hfi
    simp only [List.length_map] at hil
    have e0i : (0 + i : Nat) = i := by omega
    have hne : s.key.count ≠ 0 := by omega
    simp only [if_neg hne, Option.elim_some, e0i, Option.getD_some]
    rw [if_neg (by rw [hc]; omega)]
    obtain ⟨a, ha1, ha2, ha3⟩ := SL.inserts_spec r.key (i : Int) [k] hk'
    obtain ⟨b, hb1, hb2, hb3⟩ := PL.insert_spec r.val (i : Int) v (by simpa using hv)
    unfold SL.insert
    simp only [ha1, hb1, Option.bind_some]
    have ei : ((i : Nat) : Int).toNat = i := rfl
    refine ⟨_, rfl, ⟨?_, ?_, ha3.trans r.klen⟩, hb3⟩
    · rw [ei] at ha2; simpa [List.map_take, List.map_drop] using ha2
    · rw [if_neg (by rw [List.length_map]; omega), if_neg (by rw [List.length_map]; omega), ei] at hb2
      simpa [List.map_take, List.map_drop] using hb2

theorem place_sorted {lt : β → β → Bool} (w : Weak lt) {l : List (Item β α)} (h : Sorted lt l) (k : β) (v : α) (t : Nat)
    (ht : ∀ e ∈ l, e.no < t) : Sorted lt (l.take (place lt l k) ++ ⟨k, v, t⟩ :: l.drop (place lt l k)) := by
  have hpre : ∀ x ∈ l.take (place lt l k), ahead lt x ⟨k, v, t⟩ = true := by
    intro x hx
    have hno : lt x.score k = false := by
      unfold place at hx
      cases hfi : (l.map (·.score)).findIdx? fun v => lt v k with
      | none =>
        rw [List.findIdx?_eq_none_iff] at hfi
        exact hfi x.score (List.mem_map.2 ⟨x, List.mem_of_mem_take hx, rfl⟩)
      | some i =>
        obtain ⟨hil, hbi, hlt⟩ := List.findIdx?_eq_some_iff_getElem.1 hfi
        rw [hfi, Option.getD_some] at hx
        obtain ⟨j, hj, he⟩ := List.getElem_of_mem hx
        simp only [List.length_take] at hj
        have := hlt j (by omega)
        simp only [List.getElem_map, Bool.not_eq_true] at this
        rw [List.getElem_take] at he
        rw [he] at this
        exact this
    simp [ahead, hno, ht x (List.mem_of_mem_take hx)]
  have hpost : ∀ x ∈ l.drop (place lt l k), ahead lt ⟨k, v, t⟩ x = true := by
    intro x hx
    unfold place at hx
    cases hfi : (l.map (·.score)).findIdx? fun v => lt v k with
    | none => rw [hfi] at hx; simp at hx
    | some i =>
      obtain ⟨hil, hbi, hlt⟩ := List.findIdx?_eq_some_iff_getElem.1 hfi
      rw [hfi, Option.getD_some] at hx
      simp only [List.length_map] at hil
      rw [List.getElem_map] at hbi
      have hd : l.drop i = l[i] :: l.drop (i + 1) := List.drop_eq_getElem_cons hil
      have hs : (l.drop i).Pairwise fun a b => ahead lt a b = true := List.Pairwise.sublist (List.drop_sublist i l) h
      rw [hd] at hx hs
      rw [List.pairwise_cons] at hs
      rcases List.mem_cons.1 hx with rfl | hx
      · simp [ahead, hbi]
      · have h1 := hs.1 x hx
        have h2 : lt l[i].score x.score = false := by
          simp only [ahead, Bool.or_eq_true, Bool.and_eq_true, Bool.not_eq_true'] at h1
          rcases h1 with h1 | h1
          · exact lt_asymm w h1
          · exact h1.1
        have h3 : lt x.score k = true := by
          cases h4 : lt x.score k with
          | true => rfl
          | false => have := w.ntrans _ _ _ h2 h4; rw [hbi] at this; exact absurd this (by decide)
        simp [ahead, h3]
  have hs := h
  unfold Sorted at hs ⊢
  rw [← List.take_append_drop (place lt l k) l, List.pairwise_append] at hs
  rw [List.pairwise_append, List.pairwise_cons]
  refine ⟨hs.1, ⟨hpost, hs.2.1⟩, ?_⟩
  intro x hx y hy
  rcases List.mem_cons.1 hy with rfl | hy
  · exact hpre x hx
  · exact hs.2.2 x hx y hy

theorem sorted_erase {l : List (Item β α)} (hnd : (l.map (·.no)).Nodup) {i : Nat} {e : Item β α} (hi : l[i]? = some e) :
    l.eraseIdx i = l.filter fun f => f.no != e.no := by
  obtain ⟨hil, hle⟩ := List.getElem?_eq_some_iff.1 hi
  obtain ⟨l1, l2, rfl, hl1⟩ : ∃ l1 l2, l = l1 ++ e :: l2 ∧ l1.length = i :=
    ⟨l.take i, l.drop (i + 1), by rw [← hle]; simp, by simp; omega⟩
  rw [List.map_append, List.map_cons, List.nodup_append, List.nodup_cons] at hnd
  have e1 : l1.filter (fun f => f.no != e.no) = l1 := by
    refine List.filter_eq_self.2 (fun a ha => ?_)
    have := hnd.2.2 a.no (List.mem_map.2 ⟨a, ha, rfl⟩) e.no (List.mem_cons_self ..)
    simpa using this
  have e2 : l2.filter (fun f => f.no != e.no) = l2 := by
    refine List.filter_eq_self.2 (fun a ha => ?_)
    have : e.no ≠ a.no := fun h => hnd.2.1.1 (by rw [h]; exact List.mem_map.2 ⟨a, ha, rfl⟩)
    simpa using fun h => this h.symm
  rw [List.filter_append, List.filter_cons, e1, e2, ← hl1]
  simp [List.eraseIdx_append_of_length_le]

theorem run_spec {lt : β → β → Bool} (w : Weak lt) {s : FList β α} {l m : List (Item β α)} (r : Rep s l) (hs : Sorted lt l)
    (hp : l.Perm m) (t : Nat) (ht : ∀ e ∈ l, e.no < t) (hnd : (l.map (·.no)).Nodup) (os : List (Op β α))
    (hk : (16 * (l.length + os.length) + 1281) * 8 < intMax) :
    ∃ s' l', run lt s os = some s' ∧ Rep s' l' ∧ Sorted lt l' ∧ l'.Perm (specRun lt t m os) := by
  induction os generalizing s l m t with
  | nil => exact ⟨s, l, rfl, r, hs, hp⟩
  | cons o os ih =>
    simp only [List.length_cons] at hk
    have bound : ∀ {a b : Nat}, a ≤ b → b * 8 < intMax → a * 8 < intMax := fun h1 h2 =>
      Nat.lt_of_le_of_lt (Nat.mul_le_mul_right _ h1) h2
    obtain ⟨s1, l1, h1, r1, hs1, hp1, ht1, hnd1, hlen⟩ : ∃ s1 l1, step lt s o = some s1 ∧ Rep s1 l1 ∧ Sorted lt l1 ∧
        l1.Perm (specStep lt t m o) ∧ (∀ e ∈ l1, e.no < t + 1) ∧ (l1.map (·.no)).Nodup ∧ l1.length ≤ l.length + 1 := by
      cases o with
      | set k v =>
        obtain ⟨s1, h1, r1, _⟩ := set_spec lt r k v t (bound (by omega) hk) (bound (by omega) hk)
        have hperm : (l.take (place lt l k) ++ ⟨k, v, t⟩ :: l.drop (place lt l k)).Perm (⟨k, v, t⟩ :: l) := by
          have := List.perm_middle (a := (⟨k, v, t⟩ : Item β α)) (l₁ := l.take (place lt l k)) (l₂ := l.drop (place lt l k))
          rw [List.take_append_drop] at this
          exact this
        refine ⟨s1, _, by simp [step, h1], r1, place_sorted w hs k v t ht, hperm.trans (hp.cons _), ?_, ?_, ?_⟩
        · intro e he
          rcases List.mem_cons.1 (hperm.mem_iff.1 he) with rfl | he
          · show t < t + 1; omega
          · have := ht e he; omega
        · rw [(hperm.map _).nodup_iff, List.map_cons, List.nodup_cons]
          refine ⟨?_, hnd⟩
          intro hmem
          obtain ⟨e, he, h'⟩ := List.mem_map.1 hmem
          have := ht e he
          simp only at h'
          omega
        · rw [hperm.length_eq]; simp
      | del i =>
        obtain ⟨s1, h1, r1, _⟩ := del_spec r i
        refine ⟨s1, _, by simp [step, h1], r1, ?_, ?_, ?_, ?_, ?_⟩
        · split
          · exact List.Pairwise.sublist (List.eraseIdx_sublist l i.toNat) hs
          · exact hs
        · simp only [specStep]
          rw [nth_eq w hs hp]
          by_cases h0 : 0 ≤ i
          · simp only [if_pos h0]
            cases hl : l[i.toNat]? with
            | none => rw [List.eraseIdx_of_length_le (by simpa using hl)]; exact hp
            | some e => rw [sorted_erase hnd hl]; exact hp.filter _
          · simp only [if_neg h0]; exact hp
        · intro e he
          have : e ∈ l := by
            split at he
            · exact (List.eraseIdx_sublist l i.toNat).subset he
            · exact he
          have := ht e this; omega
        · split
          · exact hnd.sublist ((List.eraseIdx_sublist l i.toNat).map _)
          · exact hnd
        · split
          · have := List.length_eraseIdx_le l i.toNat; omega
          · omega
      | clear =>
        obtain ⟨p, h1, h2, h3⟩ := PL.clear_spec r.val
        refine ⟨⟨SL.clear s.key, p⟩, [], by simp [step, clear, h1], ⟨SL.clear_spec, h2, r.klen⟩, List.Pairwise.nil, List.Perm.refl _,
          by simp, by simp, by simp⟩
    obtain ⟨s2, l2, h2, h3, h4, h5⟩ := ih r1 hs1 hp1 (t + 1) ht1 hnd1 (bound (by omega) hk)
    exact ⟨s2, l2, by simp only [run, h1, Option.bind_some, h2], h3, h4, h5⟩

/-- C43: after every history of insertions, deletions by position and clears, the item at position `i` and its score are those
of the item with exactly `i` items ahead of it: higher scores, or the same score and an earlier arrival.  `Weak` is what `<`
satisfies on `double`s that are not NaN; the last hypothesis bounds the memory needed by a C `int` of bytes. -/
theorem C43_ranked_list {lt : β → β → Bool} (w : Weak lt) (vf : Bool) (os : List (Op β α))
    (hk : (16 * os.length + 1281) * 8 < intMax) :
    ∃ s s', create vf = some s ∧ run lt s os = some s' ∧
      (∀ i, get s' i = some ((nth lt (specRun lt 0 [] os) i).map (·.item))) ∧
      (∀ i, getkey s' i = (nth lt (specRun lt 0 [] os) i).map (·.score)) ∧
      size s' = (specRun lt 0 [] os).length := by
  have r0 : Rep (⟨⟨[], 0, 0, 8⟩, PL.create vf⟩ : FList β α) [] := ⟨⟨rfl, by simp, by simp⟩, PL.rep_create vf, rfl⟩
  obtain ⟨s', l', h1, h2, h3, h4⟩ := run_spec w r0 (List.Pairwise.nil) (List.Perm.refl _) 0 (by simp) (by simp) os
    (by simpa using hk)
  refine ⟨_, s', rfl, h1, ?_, ?_, ?_⟩
  · intro i
    unfold get
    rw [PL.get_spec h2.val, nth_eq w h3 h4]
    split
    · rw [List.getElem?_map]
    · rfl
  · intro i
    unfold getkey
    rw [SL.get_spec h2.key, nth_eq w h3 h4]
    split
    · rw [List.getElem?_map]; rfl
    · rfl
  · unfold size
    rw [h2.key.count, h2.val.1]
    simp [h4.length_eq]

/-- Whole numbers are such scores; what an ordinary history gives. -/
example : Weak (fun a b : Int => decide (a < b)) ∧
    (nth (fun a b : Int => decide (a < b)) (specRun (fun a b : Int => decide (a < b)) 0 []
      ([.set 5 'a', .set 7 'b', .set 5 'c', .set 6 'd', .del 0] : List (Op Int Char))) 1).map (·.item) = some 'a' ∧
    (nth (fun a b : Int => decide (a < b)) (specRun (fun a b : Int => decide (a < b)) 0 []
      ([.set 5 'a', .set 7 'b', .set 5 'c', .set 6 'd', .del 0] : List (Op Int Char))) 2).map (·.item) = some 'c' := by
  refine ⟨⟨by simp, ?_, ?_⟩, by decide, by decide⟩
  · intro a b c; simp only [decide_eq_true_eq]; omega
  · intro a b c; simp only [decide_eq_false_iff_not]; omega

/-- Comparison of scores that may be NaN (`none`). -/
def ltNan (a b : Option Int) : Bool := match a, b with
  | some x, some y => decide (x < y)
  | _, _ => false

/-- Why NaN is excluded: with NaN scores there is no such order, the same item ends before or behind the same score. -/
theorem C43_nan_excluded :
    (((create false).bind fun s => run ltNan s ([.set none 'n', .set (some 5) 'a'] : List (Op (Option Int) Char))).bind (get · 0),
     ((create false).bind fun s => run ltNan s ([.set (some 5) 'a', .set none 'n'] : List (Op (Option Int) Char))).bind (get · 0)) =
    (some (some 'n'), some (some 'a')) := by decide +kernel

end Sis.Fsort
