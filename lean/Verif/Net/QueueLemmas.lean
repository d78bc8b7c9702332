import Verif.Net.Queue
/- Invariants of the network queues. -/
namespace Sis.Nq
open Sis

/-- Number of nodes of the write list that hold data. -/
def used (s : Mems) : Nat := s.wpre.length + if s.wnode.data = [] then 0 else 1

/-- Shape of the write list. -/
structure W (s : Mems) : Prop where
  pre : ∀ n ∈ s.wpre, n.data ≠ [] ∧ n.rpos = 0
  cur : s.wnode.rpos = 0
  fits : s.wnode.data.length ≤ s.wnode.max
  next : s.wpre ≠ [] → s.wnode.data ≠ []
  post : ∀ n ∈ s.wpost, n.data = [] ∧ n.rpos = 0
  nums : s.wnums = s.wpre.length + 1 + s.wpost.length
  uses : used s ≤ s.wuses
  size : s.wsize = (s.wpre.flatMap Node.data).length + s.wnode.data.length

theorem W_create : W create := by
  constructor <;> simp [create, Node.create, used]

theorem W_moveWrite {s : Mems} (_h : W s) : W (moveWrite s) := by
  obtain ⟨a1, a2, a3, a4, a5, a6, a7, a8⟩ := _h
  unfold moveWrite
  split
  · next hw =>
    constructor <;> simp_all [Node.clear, used]
  · next a p hw =>
    constructor <;> simp_all [Node.clear, used]
    · rintro n (⟨x, hx, rfl⟩ | rfl | ⟨x, hx, rfl⟩) <;> simp
    · omega

theorem keep_le (s : Mems) : keep s ≤ s.r.length := by
  unfold keep
  simp only
  split <;> omega

theorem W_moveRead {s : Mems} (h : W s) : W (moveRead s) := by
  have hk := keep_le s
  obtain ⟨a1, a2, a3, a4, a5, a6, a7, a8⟩ := h
  refine ⟨a1, a2, a3, a4, ?_, ?_, a7, a8⟩
  · intro n hn
    simp only [moveRead, List.mem_append] at hn
    rcases hn with hn | hn
    · exact a5 n hn
    · obtain ⟨x, _, rfl⟩ := List.mem_map.1 (List.mem_of_mem_take hn)
      simp [Node.clear]
  · simp only [moveRead, List.length_append, List.length_take, List.length_map]
    omega

theorem write_spec {s : Mems} (h : W s) (d : Bytes) (f : Nat → Nat) (hd : d.length ≤ memSize + 1) :
    ∃ s', write s d f = some s' ∧ W s' ∧ s'.r = s.r ∧ s'.rnums = s.rnums ∧ s'.rsize = s.rsize ∧
      ((s'.wpre = s.wpre ∧ s'.wnode.data = s.wnode.data ++ d) ∨
       (s'.wpre = s.wpre ++ [s.wnode] ∧ s'.wnode.data = d)) := by
  obtain ⟨a1, a2, a3, a4, a5, a6, a7, a8⟩ := h
  unfold write resetNode
  -- what the walk finds
  have key : findNode d.length (s.wnode :: s.wpost) = (
      if d.length + s.wnode.data.length > s.wnode.max then
        if s.wnode.data.length = 0 then some ([], s.wnode.renew d.length, s.wpost)
        else match s.wpost with
          | [] => none
          | b :: q => some ([s.wnode], if d.length > b.max then b.renew d.length else b, q)
      else some ([], s.wnode, s.wpost)) := by
    conv => lhs; unfold findNode
    split
    · split
      · rfl
      · cases hp : s.wpost with
        | nil => simp [findNode]
        | cons b q =>
          have hb := (a5 b (by simp [hp])).1
          unfold findNode
          simp only [hb, List.length_nil, Nat.add_zero, if_true]
          split <;> simp
    · rfl
  rw [key]
  by_cases h1 : d.length + s.wnode.data.length > s.wnode.max
  · rw [if_pos h1]
    by_cases h2 : s.wnode.data.length = 0
    · rw [if_pos h2]
      have e2 := List.length_eq_zero_iff.1 h2
      have hgt : d.length > s.wnode.max := by omega
      simp only [Node.renew, if_pos hgt, e2, List.length_nil, Nat.zero_add, List.append_nil, List.nil_append]
      rw [if_neg (by omega)]
      refine ⟨_, rfl, ?_, rfl, rfl, rfl, Or.inl ⟨rfl, rfl⟩⟩
      have hpre : s.wpre = [] := by
        refine Classical.byContradiction fun hc => ?_; exact a4 hc e2
      constructor <;> simp_all [used]
      split <;> omega
    · rw [if_neg h2]
      have hne : s.wnode.data ≠ [] := fun e => h2 (by simp [e])
      have hd0 : d ≠ [] := by
        intro e; subst e; simp at h1; omega
      cases hp : s.wpost with
      | nil =>
        simp only [Node.create, List.length_nil, Nat.zero_add, List.nil_append]
        rw [if_neg (by omega)]
        refine ⟨_, rfl, ?_, rfl, rfl, rfl, Or.inr ⟨rfl, rfl⟩⟩
        constructor <;> simp_all [used]
        · rintro n (hn | rfl)
          · exact a1 n hn
          · exact ⟨hne, a2⟩
      | cons b q =>
        have hb := a5 b (by simp [hp])
        have hmax : d.length ≤ (if d.length > b.max then b.renew d.length else b).max := by
          split
          · next hc => simp [Node.renew, hc]
          · omega
        have hdata : (if d.length > b.max then b.renew d.length else b).data = [] := by
          split
          · next hc => simp [Node.renew, hc, hb.1]
          · exact hb.1
        have hrp : (if d.length > b.max then b.renew d.length else b).rpos = 0 := by
          split
          · next hc => simp [Node.renew, hc, hb.2]
          · exact hb.2
        simp only
        generalize (if d.length > b.max then b.renew d.length else b) = c at hmax hdata hrp
        simp only [hdata, List.length_nil, Nat.zero_add, List.nil_append]
        rw [if_neg (by omega)]
        refine ⟨_, rfl, ?_, rfl, rfl, rfl, Or.inr ⟨rfl, rfl⟩⟩
        constructor <;> simp_all [used]
        · rintro n (hn | rfl)
          · exact a1 n hn
          · exact ⟨hne, a2⟩
        · omega
  · rw [if_neg h1]
    simp only [List.append_nil]
    rw [if_neg (by omega)]
    refine ⟨_, rfl, ?_, rfl, rfl, rfl, Or.inl ⟨rfl, rfl⟩⟩
    refine ⟨a1, a2, ?_, ?_, a5, a6, ?_, ?_⟩
    · simp only [List.length_append]; omega
    · intro hc
      have := a4 hc
      simp [this]
    · simp only [used] at a7 ⊢
      by_cases e : s.wnode.data = []
      · simp only [e, if_true, List.length_nil, List.nil_append] at a7 ⊢
        split <;> omega
      · rw [if_neg e] at a7
        rw [if_neg (by simp [e]), if_neg (by simp [e])]
        exact a7
    · simp only [List.length_append]; omega

/-- What one reading moves: a front part of the filled nodes. -/
theorem readLoop_spec (lim : Int) : ∀ (k : Nat) (s : Mems), W s → s.wuses = k →
    ∃ s' mv rest, readLoop lim k s = some s' ∧ W s' ∧ s.wpre ++ [s.wnode] = mv ++ rest ∧
      (∀ n ∈ mv, n.data ≠ [] ∧ n.rpos = 0) ∧
      (rest = s'.wpre ++ [s'.wnode] ∨ (rest = [] ∧ s'.wpre = [] ∧ s'.wnode.data = [])) ∧
      s'.r = s.r ++ mv ∧ s'.rnums = s.rnums + mv.length ∧
      s'.rsize = s.rsize + (mv.flatMap Node.data).length ∧
      (s'.wpre ++ [s'.wnode] ≠ [] → (s.rnums : Int) + used s ≤ lim → s'.wpre = [] ∧ s'.wnode.data = []) ∧
      ((whead s).data ≠ [] → (s.rnums : Int) < lim → mv ≠ []) := by
  intro k
  induction k with
  | zero =>
    intro s h hk
    have hu := h.uses
    rw [hk] at hu
    have hu0 : used s = 0 := by omega
    have e1 : s.wpre = [] ∧ s.wnode.data = [] := by
      simp only [used] at hu0
      constructor
      · exact List.length_eq_zero_iff.1 (by omega)
      · refine Classical.byContradiction fun hc => ?_
        rw [if_neg hc] at hu0
        omega
    refine ⟨s, [], s.wpre ++ [s.wnode], rfl, h, by simp, by simp, Or.inl rfl, by simp, by simp, by simp,
      fun _ _ => e1, ?_⟩
    intro hh _
    simp [whead, e1.1, e1.2] at hh
  | succ k ih =>
    intro s h hk
    unfold readLoop
    by_cases hc : (whead s).data.length > 0 ∧ s.wuses > 0 ∧ (s.rnums : Int) < lim
    · rw [if_pos hc]
      have hsz := h.size
      cases hp : s.wpre with
      | cons a p =>
        have ha := h.pre a (by simp [hp])
        have hw : whead s = a := by simp [whead, hp]
        have hle : ¬ s.wsize < a.data.length := by
          rw [hsz, hp]; simp; omega
        simp only [takeOne, hw, if_neg hle, hp, Option.bind_some]
        have hnx := h.next (by simp [hp])
        have hus := h.uses
        have hW' : W { s with wpre := p, wnums := s.wnums - 1, wuses := s.wuses - 1, wsize := s.wsize - a.data.length
                              rnums := s.rnums + 1, rsize := s.rsize + a.data.length, r := s.r ++ [a] } := by
          refine ⟨fun n hn => h.pre n (by simp [hp, hn]), h.cur, h.fits, fun _ => hnx, h.post, ?_, ?_, ?_⟩
          · have := h.nums; rw [hp] at this; simp at this ⊢; omega
          · simp only [used, hp, List.length_cons] at hus ⊢; omega
          · rw [hp] at hsz; simp only [List.flatMap_cons, List.length_append] at hsz ⊢; omega
        obtain ⟨s', mv, rest, e1, e2, e3, e4, e5, e6, e7, e8, e9, e10⟩ := ih _ hW' (by simp; omega)
        refine ⟨s', a :: mv, rest, e1, e2, by simp [e3], ?_, e5, by simp [e6], by simp [e7]; omega,
          by simp [e8]; omega, ?_, by simp⟩
        · rintro n (_ | ⟨_, hn⟩)
          · exact ha
          · exact e4 n hn
        · intro q1 q2
          refine e9 q1 ?_
          simp only [used, hp, List.length_cons] at q2 ⊢
          push_cast at q2 ⊢
          omega
      | nil =>
        have hw : whead s = s.wnode := by simp [whead, hp]
        have hne : s.wnode.data ≠ [] := by
          rw [hw] at hc; exact List.length_pos_iff.1 hc.1
        have hle : ¬ s.wsize < s.wnode.data.length := by
          rw [hsz, hp]; simp
        cases hq : s.wpost with
        | cons b q =>
          simp only [takeOne, hw, if_neg hle, hp, hq, Option.bind_some]
          have hb := h.post b (by simp [hq])
          have hW' : W { s with wpre := [], wnode := b, wpost := q, wnums := s.wnums - 1, wuses := s.wuses - 1
                                wsize := s.wsize - s.wnode.data.length, rnums := s.rnums + 1
                                rsize := s.rsize + s.wnode.data.length, r := s.r ++ [s.wnode] } := by
            refine ⟨by simp, hb.2, by simp [hb.1], by simp, fun n hn => h.post n (by simp [hq, hn]), ?_, ?_, ?_⟩
            · have := h.nums; rw [hp, hq] at this; simp at this ⊢; omega
            · simp [used, hb.1]
            · rw [hp] at hsz; simp only [hb.1, List.flatMap_nil, List.length_nil] at hsz ⊢; omega
          obtain ⟨s', mv, rest, e1, e2, e3, e4, e5, e6, e7, e8, e9, e10⟩ := ih _ hW' (by simp; omega)
          have hmv : mv = [] := by
            simp only [List.nil_append] at e3
            cases mv with
            | nil => rfl
            | cons m mv' =>
              simp only [List.cons_append, List.cons.injEq] at e3
              exact absurd (e3.1 ▸ hb.1) (e4 m (by simp)).1
          subst hmv
          refine ⟨s', [s.wnode], [], e1, e2, by simp, ?_, Or.inr ⟨rfl, ?_⟩, by simp [e6], by simp [e7],
            by simp [e8], ?_, by simp⟩
          · intro n hn
            rw [List.mem_singleton] at hn
            subst hn
            exact ⟨hne, h.cur⟩
          · rcases e5 with e5 | e5
            · rw [e5] at e3
              simp only [List.nil_append] at e3
              cases hs' : s'.wpre with
              | nil =>
                rw [hs'] at e3
                simp only [List.nil_append, List.cons.injEq, and_true] at e3
                exact ⟨rfl, e3 ▸ hb.1⟩
              | cons x y =>
                rw [hs'] at e3
                simp at e3
            · exact e5.2
          · intro q1 _
            exact e9 q1 (by simp only [used, hb.1, if_true, List.length_nil]; push_cast; omega)
        | nil =>
          simp only [takeOne, hw, if_neg hle, hp, hq, Option.bind_some]
          have hW' : W { s with wpre := [], wnode := Node.create memSize, wpost := [], wnums := 1
                                wuses := s.wuses - 1
                                wsize := s.wsize - s.wnode.data.length, rnums := s.rnums + 1
                                rsize := s.rsize + s.wnode.data.length, r := s.r ++ [s.wnode] } := by
            refine ⟨by simp, rfl, by simp [Node.create], by simp, by simp, by simp, ?_, ?_⟩
            · simp [used, Node.create]
            · rw [hp] at hsz; simp only [Node.create, List.flatMap_nil, List.length_nil] at hsz ⊢; omega
          obtain ⟨s', mv, rest, e1, e2, e3, e4, e5, e6, e7, e8, e9, e10⟩ := ih _ hW' (by simp; omega)
          have hmv : mv = [] := by
            simp only [List.nil_append] at e3
            cases mv with
            | nil => rfl
            | cons m mv' =>
              simp only [List.cons_append, List.cons.injEq] at e3
              exact absurd (e3.1 ▸ rfl : m.data = []) (e4 m (by simp)).1
          subst hmv
          refine ⟨s', [s.wnode], [], e1, e2, by simp, ?_, Or.inr ⟨rfl, ?_⟩, by simp [e6], by simp [e7],
            by simp [e8], ?_, by simp⟩
          · intro n hn
            rw [List.mem_singleton] at hn
            subst hn
            exact ⟨hne, h.cur⟩
          · rcases e5 with e5 | e5
            · rw [e5] at e3
              simp only [List.nil_append] at e3
              cases hs' : s'.wpre with
              | nil =>
                rw [hs'] at e3
                simp only [List.nil_append, List.cons.injEq, and_true] at e3
                exact ⟨rfl, e3 ▸ rfl⟩
              | cons x y =>
                rw [hs'] at e3
                simp at e3
            · exact e5.2
          · intro q1 _
            exact e9 q1 (by simp only [used, Node.create, if_true, List.length_nil]; push_cast; omega)
    · rw [if_neg hc]
      refine ⟨s, [], s.wpre ++ [s.wnode], rfl, h, by simp, by simp, Or.inl rfl, by simp, by simp, by simp, ?_, ?_⟩
      · intro _ hl
        have hu := h.uses
        by_cases h0 : (whead s).data.length > 0
        · exfalso
          apply hc
          refine ⟨h0, by omega, ?_⟩
          have : 0 < used s := by
            unfold used
            cases hp : s.wpre with
            | cons a p => simp; omega
            | nil =>
              have : s.wnode.data ≠ [] := by
                rw [whead, hp] at h0; exact List.length_pos_iff.1 h0
              simp [this]
          omega
        · cases hp : s.wpre with
          | cons a p =>
            have ha := (h.pre a (by simp [hp])).1
            rw [whead, hp] at h0
            exact absurd (List.length_pos_iff.2 ha) h0
          | nil =>
            rw [whead, hp] at h0
            refine ⟨rfl, ?_⟩
            refine Classical.byContradiction fun hne => ?_
            exact h0 (List.length_pos_iff.2 hne)
      · intro h1 h2 
        exfalso
        exact hc ⟨List.length_pos_iff.2 h1, by omega, h2⟩

end Sis.Nq
