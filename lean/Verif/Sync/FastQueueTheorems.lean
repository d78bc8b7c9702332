import Verif.Sync.FastQueue
import Verif.Sync.LockQueueTheorems
/-
C35, second queue: the queue with a reader thread is FIFO under every schedule of its threads.
-/
namespace Sis.Fq
open Sis
open Sis.Lk (Node Heap load store free load_lt load_set load_append_lt load_append_new)

/-- Every schedule: at each point some thread that is not blocked makes its next step. -/
inductive Hist (t : Nat) : List (Ev × Out) → F → Prop
  | nil : Hist t [] (create t)
  | snoc {h s e s' o} : Hist t h s → enabled s e = true → step s e = some (s', o) → Hist t (h ++ [(e, o)]) s'

/-! ### Specification -/

/-- The objects put in, in order. -/
def putIn (h : List (Ev × Out)) : List Nat := h.filterMap fun x => match x.1 with
  | .push o => some o
  | _ => none

/-- The objects that left the queue, delivered or released, in order. -/
def gone (h : List (Ev × Out)) : List (Option Nat) := h.filterMap fun x => match x.2 with
  | .delivered o => some o
  | .released o => some o
  | .unit => none

/-! ### Invariant -/

/-- Address of the node of the `i`th object; 0 is the first head. -/
private def A (i : Nat) : Nat := if i = 0 then 0 else i + 1

private theorem A_succ (i : Nat) : A (i + 1) = i + 2 := by simp [A]

private theorem A_inj {i j : Nat} (h : A i = A j) : i = j := by
  unfold A at h
  split at h <;> split at h <;> omega

private theorem A_ne_one (i : Nat) : A i ≠ 1 := by
  unfold A
  split <;> omega

private theorem A_lt {i n : Nat} (h : i ≤ n) : A i < n + 2 := by
  unfold A
  split <;> omega

private def inR : Pc → Bool
  | .loop _ => true
  | .have_ _ _ => true
  | _ => false

private def good (c lim : Nat) : Pc → Prop
  | .loop node => node = A c
  | .have_ node b => node = A c ∧ b = c + 2 ∧ c < lim
  | _ => True

private def lim (s : F) (n m : Nat) : Nat := if s.wlock then n else m

private structure Heaps (h : Heap) (busy : Bool) (objs : List Nat) (c m : Nat) : Prop where
  len : h.length = objs.length + 2
  mn : m ≤ objs.length
  w : load h 1 = some ⟨none, if m < objs.length then some (m + 2) else none⟩
  at_ : ∀ i, c ≤ i → i ≤ objs.length → ∃ o, load h (A i) = some ⟨o,
    if i = objs.length ∨ (i = m ∧ busy = false) then none else some (i + 2)⟩
  obj : ∀ i (hi : i < objs.length), c ≤ i → (load h (i + 2)).map Node.obj = some (some objs[i])

private structure QInv (s : F) (objs : List Nat) (c m : Nat) : Prop where
  hp : Heaps s.heap s.wlock objs c m
  cm : c ≤ lim s objs.length m
  rhead : s.rhead = A c
  rtail : s.rtail = A m
  whead : s.whead = 1
  wtail : s.wtail = if m < objs.length then A objs.length else 1
  wnums : s.wnums = objs.length - m
  wl : ∀ i : Nat, s.pcs[i]? = some Pc.moving → s.wlock = true
  wu : ∀ i j : Nat, s.pcs[i]? = some Pc.moving → s.pcs[j]? = some Pc.moving → i = j
  rl : ∀ (i : Nat) p, s.pcs[i]? = some p → inR p = true → s.rlock = true
  ru : ∀ (i j : Nat) p q, s.pcs[i]? = some p → s.pcs[j]? = some q → inR p = true → inR q = true → i = j
  rg : ∀ (i : Nat) p, s.pcs[i]? = some p → good c (lim s objs.length m) p

private theorem create_pc {t i : Nat} {p : Pc} (h : (create t).pcs[i]? = some p) : p = .idle := by
  simp only [create] at h
  exact (List.mem_replicate.1 (List.mem_of_getElem? h)).2

private theorem inv_create (t : Nat) : QInv (create t) [] 0 0 := by
  refine ⟨⟨rfl, Nat.le_refl _, rfl, ?_, ?_⟩, Nat.le_refl _, rfl, rfl, rfl, rfl, rfl, ?_, ?_, ?_, ?_, ?_⟩
  · intro i _ h2
    have : i = 0 := by simpa using h2
    subst this
    exact ⟨none, rfl⟩
  · intro i hi; simp at hi
  · intro i h; have := create_pc h; cases this
  · intro i j h; have := create_pc h; cases this
  · intro i p h h1; have := create_pc h; subst this; cases h1
  · intro i j p q h _ h1; have := create_pc h; subst this; cases h1
  · intro i p h; have := create_pc h; subst this; trivial

private theorem push_inv {s : F} {objs : List Nat} {c m : Nat} (v : QInv s objs c m) (hw : s.wlock = false) (o : Nat) :
    ∃ s', push s o = some s' ∧ QInv s' (objs ++ [o]) c m := by
  obtain ⟨hlen, hmn, hww, hat, hobj⟩ := v.hp
  have hcm := v.cm
  simp only [lim, hw] at hcm
  -- the last node of the write list
  obtain ⟨ot, ht⟩ : ∃ ot, load s.heap s.wtail = some ⟨ot, none⟩ := by
    rw [v.wtail]
    by_cases h1 : m < objs.length
    · rw [if_pos h1]
      obtain ⟨ot, ht⟩ := hat objs.length (by simp at hcm; omega) (Nat.le_refl _)
      rw [if_pos (.inl rfl)] at ht
      exact ⟨ot, ht⟩
    · rw [if_neg h1]
      rw [if_neg h1] at hww
      exact ⟨none, hww⟩
  have hlt := load_lt ht
  have hwt := v.wtail
  have hl1 : load (s.heap ++ [some (⟨some o, none⟩ : Node)]) s.wtail = some ⟨ot, none⟩ := by
    rw [load_append_lt _ hlt, ht]
  have hld : ∀ a, load ((s.heap ++ [some (⟨some o, none⟩ : Node)]).set s.wtail (some ⟨ot, some s.heap.length⟩)) a =
      if a = s.wtail then some ⟨ot, some s.heap.length⟩ else if a = s.heap.length then some ⟨some o, none⟩
      else load s.heap a := by
    intro a
    rw [load_set]
    simp only [List.length_append, List.length_cons, List.length_nil]
    by_cases h1 : a = s.wtail
    · rw [if_pos h1, if_pos (by omega)]
    · rw [if_neg h1, if_neg (by omega)]
      by_cases h2 : a = s.heap.length
      · rw [if_pos h2, h2, load_append_new]
      · rw [if_neg h2]
        by_cases h3 : a < s.heap.length
        · rw [load_append_lt _ h3]
        · unfold load
          rw [List.getElem?_eq_none (by simp; omega), List.getElem?_eq_none (by omega)]
  simp only [Bool.false_eq_true, if_false] at hcm
  refine ⟨⟨(s.heap ++ [some (⟨some o, none⟩ : Node)]).set s.wtail (some ⟨ot, some s.heap.length⟩), s.rhead, s.rtail,
    s.whead, s.heap.length, s.wnums + 1, s.wlock, s.rlock, s.pcs⟩, ?_, ⟨⟨?_, ?_, ?_, ?_, ?_⟩, ?_, v.rhead, v.rtail, v.whead, ?_, ?_,
      v.wl, v.wu, v.rl, v.ru, ?_⟩⟩
  · simp only [push, hl1, Option.bind_some, store, Option.map_some]
  · simp [hlen]
  · simp; omega
  · simp only [hld, List.length_append, List.length_cons, List.length_nil]
    by_cases h1 : m < objs.length
    · rw [if_neg (by rw [hwt, if_pos h1]; exact (A_ne_one _).symm), if_neg (by omega), hww, if_pos h1, if_pos (by omega)]
    · rw [if_pos (by rw [hwt, if_neg h1]), if_pos (by omega)]
      rw [hwt, if_neg h1, hww, if_neg h1] at ht
      cases ht
      rw [hlen, show objs.length = m by omega]
  · intro i h1 h2
    simp only [List.length_append, List.length_cons, List.length_nil] at h2
    simp only [hld, List.length_append, List.length_cons, List.length_nil, hw]
    by_cases h3 : i = objs.length + 1
    · refine ⟨some o, ?_⟩
      rw [if_neg, if_pos, if_pos (.inl h3)]
      · rw [h3, A_succ, hlen]
      · rw [h3, A_succ, hwt]
        by_cases h4 : m < objs.length
        · rw [if_pos h4]; unfold A; split <;> omega
        · rw [if_neg h4]; omega
    · obtain ⟨oi, hoi⟩ := hat i h1 (by omega)
      rw [hw] at hoi
      by_cases h5 : A i = s.wtail
      · refine ⟨ot, ?_⟩
        rw [if_pos h5]
        rw [hwt] at h5
        by_cases h4 : m < objs.length
        · rw [if_pos h4] at h5
          have := A_inj h5
          subst this
          rw [if_neg (by simp; omega), hlen]
        · rw [if_neg h4] at h5; exact absurd h5 (A_ne_one _)
      · refine ⟨oi, ?_⟩
        rw [if_neg h5, if_neg (by have := A_lt (show i ≤ objs.length by omega); omega), hoi]
        congr 2
        by_cases h6 : i = m
        · simp [h6]
        · have h7 : ¬ i = objs.length := by
            intro h7
            apply h5
            rw [hwt, if_pos (by omega), h7]
          rw [if_neg (by simp; omega), if_neg (by simp; omega)]
  · intro i hi h1
    simp only [List.length_append, List.length_cons, List.length_nil] at hi
    simp only [hld]
    by_cases h3 : i = objs.length
    · subst h3
      rw [if_neg, if_pos (by omega)]
      · simp
      · rw [hwt]
        by_cases h4 : m < objs.length
        · rw [if_pos h4]; unfold A; split <;> omega
        · rw [if_neg h4]; omega
    · have h2 := hobj i (by omega) h1
      rw [List.getElem_append_left (by omega)]
      by_cases h5 : i + 2 = s.wtail
      · rw [if_pos h5]
        rw [h5, ht] at h2
        exact h2
      · rw [if_neg h5, if_neg (by omega)]
        exact h2
  · simp only [lim, hw]; simpa using hcm
  · simp only [List.length_append, List.length_cons, List.length_nil]
    rw [if_pos (by omega), A_succ, hlen]
  · have := v.wnums
    simp; omega
  · intro i p hp
    have := v.rg i p hp
    simp only [lim, hw] at this ⊢
    exact this

private theorem moveA_inv {s : F} {objs : List Nat} {c m : Nat} (v : QInv s objs c m) (hw : s.wlock = false) :
    ∃ h, moveA s = some { s with heap := h } ∧ Heaps h true objs c m := by
  obtain ⟨hlen, hmn, hww, hat, hobj⟩ := v.hp
  have hcm := v.cm
  simp only [lim, hw, Bool.false_eq_true, if_false] at hcm
  rw [hw] at hat
  unfold moveA
  by_cases h1 : s.wnums < 1
  · rw [if_pos h1]
    refine ⟨s.heap, rfl, hlen, hmn, hww, ?_, hobj⟩
    intro i h2 h3
    obtain ⟨o, ho⟩ := hat i h2 h3
    have hm : m = objs.length := by have := v.wnums; omega
    refine ⟨o, ?_⟩
    rw [ho]
    congr 2
    by_cases h4 : i = objs.length
    · rw [if_pos (.inl h4), if_pos (.inl h4)]
    · rw [if_neg (by simp; omega), if_neg (by simp; omega)]
  · rw [if_neg h1]
    have hm : m < objs.length := by have := v.wnums; omega
    rw [if_pos hm] at hww
    obtain ⟨o, ho⟩ := hat m hcm hmn
    rw [if_pos (.inr ⟨rfl, rfl⟩)] at ho
    rw [v.whead, v.rtail, hww]
    have hlt := load_lt ho
    refine ⟨s.heap.set (A m) (some ⟨o, some (m + 2)⟩), ?_, by simp [hlen], hmn, ?_, ?_, ?_⟩
    · simp only [Option.bind_some, ho, store, Option.map_some]
    · rw [load_set, if_neg (by intro hx; exact A_ne_one _ hx.1), hww, if_pos hm]
    · intro i h2 h3
      by_cases h4 : i = m
      · subst h4
        refine ⟨o, ?_⟩
        rw [load_set, if_pos ⟨rfl, hlt⟩, if_neg (by simp; omega)]
      · obtain ⟨oi, hoi⟩ := hat i h2 h3
        refine ⟨oi, ?_⟩
        rw [load_set, if_neg (fun hx => h4 (A_inj hx.1).symm), hoi]
        congr 2
        by_cases h5 : i = objs.length
        · rw [if_pos (.inl h5), if_pos (.inl h5)]
        · rw [if_neg (by simp; omega), if_neg (by simp; omega)]
    · intro i hi h2
      have h3 := hobj i hi h2
      rw [load_set]
      by_cases h4 : A m = i + 2
      · rw [if_pos ⟨h4, by omega⟩]
        rw [← h4, ho] at h3
        exact h3
      · rw [if_neg (by omega)]
        exact h3

private theorem moveB_inv {s : F} {objs : List Nat} {c m : Nat} (vhp : Heaps s.heap true objs c m)
    (vrt : s.rtail = A m) (vwh : s.whead = 1) (vwt : s.wtail = if m < objs.length then A objs.length else 1)
    (vwn : s.wnums = objs.length - m) :
    ∃ h, moveB s = some { s with heap := h, rtail := A objs.length, wtail := 1, wnums := 0 } ∧
      Heaps h false objs c objs.length := by
  obtain ⟨hlen, hmn, hww, hat, hobj⟩ := vhp
  unfold moveB
  have hat' : ∀ i, c ≤ i → i ≤ objs.length → ∃ o, load s.heap (A i) = some ⟨o,
      if i = objs.length ∨ (i = objs.length ∧ false = false) then none else some (i + 2)⟩ := by
    intro i h2 h3
    obtain ⟨o, ho⟩ := hat i h2 h3
    refine ⟨o, ?_⟩
    rw [ho]
    congr 2
    by_cases h4 : i = objs.length
    · rw [if_pos (.inl h4), if_pos (.inl h4)]
    · rw [if_neg (by simp; omega), if_neg (by simp; omega)]
  by_cases h1 : s.wnums < 1
  · rw [if_pos h1]
    have hm : m = objs.length := by have := vwn; omega
    subst hm
    refine ⟨s.heap, ?_, hlen, hmn, hww, hat', hobj⟩
    have e1 := vrt
    have e2 := vwt
    have e3 : s.wnums = 0 := by omega
    rw [if_neg (Nat.lt_irrefl _)] at e2
    rw [← e1, ← e2, ← e3]
  · rw [if_neg h1]
    have hm : m < objs.length := by have := vwn; omega
    have e2 := vwt
    rw [if_pos hm] at e2 hww
    rw [vwh, hww, e2]
    refine ⟨s.heap.set 1 (some ⟨none, none⟩), ?_, by simp [hlen], Nat.le_refl _, ?_, ?_, ?_⟩
    · simp only [Option.bind_some, store, hww, Option.map_some]
    · rw [load_set, if_pos ⟨rfl, by omega⟩, if_neg (Nat.lt_irrefl _)]
    · intro i h2 h3
      obtain ⟨o, ho⟩ := hat' i h2 h3
      exact ⟨o, by rw [load_set, if_neg (fun hx => A_ne_one _ hx.1.symm), ho]⟩
    · intro i hi h2
      rw [load_set, if_neg (by omega)]
      exact hobj i hi h2

private theorem set_pc {l : List Pc} {i j : Nat} {a p : Pc} (h : (l.set i a)[j]? = some p) :
    (i = j ∧ p = a) ∨ (i ≠ j ∧ l[j]? = some p) := by
  rw [List.getElem?_set] at h
  by_cases hij : i = j
  · left
    rw [if_pos hij] at h
    by_cases hl : i < l.length
    · rw [if_pos hl] at h; cases h; exact ⟨hij, rfl⟩
    · rw [if_neg hl] at h; cases h
  · right
    rw [if_neg hij] at h
    exact ⟨hij, h⟩

/-- Taking the first node off. -/
private theorem heaps_take {h : Heap} {busy : Bool} {objs : List Nat} {c m : Nat} (v : Heaps h busy objs c m)
    (_hcl : c < objs.length) : Heaps (h.set (A c) none) busy objs (c + 1) m := by
  obtain ⟨hlen, hmn, hww, hat, hobj⟩ := v
  refine ⟨by simp [hlen], hmn, ?_, ?_, ?_⟩
  · rw [load_set, if_neg (fun hx => A_ne_one _ hx.1), hww]
  · intro k h3 h4
    obtain ⟨ok, hok⟩ := hat k (by omega) h4
    refine ⟨ok, ?_⟩
    rw [load_set, if_neg (fun hx => by have := A_inj hx.1; omega), hok]
  · intro k hk h3
    rw [load_set, if_neg]
    · exact hobj k hk (by omega)
    · rw [← A_succ]
      exact fun hx => by have := A_inj hx.1; omega

/-- What leaves the queue with a step. -/
private def leaves : Out → List (Option Nat)
  | .delivered o => [o]
  | .released o => [o]
  | .unit => []

private def enters : Ev → List Nat
  | .push o => [o]
  | _ => []

private theorem step_ok {s : F} {objs : List Nat} {c m : Nat} (v : QInv s objs c m) (e : Ev) (he : enabled s e = true) :
    ∃ s' o c' m', step s e = some (s', o) ∧ QInv s' (objs ++ enters e) c' m' ∧
      ((objs ++ enters e).take c').map some = (objs.take c).map some ++ leaves o ∧
      (∀ x, o = .delivered x → e = .take 0) ∧ (∀ x, o = .released x → ∃ i, e = .take (i + 1)) := by
  cases e with
  | push a =>
    have hw : s.wlock = false := by simpa [enabled] using he
    obtain ⟨s', e1, v1⟩ := push_inv v hw a
    have hcm := v.cm
    have hmn := v.hp.mn
    simp only [lim, hw, Bool.false_eq_true, if_false] at hcm
    refine ⟨s', .unit, c, m, by rw [step, e1]; rfl, v1, ?_, nofun, nofun⟩
    rw [List.take_append_of_le_length (by omega)]
    simp [leaves]
  | begin i =>
    simp only [enabled, Bool.and_eq_true, beq_iff_eq] at he
    obtain ⟨hi, -⟩ := he
    simp only [step, enters, List.append_nil]
    by_cases hw : s.wlock = true
    · rw [if_pos hw]
      refine ⟨_, .unit, c, m, rfl, ⟨v.hp, v.cm, v.rhead, v.rtail, v.whead, v.wtail, v.wnums, ?_, ?_, ?_, ?_, ?_⟩, ?_,
        nofun, nofun⟩
      · intro j hj; exact hw
      · intro j k hj hk
        rcases set_pc hj with ⟨_, h⟩ | ⟨_, h⟩
        · cases h
        · rcases set_pc hk with ⟨_, h'⟩ | ⟨_, h'⟩
          · cases h'
          · exact v.wu j k h h'
      · intro j p hj hp
        rcases set_pc hj with ⟨_, h⟩ | ⟨_, h⟩
        · subst h; cases hp
        · exact v.rl j p h hp
      · intro j k p q hj hk hp hq
        rcases set_pc hj with ⟨_, h⟩ | ⟨_, h⟩
        · subst h; cases hp
        · rcases set_pc hk with ⟨_, h'⟩ | ⟨_, h'⟩
          · subst h'; cases hq
          · exact v.ru j k p q h h' hp hq
      · intro j p hj
        rcases set_pc hj with ⟨_, h⟩ | ⟨_, h⟩
        · subst h; trivial
        · exact v.rg j p h
      · simp [leaves]
    · rw [if_neg hw]
      have hw : s.wlock = false := by simpa using hw
      obtain ⟨h, e1, hh⟩ := moveA_inv v hw
      have hcm := v.cm
      simp only [lim, hw, Bool.false_eq_true, if_false] at hcm
      have hmn := v.hp.mn
      refine ⟨{ s with heap := h, wlock := true, pcs := s.pcs.set i .moving }, .unit, c, m, by rw [e1]; rfl, ⟨hh, ?_, v.rhead, v.rtail, v.whead, v.wtail, v.wnums, ?_, ?_, ?_, ?_, ?_⟩,
        ?_, nofun, nofun⟩
      · simp only [lim, if_true]; omega
      · intro j hj; rfl
      · intro j k hj hk
        rcases set_pc hj with ⟨h1, _⟩ | ⟨_, h1⟩
        · rcases set_pc hk with ⟨h2, _⟩ | ⟨_, h2⟩
          · omega
          · have := v.wl k h2; rw [hw] at this; cases this
        · have := v.wl j h1; rw [hw] at this; cases this
      · intro j p hj hp
        rcases set_pc hj with ⟨_, h⟩ | ⟨_, h⟩
        · subst h; cases hp
        · exact v.rl j p h hp
      · intro j k p q hj hk hp hq
        rcases set_pc hj with ⟨_, h⟩ | ⟨_, h⟩
        · subst h; cases hp
        · rcases set_pc hk with ⟨_, h'⟩ | ⟨_, h'⟩
          · subst h'; cases hq
          · exact v.ru j k p q h h' hp hq
      · intro j p hj
        rcases set_pc hj with ⟨_, h⟩ | ⟨_, h⟩
        · subst h; trivial
        · have := v.rg j p h
          cases p with
          | loop node => exact this
          | have_ node b =>
            refine ⟨this.1, this.2.1, ?_⟩
            have h3 := this.2.2
            simp only [lim, hw, Bool.false_eq_true, if_false] at h3
            simp only [lim, if_true]; omega
          | _ => trivial
      · simp [leaves]
  | finish i =>
    simp only [enabled, beq_iff_eq] at he
    have hw := v.wl i he
    obtain ⟨h, e1, hh⟩ := moveB_inv (hw ▸ v.hp) v.rtail v.whead v.wtail v.wnums
    have hcm := v.cm
    simp only [lim, hw, if_true] at hcm
    simp only [step, enters, List.append_nil]
    refine ⟨{ s with heap := h, rtail := A objs.length, wtail := 1, wnums := 0, wlock := false, pcs := s.pcs.set i .gate },
      .unit, c, objs.length, by rw [e1]; rfl, ⟨hh, ?_, v.rhead, rfl, v.whead, ?_, ?_, ?_, ?_, ?_, ?_, ?_⟩, ?_,
      nofun, nofun⟩
    · simp only [lim, Bool.false_eq_true, if_false]; exact hcm
    · rw [if_neg (Nat.lt_irrefl _)]
    · simp
    · intro j hj
      rcases set_pc hj with ⟨_, h⟩ | ⟨h0, h⟩
      · cases h
      · exact absurd (v.wu i j he h) h0
    · intro j k hj hk
      rcases set_pc hj with ⟨_, h⟩ | ⟨_, h⟩
      · cases h
      · rcases set_pc hk with ⟨_, h'⟩ | ⟨_, h'⟩
        · cases h'
        · exact v.wu j k h h'
    · intro j p hj hp
      rcases set_pc hj with ⟨_, h⟩ | ⟨_, h⟩
      · subst h; cases hp
      · exact v.rl j p h hp
    · intro j k p q hj hk hp hq
      rcases set_pc hj with ⟨_, h⟩ | ⟨_, h⟩
      · subst h; cases hp
      · rcases set_pc hk with ⟨_, h'⟩ | ⟨_, h'⟩
        · subst h'; cases hq
        · exact v.ru j k p q h h' hp hq
    · intro j p hj
      rcases set_pc hj with ⟨_, h⟩ | ⟨_, h⟩
      · subst h; trivial
      · have := v.rg j p h
        cases p with
        | loop node => exact this
        | have_ node b =>
          refine ⟨this.1, this.2.1, ?_⟩
          have h3 := this.2.2
          simp only [lim, hw, if_true] at h3
          simp only [lim, Bool.false_eq_true, if_false]; exact h3
        | _ => trivial
    · simp [leaves]
  | enter i =>
    simp only [enabled, Bool.and_eq_true, beq_iff_eq, Bool.not_eq_true'] at he
    obtain ⟨hi, hr⟩ := he
    simp only [step, enters, List.append_nil]
    have nor : ∀ (j : Nat) p, s.pcs[j]? = some p → inR p = true → False := by
      intro j p hj hp
      have := v.rl j p hj hp
      rw [hr] at this; cases this
    refine ⟨_, .unit, c, m, rfl, ⟨v.hp, v.cm, v.rhead, v.rtail, v.whead, v.wtail, v.wnums, ?_, ?_, ?_, ?_, ?_⟩, ?_,
      nofun, nofun⟩
    · intro j hj
      rcases set_pc hj with ⟨_, h⟩ | ⟨h0, h⟩
      · cases h
      · exact v.wl j h
    · intro j k hj hk
      rcases set_pc hj with ⟨_, h⟩ | ⟨_, h⟩
      · cases h
      · rcases set_pc hk with ⟨_, h'⟩ | ⟨_, h'⟩
        · cases h'
        · exact v.wu j k h h'
    · intro j p hj hp; rfl
    · intro j k p q hj hk hp hq
      rcases set_pc hj with ⟨h1, _⟩ | ⟨_, h⟩
      · rcases set_pc hk with ⟨h2, _⟩ | ⟨_, h'⟩
        · omega
        · exact (nor k q h' hq).elim
      · exact (nor j p h hp).elim
    · intro j p hj
      rcases set_pc hj with ⟨_, h⟩ | ⟨_, h⟩
      · subst h; exact v.rhead
      · exact v.rg j p h
    · simp [leaves]
  | test i =>
    cases hi : s.pcs[i]? with
    | none => simp [enabled, hi] at he
    | some pc =>
      cases pc with
      | loop node =>
        have hn : node = A c := v.rg i _ hi
        subst hn
        have hcn : c ≤ objs.length := by
          have hm := v.hp.mn
          have := v.cm
          unfold lim at this
          split at this <;> omega
        obtain ⟨o, ho⟩ := v.hp.at_ c (Nat.le_refl _) hcn
        have hrl := v.rl i _ hi rfl
        simp only [step, hi, test, ho, Option.map_some, enters, List.append_nil]
        by_cases hl : c = objs.length ∨ (c = m ∧ s.wlock = false)
        · rw [if_pos hl]
          refine ⟨_, .unit, c, m, rfl, ⟨v.hp, v.cm, v.rhead, v.rtail, v.whead, v.wtail, v.wnums, ?_, ?_, ?_, ?_, ?_⟩, ?_,
            nofun, nofun⟩
          · intro j hj
            rcases set_pc hj with ⟨_, h⟩ | ⟨h0, h⟩
            · cases h
            · exact v.wl j h
          · intro j k hj hk
            rcases set_pc hj with ⟨_, h⟩ | ⟨_, h⟩
            · cases h
            · rcases set_pc hk with ⟨_, h'⟩ | ⟨_, h'⟩
              · cases h'
              · exact v.wu j k h h'
          · intro j p hj hp
            rcases set_pc hj with ⟨_, h⟩ | ⟨h0, h⟩
            · subst h; cases hp
            · exact absurd (v.ru i j _ p hi h rfl hp) h0
          · intro j k p q hj hk hp hq
            rcases set_pc hj with ⟨_, h⟩ | ⟨_, h⟩
            · subst h; cases hp
            · rcases set_pc hk with ⟨_, h'⟩ | ⟨_, h'⟩
              · subst h'; cases hq
              · exact v.ru j k p q h h' hp hq
          · intro j p hj
            rcases set_pc hj with ⟨_, h⟩ | ⟨_, h⟩
            · subst h; trivial
            · exact v.rg j p h
          · simp [leaves]
        · rw [if_neg hl]
          refine ⟨_, .unit, c, m, rfl, ⟨v.hp, v.cm, v.rhead, v.rtail, v.whead, v.wtail, v.wnums, ?_, ?_, ?_, ?_, ?_⟩, ?_,
            nofun, nofun⟩
          · intro j hj
            rcases set_pc hj with ⟨_, h⟩ | ⟨h0, h⟩
            · cases h
            · exact v.wl j h
          · intro j k hj hk
            rcases set_pc hj with ⟨_, h⟩ | ⟨_, h⟩
            · cases h
            · rcases set_pc hk with ⟨_, h'⟩ | ⟨_, h'⟩
              · cases h'
              · exact v.wu j k h h'
          · intro j p hj hp; exact hrl
          · intro j k p q hj hk hp hq
            rcases set_pc hj with ⟨h1, _⟩ | ⟨h1, h⟩
            · rcases set_pc hk with ⟨h2, _⟩ | ⟨h2, h'⟩
              · omega
              · exact absurd (v.ru i k _ q hi h' rfl hq) h2
            · exact absurd (v.ru i j _ p hi h rfl hp) h1
          · intro j p hj
            rcases set_pc hj with ⟨_, h⟩ | ⟨_, h⟩
            · subst h
              refine ⟨rfl, rfl, ?_⟩
              have := v.cm
              have hmn := v.hp.mn
              cases hw : s.wlock with
              | true => simp only [lim, hw, if_true] at this ⊢; simp [hw] at hl; omega
              | false => simp only [lim, hw, Bool.false_eq_true, if_false] at this ⊢; simp [hw] at hl; omega
            · exact v.rg j p h
          · simp [leaves]
      | _ => simp [enabled, hi] at he
  | take i =>
    cases hi : s.pcs[i]? with
    | none => simp [enabled, hi] at he
    | some pc =>
      cases pc with
      | have_ node b =>
        obtain ⟨hn, hb, hc⟩ := v.rg i _ hi
        subst hn hb
        obtain ⟨hlen, hmn, hww, hat, hobj⟩ := v.hp
        have hcl : c < objs.length := by
          unfold lim at hc; split at hc <;> omega
        obtain ⟨o, ho⟩ := hat c (Nat.le_refl _) (by omega)
        have h1 := hobj c hcl (Nat.le_refl _)
        have hrl := v.rl i _ hi rfl
        have hlt := load_lt ho
        cases h2 : load s.heap (c + 2) with
        | none => rw [h2] at h1; cases h1
        | some nb =>
          rw [h2] at h1
          have hnb : nb.obj = some objs[c] := by simpa using h1
          simp only [step, hi, take, h2, Option.bind_some, free, ho, Option.map_some, enters, List.append_nil, hnb]
          refine ⟨_, _, c + 1, m, rfl, ⟨heaps_take v.hp hcl, hc, (A_succ c).symm, v.rtail, v.whead, v.wtail,
            v.wnums, ?_, ?_, ?_, ?_, ?_⟩, ?_, ?_, ?_⟩
          · intro j hj
            rcases set_pc hj with ⟨_, h⟩ | ⟨h0, h⟩
            · cases h
            · exact v.wl j h
          · intro j k hj hk
            rcases set_pc hj with ⟨_, h⟩ | ⟨_, h⟩
            · cases h
            · rcases set_pc hk with ⟨_, h'⟩ | ⟨_, h'⟩
              · cases h'
              · exact v.wu j k h h'
          · intro j p hj hp; exact hrl
          · intro j k p q hj hk hp hq
            rcases set_pc hj with ⟨h1, _⟩ | ⟨h1, h⟩
            · rcases set_pc hk with ⟨h2, _⟩ | ⟨h2, h'⟩
              · omega
              · exact absurd (v.ru i k _ q hi h' rfl hq) h2
            · exact absurd (v.ru i j _ p hi h rfl hp) h1
          · intro j p hj
            rcases set_pc hj with ⟨_, h⟩ | ⟨h1, h⟩
            · subst h; exact (A_succ c).symm
            · cases p with
              | loop node => exact absurd (v.ru i j _ _ hi h rfl rfl) h1
              | have_ node b => exact absurd (v.ru i j _ _ hi h rfl rfl) h1
              | _ => trivial
          · rw [List.take_add_one, List.getElem?_eq_getElem hcl, List.map_append]
            by_cases h0 : i = 0
            · rw [if_pos h0]; rfl
            · rw [if_neg h0]; rfl
          · intro x hx
            by_cases h0 : i = 0
            · rw [h0]
            · rw [if_neg h0] at hx; cases hx
          · intro x hx
            by_cases h0 : i = 0
            · rw [if_pos h0] at hx; cases hx
            · exact ⟨i - 1, by congr; omega⟩
      | _ => simp [enabled, hi] at he

private theorem hist_ok {t : Nat} {h : List (Ev × Out)} {s : F} (H : Hist t h s) : ∃ c m, QInv s (putIn h) c m ∧
    gone h = ((putIn h).take c).map some := by
  induction H with
  | nil => exact ⟨0, 0, inv_create t, rfl⟩
  | @snoc h s e s' o H he hs ih =>
    obtain ⟨c, m, v, hg⟩ := ih
    obtain ⟨s1, o1, c1, m1, e1, e2, e3, -⟩ := step_ok v e he
    rw [e1] at hs
    cases hs
    have h1 : putIn (h ++ [(e, o)]) = putIn h ++ enters e := by
      simp only [putIn, List.filterMap_append]
      cases e <;> simp [enters]
    have h2 : gone (h ++ [(e, o)]) = gone h ++ leaves o := by
      simp only [gone, List.filterMap_append]
      cases o <;> simp [leaves]
    refine ⟨c1, m1, by rw [h1]; exact e2, by rw [h1, h2, hg, e3]⟩

/-! ### Theorems -/

/-- C35, fast queue: under no schedule a freed node is used. -/
theorem C35_fast_never_faults {t : Nat} {h : List (Ev × Out)} {s : F} (H : Hist t h s) (e : Ev)
    (he : enabled s e = true) : (step s e).isSome := by
  obtain ⟨c, m, v, -⟩ := hist_ok H
  obtain ⟨s1, o1, c1, m1, e1, -⟩ := step_ok v e he
  rw [e1]; rfl

/-- C35, fast queue: under every schedule the objects that left, followed by others, are the objects put in: none is
lost, repeated or overtaken. -/
theorem C35_fast_fifo {t : Nat} {h : List (Ev × Out)} {s : F} (H : Hist t h s) :
    ∃ w : List Nat, (putIn h).map some = gone h ++ w.map some := by
  obtain ⟨c, m, -, hg⟩ := hist_ok H
  exact ⟨(putIn h).drop c, by rw [hg, ← List.map_append, List.take_append_drop]⟩

/-- C35, fast queue: objects are delivered by the reader thread only, and released unread only by `clear`. -/
theorem C35_fast_who {t : Nat} {h : List (Ev × Out)} {s : F} (H : Hist t h s) : ∀ x ∈ h,
    (∀ o, x.2 = .delivered o → x.1 = .take 0) ∧ (∀ o, x.2 = .released o → ∃ i, x.1 = .take (i + 1)) := by
  induction H with
  | nil => exact nofun
  | @snoc h s e s' o H he hs ih =>
    obtain ⟨c, m, v, -⟩ := hist_ok H
    obtain ⟨s1, o1, c1, m1, e1, -, -, e4, e5⟩ := step_ok v e he
    rw [e1] at hs
    cases hs
    intro x hx
    rcases List.mem_append.1 hx with hx | hx
    · exact ih x hx
    · simp only [List.mem_singleton] at hx
      subst hx
      exact ⟨e4, e5⟩

def run (s : F) : List Ev → Option (F × List (Ev × Out))
  | [] => some (s, [])
  | e :: es => if enabled s e then
      (step s e).bind fun (s, o) => (run s es).map fun (s, h) => (s, (e, o) :: h)
    else none

private theorem run_cons {s s1 : F} {e : Ev} {o : Out} (es : List Ev) (he : enabled s e = true)
    (hs : step s e = some (s1, o)) : run s (e :: es) = (run s1 es).map fun x => (x.1, (e, o) :: x.2) := by
  simp only [run, he, if_true, hs, Option.bind_some]

/-- The reader thread working `d` objects off. -/
def works (d : Nat) : List Ev := (List.replicate d [Ev.test 0, Ev.take 0]).flatten ++ [.test 0]

private theorem works_succ (d : Nat) : works (d + 1) = .test 0 :: .take 0 :: works d := by
  simp [works, List.replicate_succ]

private theorem drain {objs : List Nat} : ∀ (d : Nat) (s : F) (c : Nat), Heaps s.heap false objs c objs.length →
    c + d = objs.length → s.pcs[0]? = some (.loop (A c)) →
    ∃ s' h, run s (works d) = some (s', h) ∧ gone h = (objs.drop c).map some := by
  intro d
  induction d with
  | zero =>
    intro s c v hc hp
    have : c = objs.length := by omega
    subst this
    obtain ⟨o, ho⟩ := v.at_ objs.length (Nat.le_refl _) (Nat.le_refl _)
    rw [if_pos (.inl rfl)] at ho
    refine ⟨{ s with pcs := s.pcs.set 0 .idle, rlock := false }, [(.test 0, .unit)], ?_, by simp [gone]⟩
    simp [works, run, enabled, hp, step, test, ho]
  | succ d ih =>
    intro s c v hc hp
    have hcl : c < objs.length := by omega
    obtain ⟨o, ho⟩ := v.at_ c (Nat.le_refl _) (by omega)
    rw [if_neg (by omega)] at ho
    have h1 := v.obj c hcl (Nat.le_refl _)
    have hl0 : 0 < s.pcs.length := by
      cases hh : s.pcs with
      | nil => rw [hh] at hp; cases hp
      | cons a l => simp
    cases h2 : load s.heap (c + 2) with
    | none => rw [h2] at h1; cases h1
    | some nb =>
      rw [h2] at h1
      have hnb : nb.obj = some objs[c] := by simpa using h1
      obtain ⟨s', h, e1, e2⟩ := ih ⟨s.heap.set (A c) none, c + 2, s.rtail, s.whead, s.wtail, s.wnums, s.wlock, s.rlock,
        (s.pcs.set 0 (.have_ (A c) (c + 2))).set 0 (.loop (c + 2))⟩ (c + 1) (heaps_take v hcl) (by omega)
        (by simp [hl0, A_succ])
      refine ⟨s', (.test 0, .unit) :: (.take 0, .delivered (some objs[c])) :: h, ?_, ?_⟩
      · rw [works_succ]
        have f1 : step s (.test 0) = some ({ s with pcs := s.pcs.set 0 (.have_ (A c) (c + 2)) }, .unit) := by
          simp only [step, hp, test, ho, Option.map_some]
        have hp2 : (s.pcs.set 0 (.have_ (A c) (c + 2)))[0]? = some (.have_ (A c) (c + 2)) := by simp [hl0]
        rw [run_cons _ (by simp only [enabled, hp]) f1]
        have f2 : step { s with pcs := s.pcs.set 0 (.have_ (A c) (c + 2)) } (.take 0) =
            some (⟨s.heap.set (A c) none, c + 2, s.rtail, s.whead, s.wtail, s.wnums, s.wlock, s.rlock,
              (s.pcs.set 0 (.have_ (A c) (c + 2))).set 0 (.loop (c + 2))⟩, .delivered (some objs[c])) := by
          simp only [step, hp2, take, h2, Option.bind_some, free, ho, Option.map_some, hnb, if_true]
        rw [run_cons _ (by simp only [enabled, hp2]) f2, e1]
        rfl
      · rw [List.drop_eq_getElem_cons hcl]
        simp only [gone, List.filterMap_cons, List.map_cons] at e2 ⊢
        rw [e2]

/-- C35, fast queue: nothing stays behind.  When the reader thread waits and no other thread is inside, one round of it
delivers everything that has not left yet, in order. -/
theorem C35_fast_drains {t : Nat} {h : List (Ev × Out)} {s : F} (H : Hist t h s) (h0 : s.pcs[0]? = some .idle)
    (hw : s.wlock = false) (hr : s.rlock = false) : ∃ d s' h', run s ([.begin 0, .finish 0, .enter 0] ++ works d) =
    some (s', h') ∧ (putIn h).map some = gone h ++ gone h' := by
  obtain ⟨c, m, v, hg⟩ := hist_ok H
  have hcm := v.cm
  have hmn := v.hp.mn
  simp only [lim, hw, Bool.false_eq_true, if_false] at hcm
  have hl0 : 0 < s.pcs.length := by
    cases hh : s.pcs with
    | nil => rw [hh] at h0; cases h0
    | cons a l => simp
  obtain ⟨hp, e1, hh⟩ := moveA_inv v hw
  have f1 : step s (.begin 0) = some ({ s with heap := hp, wlock := true, pcs := s.pcs.set 0 .moving }, .unit) := by
    simp only [step, hw, Bool.false_eq_true, if_false, e1, Option.map_some]
  obtain ⟨hp2, e2, hh2⟩ := moveB_inv (s := { s with heap := hp, wlock := true, pcs := s.pcs.set 0 .moving }) hh v.rtail
    v.whead v.wtail v.wnums
  have f2 : step { s with heap := hp, wlock := true, pcs := s.pcs.set 0 .moving } (.finish 0) =
      some (⟨hp2, s.rhead, A (putIn h).length, s.whead, 1, 0, false, s.rlock, (s.pcs.set 0 .moving).set 0 .gate⟩, .unit) := by
    simp only [step, e2, Option.map_some]
  have f3 : step ⟨hp2, s.rhead, A (putIn h).length, s.whead, 1, 0, false, s.rlock, (s.pcs.set 0 .moving).set 0 .gate⟩
      (.enter 0) = some (⟨hp2, s.rhead, A (putIn h).length, s.whead, 1, 0, false, true,
        ((s.pcs.set 0 .moving).set 0 .gate).set 0 (.loop s.rhead)⟩, .unit) := rfl
  obtain ⟨s', h', e3, e4⟩ := drain ((putIn h).length - c) ⟨hp2, s.rhead, A (putIn h).length, s.whead, 1, 0, false, true,
        ((s.pcs.set 0 .moving).set 0 .gate).set 0 (.loop s.rhead)⟩ c hh2 (by omega) (by simp [hl0, v.rhead])
  refine ⟨(putIn h).length - c, s', (.begin 0, .unit) :: (.finish 0, .unit) :: (.enter 0, .unit) :: h', ?_, ?_⟩
  · simp only [List.cons_append, List.nil_append]
    rw [run_cons _ (by simp [enabled, h0]) f1, run_cons _ (by simp [enabled, hl0]) f2,
      run_cons _ (by simp [enabled, hl0, hr]) f3, e3]
    rfl
  · have : gone ((.begin 0, .unit) :: (.finish 0, .unit) :: (.enter 0, .unit) :: h') = gone h' := rfl
    rw [this, e4, hg, ← List.map_append, List.take_append_drop]

private theorem run_hist {t : Nat} {es : List Ev} : ∀ {h h' : List (Ev × Out)} {s s' : F}, Hist t h s →
    run s es = some (s', h') → Hist t (h ++ h') s' := by
  induction es with
  | nil => intro h h' s s' H e; simp only [run, Option.some.injEq, Prod.mk.injEq] at e; rw [← e.1, ← e.2, List.append_nil]; exact H
  | cons a es ih =>
    intro h h' s s' H e
    rw [run] at e
    split at e
    · rename_i hen
      cases hs : step s a with
      | none => rw [hs] at e; cases e
      | some x =>
        obtain ⟨s1, o⟩ := x
        rw [hs] at e
        simp only [Option.bind_some, Option.map_eq_some_iff, Prod.mk.injEq, Prod.exists] at e
        obtain ⟨s2, h2, e2, rfl, rfl⟩ := e
        have := ih (.snoc H hen hs) e2
        simpa using this
    · cases e

/-- The schedules of the theorems are not empty, and pushes are held off while a move is under way. -/
example : run (create 1) [.push 5, .begin 0, .push 6] = none := by decide +kernel

/-- A clearing thread moves object 6 between two steps of the reader thread, and the reader delivers it all the same. -/
example : ∃ s h, Hist 1 h s ∧ putIn h = [5, 6] ∧ gone h = [some 5, some 6] ∧ s.pcs[0]? = some .idle ∧ s.wlock = false := by
  have h1 : (run (create 1) [.push 5, .begin 0, .finish 0, .enter 0, .push 6, .begin 1, .test 0, .take 0, .test 0,
      .finish 1, .take 0, .test 0]).isSome := by decide +kernel
  refine ⟨_, _, run_hist .nil (Option.some_get h1).symm, ?_⟩
  decide +kernel

/-- A clearing thread releases what it finds, the reader thread delivers the rest. -/
example : ∃ s h, Hist 1 h s ∧ putIn h = [5, 6, 7] ∧ (h.map (·.2)).filter (· != Out.unit) =
    [.released (some 5), .released (some 6), .delivered (some 7)] := by
  have h2 : (run (create 1) [.push 5, .push 6, .begin 1, .finish 1, .enter 1, .push 7, .test 1, .take 1, .test 1,
      .take 1, .test 1, .begin 0, .finish 0, .enter 0, .test 0, .take 0]).isSome := by decide +kernel
  refine ⟨_, _, run_hist .nil (Option.some_get h2).symm, ?_⟩
  decide +kernel

end Sis.Fq
