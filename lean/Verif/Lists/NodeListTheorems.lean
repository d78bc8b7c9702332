import Verif.Lists.NodeList
import Verif.Lists.StructListLemmas
/-
C44: the paged list is a queue that can be read by position.
-/
namespace Sis.NL
open Sis.SL (SList intMax)

variable {α : Type}

/-- The calls that change a paged list. -/
inductive Op (α : Type)
  | push (x : α)
  | pop
  | clear

/-- What a call answers: a position (`push`), a record or none (`pop`), nothing. -/
inductive Out (α : Type)
  | pos (i : Int)
  | val (r : Option α)
  | unit
deriving DecidableEq

/-- The program: one call and its answer. -/
def step (s : NList α) : Op α → Option (NList α × Out α)
  | .push x => (push s x).map fun p => (p.1, .pos p.2)
  | .pop => (pop s).map fun p => (p.1, .val p.2)
  | .clear => (clear s).map fun s => (s, .unit)

/-- The program on a history, with the answers. -/
def run (s : NList α) : List (Op α) → Option (NList α × List (Out α))
  | [] => some (s, [])
  | o :: os => do
    let (s, r) ← step s o
    let (s, rs) ← run s os
    some (s, r :: rs)

/-- Specification: a queue as a list, and the number of records taken from it since it was last cleared. -/
def specStep : List α × Nat → Op α → (List α × Nat) × Out α
  | (l, p), .push x => ((l ++ [x], p), .pos l.length)
  | (l, p), .pop => ((l.tail, p + 1), .val l.head?)
  | _, .clear => (([], 0), .unit)

/-- Specification of a history. -/
def specRun (q : List α × Nat) : List (Op α) → (List α × Nat) × List (Out α)
  | [] => (q, [])
  | o :: os =>
    let (q, r) := specStep q o
    let (q, rs) := specRun q os
    (q, r :: rs)

/-- The history takes nothing from an empty list. -/
def careful (l : List α) : List (Op α) → Prop
  | [] => True
  | .pop :: os => l ≠ [] ∧ careful l.tail os
  | .push x :: os => careful (l ++ [x]) os
  | .clear :: os => careful [] os

/-! Proof. -/

/-- The nodes hold `l`, the first one from slot `p` on. -/
def Nodes (nc len : Nat) : Nat → List (SList α) → List α → Prop
  | _, [], l => l = []
  | p, n :: ns, l => n.start = p ∧ n.buf.length = nc ∧ n.len = len ∧ ∃ a b, l = a ++ b ∧ SL.Rep n a ∧ p + a.length ≤ nc ∧
      (ns ≠ [] → p + a.length = nc) ∧ Nodes nc len 0 ns b

structure Inv (s : NList α) (l : List α) (p : Nat) : Prop where
  nodes : Nodes s.nc s.len p s.nodes l
  ne : s.nodes ≠ []
  nouse : s.nouse = p
  count : s.count = l.length
  le : p ≤ s.nc

/-- A push into a node with room keeps its place and size. -/
theorem push_room {n : SList α} {a : List α} (r : SL.Rep n a) (x : α) (h : n.start + a.length < n.buf.length) :
    ∃ n' k, SL.push n x = some (n', k) ∧ SL.Rep n' (a ++ [x]) ∧ n'.start = n.start ∧ n'.buf.length = n.buf.length ∧
      n'.len = n.len := by
  have hc := r.count
  obtain ⟨_, u, v, hu, hv⟩ := SL.rep_iff.1 r
  unfold SL.push SL.pushs SL.grow SL.enlarge
  rw [if_neg (by simp; omega)]
  simp only [List.length_singleton]
  rw [if_pos (by omega)]
  simp only [Option.bind_eq_bind, Option.bind_some]
  rw [SL.blit_eq (by simp; omega)]
  refine ⟨_, _, rfl, SL.rep_iff.2 ⟨?_, u, v.drop 1, hu, ?_⟩, rfl, ?_, rfl⟩
  · simp [hc]
  · have hlen : (u ++ a.map some).length = n.count + n.start := by simp; omega
    simp only [hv, List.map_cons, List.map_nil, List.length_singleton, List.map_append]
    rw [← hlen, List.take_left, ← List.drop_drop, List.drop_left]
    simp
  · have hvl : n.buf.length = u.length + a.length + v.length := by rw [hv]; simp; omega
    simp; omega

theorem newNode_spec {nc len : Nat} (hlen : 1 ≤ len) (hsz : nc * len < intMax) :
    ∃ n : SList α, newNode nc len = some n ∧ SL.Rep n [] ∧ n.start = 0 ∧ n.buf.length = nc ∧ n.len = len := by
  unfold newNode
  rw [if_neg (by omega), if_pos hsz]
  exact ⟨_, rfl, ⟨rfl, by simp, by simp⟩, rfl, by simp, rfl⟩

theorem fresh_spec {nc len : Nat} (hlen : 1 ≤ len) (hnc : 0 < nc) (hsz : nc * len < intMax) (x : α) :
    ∃ n : SList α, ((newNode nc len).bind fun n => SL.push n x).map (·.1) = some n ∧ Nodes nc len 0 [n] [x] := by
  obtain ⟨n, h1, h2, h3, h4, h5⟩ := newNode_spec (α := α) hlen hsz
  obtain ⟨n', k, g1, g2, g3, g4, g5⟩ := push_room h2 x (by simp; omega)
  refine ⟨n', by simp [h1, g1], ?_⟩
  exact ⟨by omega, by omega, by omega, [x], [], by simp, by simpa using g2, by simp; omega, fun h => absurd rfl h, rfl⟩

theorem pushNodes_spec {nc len : Nat} (hlen : 1 ≤ len) (hnc : 0 < nc) (hsz : nc * len < intMax) (x : α) (p : Nat)
    (ns : List (SList α)) (l : List α) (h : Nodes nc len p ns l) (hne : ns ≠ []) :
    ∃ ns', pushNodes nc len x ns = some ns' ∧ Nodes nc len p ns' (l ++ [x]) ∧ ns' ≠ [] := by
  induction ns generalizing p l with
  | nil => exact absurd rfl hne
  | cons n ns ih =>
    obtain ⟨h1, h2, h3, a, b, rfl, h4, h5, h6, h7⟩ := h
    cases ns with
    | nil =>
      have hb : b = [] := h7
      subst hb
      simp only [pushNodes]
      rw [h4.count, h1]
      by_cases hfull : p + a.length ≥ nc
      · rw [if_pos hfull]
        obtain ⟨m, g1, g2⟩ := fresh_spec hlen hnc hsz x
        rw [Option.map_eq_some_iff] at g1
        obtain ⟨⟨m', k⟩, g1, rfl⟩ := g1
        rw [Option.bind_eq_some_iff] at g1
        obtain ⟨m0, e1, e2⟩ := g1
        simp only [e1, e2, Option.bind_eq_bind, Option.bind_some]
        exact ⟨_, rfl, ⟨h1, h2, h3, a, [x], by simp, h4, h5, fun _ => by omega, g2⟩, by simp⟩
      · rw [if_neg hfull]
        obtain ⟨n', k, g1, g2, g3, g4, g5⟩ := push_room h4 x (by omega)
        simp only [g1, Option.bind_eq_bind, Option.bind_some]
        exact ⟨_, rfl, ⟨by omega, by omega, by omega, a ++ [x], [], by simp, g2, by simp; omega, fun h => absurd rfl h, rfl⟩,
          by simp⟩
    | cons m ms =>
      simp only [pushNodes]
      obtain ⟨ns', g1, g2, g3⟩ := ih 0 b h7 (by simp)
      rw [g1]
      exact ⟨_, rfl, ⟨h1, h2, h3, a, b ++ [x], by simp, h4, h5, fun _ => h6 (by simp), g2⟩, by simp⟩

theorem pop_node {nc len p : Nat} {n : SList α} {ns : List (SList α)} {l : List α} {x : α} {a b : List α} (h : Nodes nc len p (n :: ns) l)
    (hr : SL.Rep n (x :: a)) (hb : Nodes nc len 0 ns b) (hp : p + (a.length + 1) ≤ nc)
    (hf : ns ≠ [] → p + (a.length + 1) = nc) :
    ∃ n', SL.pop n = some (n', some x) ∧ Nodes nc len (p + 1) (n' :: ns) (a ++ b) := by
  obtain ⟨h1, h2, h3, _⟩ := h
  obtain ⟨hc, u, v, hu, hv⟩ := SL.rep_iff.1 hr
  have hn : SL.pop n = some ({ n with start := n.start + 1, count := n.count - 1 }, some x) := by
    unfold SL.pop
    rw [if_pos (by simp [hc])]
    have : n.buf[n.start]? = some (some x) := by rw [hv, ← hu]; simp
    rw [this]
  obtain ⟨s', g1, g2, _⟩ := SL.pop_spec hr
  rw [hn] at g1
  simp only [Option.some.injEq, Prod.mk.injEq] at g1
  rw [← g1.1] at g2
  refine ⟨_, hn, ⟨by simp [h1], h2, h3, a, b, rfl, by simpa using g2, by omega, fun h => by have := hf h; omega, hb⟩⟩

theorem pop_spec {s : NList α} {l : List α} {p : Nat} (hnc : 0 < s.nc) (h : Inv s l p) (hl : l ≠ []) :
    ∃ s', pop s = some (s', l.head?) ∧ Inv s' l.tail (if p = s.nc then 1 else p + 1) ∧ s'.nc = s.nc ∧ s'.len = s.len := by
  obtain ⟨hn, hne, hu, hc, hle⟩ := h
  obtain ⟨nodes, nc, len, count, nouse⟩ := s
  simp only at hn hne hu hc hle hnc
  subst hu hc
  have key : ∀ (q : Nat) (n : SList α) (ns : List (SList α)) (x : α) (a b : List α), Nodes nc len q (n :: ns) l → SL.Rep n (x :: a) →
      l = x :: a ++ b → Nodes nc len 0 ns b → q + (a.length + 1) ≤ nc → (ns ≠ [] → q + (a.length + 1) = nc) → nodes ≠ [] →
      dropEmpty nc nodes (p : Int) = (n :: ns, (q : Int)) →
      ∃ s', pop ⟨nodes, nc, len, l.length, (p : Int)⟩ = some (s', l.head?) ∧ Inv s' l.tail (q + 1) ∧ s'.nc = nc ∧ s'.len = len := by
    intro q n ns x a b h1 h2 h3 h4 h5 h6 h7 h8
    obtain ⟨n', g1, g2⟩ := pop_node h1 h2 h4 h5 h6
    unfold pop
    simp only [h8, g1, Option.bind_eq_bind, Option.bind_some]
    refine ⟨_, by rw [h3]; rfl, ⟨?_, by simp, by simp, by simp [h3], by simp; omega⟩, rfl, rfl⟩
    rw [h3]; exact g2
  cases nodes with
  | nil => exact absurd rfl hne
  | cons n ns =>
    have hn0 := hn
    obtain ⟨h1, h2, h3, a, b, hl', h4, h5, h6, h7⟩ := hn
    have hcn := h4.count
    cases a with
    | cons x a =>
      simp only [List.length_cons] at h5 h6
      rw [if_neg (show ¬ p = nc by omega)]
      refine key p n ns x a b hn0 h4 (by simpa using hl') h7 h5 h6 (by simp) ?_
      simp only [dropEmpty]
      rw [if_neg (by simp [hcn])]
    | nil =>
      simp only [List.nil_append] at hl'
      subst hl'
      cases ns with
      | nil => exact absurd h7 hl
      | cons m ms =>
        have hp : p = nc := by have := h6 (by simp); simpa using this
        subst hp
        rw [if_pos rfl]
        have hm0 := h7
        obtain ⟨g1, g2, g3, a, b, hl'', g4, g5, g6, g7⟩ := h7
        cases a with
        | nil =>
          simp only [List.nil_append] at hl''
          subst hl''
          cases ms with
          | nil => exact absurd g7 hl
          | cons _ _ => have := g6 (by simp); simp at this; omega
        | cons x a =>
          simp only [List.length_cons] at g5 g6
          refine key 0 m ms x a b hm0 g4 (by simpa using hl'') g7 g5 g6 (by simp) ?_
          simp only [dropEmpty]
          have hcm := g4.count
          rw [if_pos (by simpa using hcn), if_neg (by simp [hcm])]
          simp

theorem nodes_get {nc len p : Nat} {ns : List (SList α)} {l : List α} (hnc : 0 < nc) (h : Nodes nc len p ns l) (hp : p ≤ nc) (i : Nat)
    (hi : i < l.length) :
    ∃ n c, ns[(i + p) / nc]? = some n ∧ SL.Rep n c ∧ c[if i + p < nc then i else (i + p) % nc]? = l[i]? := by
  induction ns generalizing p l i with
  | nil => simp only [Nodes] at h; subst h; simp at hi
  | cons n ns ih =>
    obtain ⟨h1, h2, h3, a, b, rfl, h4, h5, h6, h7⟩ := h
    by_cases hia : i < a.length
    · have hlt : i + p < nc := by omega
      rw [Nat.div_eq_of_lt hlt, if_pos hlt]
      exact ⟨n, a, rfl, h4, by rw [List.getElem?_append_left hia]⟩
    · have hns : ns ≠ [] := by
        intro h0
        subst h0
        have : b = [] := h7
        subst this
        simp at hi; omega
      have hfull := h6 hns
      simp only [List.length_append] at hi
      obtain ⟨m, c, g1, g2, g3⟩ := ih h7 (by omega) (i - a.length) (by omega)
      have e1 : i + p = (i - a.length) + nc := by omega
      have e2 : (i + p) / nc = (i - a.length + 0) / nc + 1 := by rw [e1, Nat.add_div_right _ hnc]; rfl
      have e3 : ¬ i + p < nc := by omega
      refine ⟨m, c, by rw [e2]; exact g1, g2, ?_⟩
      rw [if_neg e3, List.getElem?_append_right (by omega), ← g3]
      congr 1
      rw [e1, Nat.add_mod_right]
      split
      · exact Nat.mod_eq_of_lt (by omega)
      · rfl

theorem get_spec {s : NList α} {l : List α} {p : Nat} (hnc : 0 < s.nc) (h : Inv s l p) (i : Int)
    (hi : p % s.nc = 0 ∨ i < 2 * ((s.nc : Int) - (p % s.nc : Nat))) :
    get s i = some (if 0 ≤ i then l[i.toNat]? else none) := by
  obtain ⟨hn, hne, hu, hc, hle⟩ := h
  unfold get
  rw [hc, hu]
  by_cases hr : i < 0 ∨ i > (l.length : Int) - 1
  · rw [if_pos hr]
    split
    · rw [List.getElem?_eq_none (by omega)]
    · rfl
  · rw [if_neg hr, if_neg (show ¬ s.nc = 0 by omega), if_pos (show 0 ≤ i by omega)]
    obtain ⟨j, rfl⟩ : ∃ j : Nat, i = j := ⟨i.toNat, by omega⟩
    obtain ⟨n, c, g1, g2, g3⟩ := nodes_get hnc hn hle j (by omega)
    have e1 : ((j : Int) + (p : Int)).tdiv (s.nc : Int) = (((j + p) / s.nc : Nat) : Int) := by
      rw [← Int.natCast_add, Int.ofNat_tdiv]
    have e2 : ((p : Int)).tmod (s.nc : Int) = ((p % s.nc : Nat) : Int) := by rw [Int.ofNat_tmod]
    have hmod := Nat.mod_lt p hnc
    have e3 : (s.nc : Int) - ((p % s.nc : Nat) : Int) = ((s.nc - p % s.nc : Nat) : Int) := by omega
    simp only [e1, e2, e3]
    have hdiv : ¬ (((j + p) / s.nc : Nat) : Int) < 0 := by exact Int.not_lt.2 (Int.natCast_nonneg _)
    rw [if_neg hdiv]
    have et : ∀ k : Nat, ((k : Nat) : Int).toNat = k := fun _ => rfl
    rw [et, g1]
    simp only
    rw [if_neg (by omega), ← Int.ofNat_tmod, SL.get_spec g2, if_pos (Int.natCast_nonneg _), et, et]
    have e4 : j % (s.nc - p % s.nc) = if j + p < s.nc then j else (j + p) % s.nc := by
      by_cases hp0 : p % s.nc = 0
      · rw [hp0, Nat.sub_zero]
        have hpc : p = 0 ∨ p = s.nc := by
          by_cases h1 : p < s.nc
          · left; rw [Nat.mod_eq_of_lt h1] at hp0; exact hp0
          · right; omega
        rcases hpc with rfl | hpc
        · simp only [Nat.add_zero]
          split
          · rename_i h1; exact Nat.mod_eq_of_lt h1
          · rfl
        · rw [hpc, if_neg (by omega), Nat.add_mod_right]
      · have hlt : p < s.nc := by
          by_cases h1 : p < s.nc
          · exact h1
          · have : p = s.nc := by omega
            rw [this, Nat.mod_self] at hp0; exact absurd rfl hp0
        rw [Nat.mod_eq_of_lt hlt] at hi hp0 ⊢
        clear e1 e2 e3 hmod hdiv
        by_cases h1 : j + p < s.nc
        · rw [if_pos h1]; exact Nat.mod_eq_of_lt (by omega)
        · rw [if_neg h1]
          have h2 : j < 2 * (s.nc - p) := by omega
          obtain ⟨d, hd⟩ : ∃ d, j = d + (s.nc - p) := ⟨j - (s.nc - p), by omega⟩
          have e6 : j + p = d + s.nc := by omega
          rw [e6, Nat.add_mod_right, Nat.mod_eq_of_lt (show d < s.nc by omega), hd, Nat.add_mod_right,
            Nat.mod_eq_of_lt (show d < s.nc - p by omega)]
    rw [e4]
    rw [g3]

theorem run_spec {s : NList α} {l : List α} {p q : Nat} (hlen : 1 ≤ s.len) (hnc : 0 < s.nc) (hsz : s.nc * s.len < intMax)
    (h : Inv s l p) (hq : p % s.nc = q % s.nc) (os : List (Op α)) (hos : careful l os) :
    ∃ s' p', run s os = some (s', (specRun (l, q) os).2) ∧ Inv s' (specRun (l, q) os).1.1 p' ∧
      p' % s.nc = (specRun (l, q) os).1.2 % s.nc ∧ s'.nc = s.nc := by
  induction os generalizing s l p q with
  | nil => exact ⟨s, p, rfl, h, hq, rfl⟩
  | cons o os ih =>
    obtain ⟨s1, r, p1, h1, h2, h3, h4, h5, h6, h7⟩ : ∃ s1 r p1, step s o = some (s1, r) ∧
        r = (specStep (l, q) o).2 ∧ Inv s1 (specStep (l, q) o).1.1 p1 ∧ p1 % s.nc = (specStep (l, q) o).1.2 % s.nc ∧
        s1.nc = s.nc ∧ s1.len = s.len ∧ careful (specStep (l, q) o).1.1 os := by
      cases o with
      | push x =>
        obtain ⟨ns', g1, g2, g3⟩ := pushNodes_spec hlen hnc hsz x p s.nodes l h.nodes h.ne
        refine ⟨{ s with nodes := ns', count := s.count + 1 }, .pos s.count, p, ?_, by simp [specStep, h.count],
          ⟨g2, g3, h.nouse, by simp [specStep, h.count], h.le⟩, hq, rfl, rfl, hos⟩
        simp only [step, push, g1, Option.bind_eq_bind, Option.bind_some, Option.map_some]
      | pop =>
        obtain ⟨s', g1, g2, g3, g4⟩ := pop_spec hnc h hos.1
        refine ⟨s', .val l.head?, _, by simp only [step, g1, Option.map_some], rfl, g2, ?_, g3, g4, hos.2⟩
        simp only [specStep]
        split
        · rename_i hp
          subst hp
          rw [Nat.mod_self] at hq
          rw [Nat.add_mod, ← hq]; simp
        · rw [Nat.add_mod, hq, ← Nat.add_mod]
      | clear =>
        obtain ⟨hn, hne, hu, hc, hle⟩ := h
        cases hnodes : s.nodes with
        | nil => exact absurd hnodes hne
        | cons n ns =>
          rw [hnodes] at hn
          obtain ⟨k1, k2, k3, _⟩ := hn
          refine ⟨{ s with nodes := [SL.clear n], count := 0, nouse := 0 }, .unit, 0, ?_, rfl, ⟨?_, by simp, rfl, rfl, Nat.zero_le _⟩, rfl, rfl, rfl, hos⟩
          · simp only [step, clear, hnodes, Option.map_some]
          · exact ⟨rfl, k2, k3, [], [], rfl, SL.clear_spec, by simp, fun h => absurd rfl h, rfl⟩
    obtain ⟨s2, p2, g1, g2, g3, g4⟩ := ih (by omega) (by omega) (by rw [h5, h6]; exact hsz) h3 (q := (specStep (l, q) o).1.2) (by rw [h5]; exact h4) h7
    refine ⟨s2, p2, ?_, g2, ?_, g4.trans h5⟩
    · simp only [run, h1, g1, Option.bind_eq_bind, Option.bind_some, specRun, h2]
    · rw [h5] at g3; exact g3

/-- C44, the part that holds: on every history that takes nothing from an empty list, the records are shown in the order they
were appended, appending answers the position of the new record, the size is the number of records present, and a record is found at its position as long as the number of
records taken is a multiple of the page size or the position is in the first page or in the same part of the second one.
Missing: the other positions (`C44_get_violated`) and taking from an empty list (`C44_pop_empty_violated`). -/
theorem C44_paged_list_partial (nc len : Nat) (hnc : 0 < nc) (hlen : 1 ≤ len) (hsz : nc * len < intMax) (os : List (Op α))
    (hos : careful [] os) :
    ∃ s s', create nc len = some s ∧ run s os = some (s', (specRun ([], 0) os).2) ∧
      size s' = (specRun ([], 0) os).1.1.length ∧
      ∀ i : Int, ((specRun ([], 0) os).1.2 % nc = 0 ∨ i < 2 * ((nc : Int) - ((specRun ([], 0) os).1.2 % nc : Nat))) →
        get s' i = some (if 0 ≤ i then (specRun ([], 0) os).1.1[i.toNat]? else none) := by
  obtain ⟨n, h1, h2, h3, h4, h5⟩ := newNode_spec (α := α) hlen hsz
  have hinv : Inv (⟨[n], nc, len, 0, 0⟩ : NList α) [] 0 :=
    ⟨⟨h3, h4, h5, [], [], rfl, h2, by simp, fun h => absurd rfl h, rfl⟩, by simp, rfl, rfl, Nat.zero_le _⟩
  obtain ⟨s', p', g1, g2, g3, g4⟩ := run_spec hlen hnc hsz hinv rfl os hos
  refine ⟨_, s', by simp only [create, h1, Option.bind_eq_bind, Option.bind_some], g1, g2.count, ?_⟩
  intro i hi
  simp only at g3 g4
  refine get_spec (by omega) g2 i ?_
  rw [g4, g3]
  exact hi

/-- A history across pages meets the hypotheses. -/
example : careful [] ([.push 1, .push 2, .push 3, .push 4, .push 5, .pop, .pop, .push 6] : List (Op Nat)) ∧
    specRun ([], 0) ([.push 1, .push 2, .push 3, .push 4, .push 5, .pop, .pop, .push 6] : List (Op Nat)) =
      (([3, 4, 5, 6], 2), [.pos 0, .pos 1, .pos 2, .pos 3, .pos 4, .val (some 1), .val (some 2), .pos 3]) := by
  refine ⟨?_, by decide⟩
  simp [careful]

/-- C44 fails further back: pages of four records, one record taken, and position six shows the second record behind the
first page instead of the fourth. -/
theorem C44_get_violated :
    ((create 4 8).bind fun s => (run s (([1, 2, 3, 4, 5, 6, 7, 8, 9].map Op.push ++ [Op.pop]) : List (Op Nat))).bind fun r => get r.1 6) =
      some (some 5) ∧
    (specRun ([], 0) (([1, 2, 3, 4, 5, 6, 7, 8, 9].map Op.push ++ [Op.pop]) : List (Op Nat))).1.1[6]? = some 8 := by
  decide +kernel

/-- C44 fails on an empty list: taking from it uses a node that was just freed. -/
theorem C44_pop_empty_violated : (create 4 8 : Option (NList Nat)).bind pop = none ∧ (create 4 8 : Option (NList Nat)).isSome := by
  decide +kernel

end Sis.NL
