import Verif.Lists.LinkListLemmas
/-
C125: linked lists are sequences.
-/
namespace Sis.Link

variable {V : Type}

/-- **C125**.  For every history of calls on any number of lists, with nodes of the right list and with addresses that are free:
no call reads, writes or frees memory that is not a node; each tells and frees what it means for the sequences; afterwards each
list has as many elements as its sequence, every index, also from the end, gives the node at that place, a search finds the
first element, a node has its value, and the nodes in memory are those of the sequences and no others. -/
theorem C125_sequences_partial (cs : List (Call V)) (o : AllOwed (fun _ => []) cs) :
    ∃ s, calls St.new cs = some (s, (meaning (fun _ => []) cs).2) ∧
      ∀ xs, xs = (meaning (fun _ => []) cs).1 →
        (∀ i, (s.ls i).len = (xs i).length) ∧
        (∀ i (k : Nat), get s i k = some ((xs i)[k]?.map (·.1))) ∧
        (∀ i (k : Nat), k + 1 < 2 ^ 63 → get s i (-(k : Int) - 1) = some ((xs i).reverse[k]?.map (·.1))) ∧
        (∀ i p, search s i p = some (((xs i).find? fun e => p e.2).map (·.1))) ∧
        (∀ i, ∀ e ∈ xs i, (s.heap e.1).map (·.value) = some e.2) ∧
        (∀ a, (s.heap a).isSome = true ↔ ∃ i, a ∈ (xs i).map (·.1)) := by
  obtain ⟨s, h1, g⟩ := good_calls cs good_new o
  refine ⟨s, h1, ?_⟩
  rintro _ rfl
  refine ⟨fun i => (g.rep i).len, fun i k => ?_, fun i k hk => ?_, fun i p => ?_, fun i e he => ?_, g.live⟩
  · unfold get
    rw [if_neg (by omega), (g.rep i).head]
    exact walk_fwd k (g.rep i).seg
  · unfold get
    rw [if_pos (by omega), if_neg (by omega), (g.rep i).tail]
    have : (-(-(k : Int) - 1) - 1).toNat = k := by omega
    rw [this]
    exact walk_bwd k (g.rep i).seg
  · unfold search
    rw [(g.rep i).head]
    exact search_loop p _ (g.rep i).seg _ (by rw [(g.rep i).len]; omega)
  · obtain ⟨L, R, hX⟩ := List.append_of_mem he
    have := node_at (x := e.1) (w := e.2) (by have := (g.rep i).seg; rw [hX] at this; exact this)
    rw [this]; rfl

/-- When every list was cleared at the end, nothing is left in memory. -/
theorem C125_no_leak_partial (cs : List (Call V)) (o : AllOwed (fun _ => []) cs) (h : ∀ i, (meaning (fun _ => []) cs).1 i = []) :
    ∃ s t, calls St.new cs = some (s, t) ∧ ∀ a, s.heap a = none := by
  obtain ⟨s, h1, g⟩ := good_calls cs good_new o
  refine ⟨s, _, h1, fun a => ?_⟩
  cases hs : s.heap a with
  | none => rfl
  | some n =>
    obtain ⟨i, hi⟩ := (g.live a).1 (by rw [hs]; rfl)
    rw [h i] at hi
    cases hi

/-- A history in which two lists are filled from both ends and in the middle, one is joined to the other, rotated, gone through
from the end while every second value is removed, and copied. -/
def sampleCalls : List (Call Nat) :=
  [.push 0 100 1, .push 0 104 2, .addHead 0 108 3, .after 0 104 112 4, .before 0 108 116 5, .push 1 120 6, .push 1 124 7, .join 0 1, .rotate 0, .delete 0 100,
    .push 1 100 8, .sweep 0 false (fun v => v % 2 = 0), .dup 0 2 (fun v => v + 10) [200, 204, 208]]

example : AllOwed (fun _ => []) sampleCalls := by
  simp [AllOwed, Owed, means, sampleCalls, put]
  and_intros <;> intro j x <;> by_cases h0 : j = 0 <;> by_cases h1 : j = 1 <;> simp_all

example : ∀ i, (meaning (fun _ => []) (sampleCalls ++ [.clear 0, .clear 1, .clear 2])).1 i = [] := by
  intro i
  simp [meaning, means, sampleCalls, put]
  by_cases h0 : i = 0 <;> by_cases h1 : i = 1 <;> by_cases h2 : i = 2 <;> simp_all

example : (meaning (fun _ => []) sampleCalls).1 0 = [(104, 2), (112, 4), (120, 6)] ∧ (meaning (fun _ => []) sampleCalls).1 2 = [(200, 12), (204, 14), (208, 16)] ∧
    ((meaning (fun _ => []) sampleCalls).2.map fun t => t.2) = [[], [], [], [], [], [], [], [], [], [1], [], [3, 5, 7], []] := by decide +kernel

/-- A list that is joined to itself loses all its elements, and their memory. -/
theorem C125_violated_self :
    ((calls St.new [.push 0 100 1, .push 0 104 2, .join 0 0]).map fun r => ((r.1.ls 0).len, (r.1.ls 0).head, (r.1.heap 100).isSome, (r.1.heap 104).isSome)) =
      some (0, none, true, true) := by decide +kernel

/-- The smallest index is undefined behaviour: it has no negative. -/
theorem C125_violated_index : ((calls St.new [.push 0 100 1]).map fun r => ((get r.1 0 (-2 ^ 63)).isNone, get r.1 0 (-2 ^ 63 + 1))) = some (true, some none) := by
  decide +kernel

end Sis.Link
