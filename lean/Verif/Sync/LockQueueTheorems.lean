import Verif.Sync.LockQueue
/-
C35, first queue: the producer/consumer queue is FIFO under every schedule.
-/
namespace Sis.Lk
open Sis

/-! ### Specification -/

/-- The objects waiting after one more call with this result; `none` if the result is not that of a FIFO queue. -/
def replay (w : List (Option Nat)) : Ev × Out → Option (List (Option Nat))
  | (.push o, .unit) => some (w ++ [o])
  | (.pop, .got o) => match w with
    | [] => if o = none then some [] else none
    | a :: w => if o = a then some w else none
  | (.clear, .released os) => if os = w then some [] else none
  | _ => none

/-- The objects waiting after a history. -/
def waiting (h : List (Ev × Out)) : Option (List (Option Nat)) := h.foldlM replay []

/-- All sequences of calls, by whichever threads. -/
inductive Hist : List (Ev × Out) → Q → Prop
  | nil : Hist [] create
  | snoc {h q e q' o} : Hist h q → step q e = some (q', o) → Hist (h ++ [(e, o)]) q'

/-! ### The heap -/

theorem load_lt {h : Heap} {a : Nat} {n : Node} (e : load h a = some n) : a < h.length := by
  unfold load at e
  refine Classical.byContradiction fun hx => ?_
  rw [List.getElem?_eq_none (by omega)] at e
  cases e

theorem load_set (h : Heap) (a b : Nat) (x : Option Node) :
    load (h.set a x) b = if a = b ∧ b < h.length then x else load h b := by
  unfold load
  rw [List.getElem?_set]
  by_cases hab : a = b
  · subst hab
    by_cases hl : a < h.length
    · simp [hl]
    · simp [hl]
  · simp [hab]

theorem load_append_lt {h : Heap} {a : Nat} (x : Heap) (hl : a < h.length) : load (h ++ x) a = load h a := by
  unfold load
  rw [List.getElem?_append_left hl]

theorem load_append_new (h : Heap) (n : Node) : load (h ++ [some n]) h.length = some n := by
  unfold load
  simp

/-- The nodes from `p` to the last are linked, in the order of their addresses, and hold the objects `w` behind `p`. -/
structure Linked (h : Heap) (p : Nat) (w : List (Option Nat)) : Prop where
  len : h.length = p + w.length + 1
  at_ : ∀ i, i ≤ w.length → ∃ o, load h (p + i) = some ⟨o, if i < w.length then some (p + i + 1) else none⟩
  obj : ∀ i (hi : i < w.length), (load h (p + i + 1)).map Node.obj = some w[i]

structure Inv (q : Q) (w : List (Option Nat)) : Prop where
  linked : Linked q.heap q.rhead w
  tail : q.rtail = q.rhead + w.length
  nums : q.rnums = w.length

theorem inv_create : Inv create [] := by
  refine ⟨⟨rfl, ?_, ?_⟩, rfl, rfl⟩
  · intro i hi
    have : i = 0 := by simpa using hi
    subst this
    exact ⟨none, rfl⟩
  · intro i hi
    simp at hi

theorem push_spec {q : Q} {w : List (Option Nat)} (v : Inv q w) (o : Option Nat) :
    ∃ q', push q o = some q' ∧ Inv q' (w ++ [o]) ∧ q'.rhead = q.rhead ∧
      (∀ a, q.rhead ≤ a → a < q.rtail → load q'.heap a = load q.heap a) ∧
      (load q'.heap q.rtail).map Node.obj = (load q.heap q.rtail).map Node.obj := by
  obtain ⟨hlen, hat, hobj⟩ := v.linked
  have htl := v.tail
  obtain ⟨ot, ht⟩ := hat w.length (Nat.le_refl _)
  simp only [Nat.lt_irrefl, if_false] at ht
  rw [← htl] at ht
  have hlt := load_lt ht
  have hl1 : load (q.heap ++ [some { obj := o }]) q.rtail = some ⟨ot, none⟩ := by
    rw [load_append_lt _ hlt, ht]
  refine ⟨⟨(q.heap ++ [some (⟨o, none⟩ : Node)]).set q.rtail (some ⟨ot, some q.heap.length⟩), q.rhead, q.heap.length,
    q.rnums + 1⟩, ?_, ⟨⟨?_, ?_, ?_⟩, ?_, ?_⟩, rfl, ?_, ?_⟩
  · simp only [push, hl1, Option.bind_some, store, Option.map_some]
  · simp [hlen]; omega
  · intro i hi
    simp only [List.length_append, List.length_cons, List.length_nil] at hi
    simp only [load_set, List.length_append, List.length_cons, List.length_nil]
    by_cases h1 : q.rtail = q.rhead + i
    · refine ⟨ot, ?_⟩
      rw [if_pos ⟨h1, by omega⟩, if_pos (by omega), show q.heap.length = q.rhead + i + 1 by omega]
    · rw [if_neg (by omega)]
      by_cases h2 : i = w.length + 1
      · refine ⟨o, ?_⟩
        rw [if_neg (by omega), show q.rhead + i = q.heap.length by omega, load_append_new]
      · obtain ⟨oi, hoi⟩ := hat i (by omega)
        refine ⟨oi, ?_⟩
        rw [load_append_lt _ (by omega), hoi, if_pos (by omega), if_pos (by omega)]
  · intro i hi
    simp only [List.length_append, List.length_cons, List.length_nil] at hi
    simp only [load_set, List.length_append, List.length_cons, List.length_nil]
    by_cases h2 : i = w.length
    · subst h2
      rw [if_neg (by omega), show q.rhead + w.length + 1 = q.heap.length by omega, load_append_new]
      simp
    · have h3 := hobj i (by omega)
      rw [List.getElem_append_left (by omega)]
      by_cases h1 : q.rtail = q.rhead + i + 1
      · rw [if_pos ⟨h1, by omega⟩]
        rw [← h1, ht] at h3
        exact h3
      · rw [if_neg (by omega), load_append_lt _ (by omega)]
        exact h3
  · simp; omega
  · have := v.nums
    simp; omega
  · intro a _ ha
    rw [load_set, if_neg (by omega), load_append_lt _ (by omega)]
  · rw [load_set, if_pos ⟨rfl, by simp; omega⟩, ht]
    rfl

theorem next_head {q : Q} {w : List (Option Nat)} (v : Inv q w) :
    ∃ o, load q.heap q.rhead = some ⟨o, if 0 < w.length then some (q.rhead + 1) else none⟩ := by
  obtain ⟨o, ho⟩ := v.linked.at_ 0 (Nat.zero_le _)
  exact ⟨o, ho⟩

theorem pop_nil {q : Q} (v : Inv q []) : pop q = some (q, none) := by
  obtain ⟨o, ho⟩ := next_head v
  simp [pop, ho]

/-- Taking the first node off, with or without resetting the object of the new head. -/
theorem drop_inv {q : Q} {x : Option Nat} {w : List (Option Nat)} (v : Inv q (x :: w)) {h : Heap}
    (hl : h.length = q.heap.length)
    (hk : ∀ a, q.rhead < a → (load h a).map Node.next = (load q.heap a).map Node.next)
    (ho : ∀ a, q.rhead + 1 < a → load h a = load q.heap a) :
    Inv ⟨h, q.rhead + 1, q.rtail, q.rnums - 1⟩ w := by
  obtain ⟨hlen, hat, hobj⟩ := v.linked
  simp only [List.length_cons] at hlen hat hobj
  refine ⟨⟨by simp only [hl]; omega, ?_, ?_⟩, ?_, ?_⟩
  · intro i hi
    obtain ⟨oi, hoi⟩ := hat (i + 1) (by omega)
    have h1 := hk (q.rhead + 1 + i) (by omega)
    rw [show q.rhead + 1 + i = q.rhead + (i + 1) by omega] at h1 ⊢
    rw [hoi] at h1
    cases hn : load h (q.rhead + (i + 1)) with
    | none => rw [hn] at h1; cases h1
    | some n =>
      rw [hn] at h1
      obtain ⟨no, nn⟩ := n
      simp only [Option.map_some, Option.some.injEq] at h1
      refine ⟨no, ?_⟩
      rw [h1]
      by_cases h2 : i < w.length
      · rw [if_pos (by omega), if_pos h2]
      · rw [if_neg (by omega), if_neg h2]
  · intro i hi
    have h3 := hobj (i + 1) (by omega)
    simp only [List.getElem_cons_succ] at h3
    rw [ho (q.rhead + 1 + i + 1) (by omega), show q.rhead + 1 + i + 1 = q.rhead + (i + 1) + 1 by omega]
    exact h3
  · have := v.tail
    simp only [List.length_cons] at this ⊢
    omega
  · have := v.nums
    simp only [List.length_cons] at this ⊢
    omega

theorem pop_cons {q : Q} {x : Option Nat} {w : List (Option Nat)} (v : Inv q (x :: w)) :
    ∃ q', pop q = some (q', x) ∧ Inv q' w ∧ q'.rhead = q.rhead + 1 ∧ q'.rtail = q.rtail ∧
      (∀ a, q.rhead + 1 < a → load q'.heap a = load q.heap a) ∧ load q'.heap q.rhead = none ∧
      load q'.heap (q.rhead + 1) = (load q.heap (q.rhead + 1)).map fun n => { n with obj := none } := by
  obtain ⟨hlen, hat, hobj⟩ := v.linked
  obtain ⟨o0, h0⟩ := next_head v
  rw [if_pos (by simp)] at h0
  obtain ⟨o1, h1⟩ := hat 1 (by simp)
  have hx := hobj 0 (by simp)
  simp only [Nat.add_zero, List.getElem_cons_zero] at hx
  rw [h1] at hx
  have hox : o1 = x := by simpa using hx
  subst hox
  have hb0 : q.rhead < q.heap.length := load_lt h0
  have hb1 : q.rhead + 1 < q.heap.length := load_lt h1
  generalize hnx : (if 1 < (o1 :: w).length then some (q.rhead + 1 + 1) else none) = nx at h1
  refine ⟨⟨(q.heap.set (q.rhead + 1) (some ⟨none, nx⟩)).set q.rhead none, q.rhead + 1, q.rtail, q.rnums - 1⟩, ?_, ?_,
    rfl, rfl, ?_, ?_, ?_⟩
  · have hh : load (q.heap.set (q.rhead + 1) (some ⟨none, nx⟩)) q.rhead = some ⟨o0, some (q.rhead + 1)⟩ := by
      rw [load_set, if_neg (by omega), h0]
    simp only [pop, h0, Option.bind_some, h1, store, Option.map_some, free, hh]
  · refine drop_inv v (by simp) ?_ ?_
    · intro a ha
      rw [load_set, if_neg (by omega), load_set]
      by_cases h2 : q.rhead + 1 = a
      · subst h2
        rw [if_pos ⟨rfl, hb1⟩, h1]
        rfl
      · rw [if_neg (by omega)]
    · intro a ha
      rw [load_set, if_neg (by omega), load_set, if_neg (by omega)]
  · intro a ha
    rw [load_set, if_neg (by omega), load_set, if_neg (by omega)]
  · rw [load_set, if_pos ⟨rfl, by simpa using hb0⟩]
  · rw [load_set, if_neg (by omega), load_set, if_pos ⟨rfl, hb1⟩, h1]
    rfl

theorem clearLoop_spec : ∀ (w : List (Option Nat)) (k : Nat) (q : Q), Inv q w → w.length < k →
    ∃ q', clearLoop k q = some (q', w) ∧ Inv q' [] := by
  intro w
  induction w with
  | nil =>
    intro k q v hk
    obtain ⟨k, rfl⟩ : ∃ n, k = n + 1 := ⟨k - 1, by omega⟩
    obtain ⟨o, ho⟩ := next_head v
    simp only [List.length_nil, Nat.lt_irrefl, if_false] at ho
    exact ⟨q, by simp [clearLoop, ho], v⟩
  | cons x w ih =>
    intro k q v hk
    obtain ⟨k, rfl⟩ : ∃ n, k = n + 1 := ⟨k - 1, by omega⟩
    obtain ⟨o0, h0⟩ := next_head v
    rw [if_pos (by simp)] at h0
    have hx := v.linked.obj 0 (by simp)
    simp only [Nat.add_zero, List.getElem_cons_zero] at hx
    cases h1 : load q.heap (q.rhead + 1) with
    | none => rw [h1] at hx; cases hx
    | some n1 =>
      rw [h1] at hx
      have hox : n1.obj = x := by simpa using hx
      have v' : Inv ⟨q.heap.set q.rhead none, q.rhead + 1, q.rtail, q.rnums - 1⟩ w := by
        refine drop_inv v (by simp) ?_ ?_
        · intro a ha; rw [load_set, if_neg (by omega)]
        · intro a ha; rw [load_set, if_neg (by omega)]
      simp only [List.length_cons] at hk
      obtain ⟨q', e1, e2⟩ := ih k _ v' (by omega)
      refine ⟨q', ?_, e2⟩
      simp only [clearLoop, h0, Option.bind_some, h1, free, Option.map_some, e1, hox]

theorem step_ok {q : Q} {w : List (Option Nat)} (v : Inv q w) (e : Ev) :
    ∃ q' o w', step q e = some (q', o) ∧ replay w (e, o) = some w' ∧ Inv q' w' := by
  cases e with
  | push o =>
    obtain ⟨q', e1, e2, -⟩ := push_spec v o
    exact ⟨q', .unit, _, by rw [step, e1]; rfl, rfl, e2⟩
  | pop =>
    cases w with
    | nil => exact ⟨q, .got none, [], by rw [step, pop_nil v]; rfl, by simp [replay], v⟩
    | cons x w =>
      obtain ⟨q', e1, e2, -⟩ := pop_cons v
      exact ⟨q', .got x, w, by rw [step, e1]; rfl, by simp [replay], e2⟩
  | clear =>
    obtain ⟨q', e1, e2⟩ := clearLoop_spec w q.heap.length q v (by have := v.linked.len; omega)
    exact ⟨q', .released w, [], by rw [step, clear, e1]; rfl, by simp [replay], e2⟩

theorem waiting_snoc (h : List (Ev × Out)) (x : Ev × Out) :
    waiting (h ++ [x]) = (waiting h).bind fun w => replay w x := by
  simp only [waiting, List.foldlM_append, List.foldlM_cons, List.foldlM_nil]
  cases h.foldlM replay [] <;> simp

theorem hist_ok {h : List (Ev × Out)} {q : Q} (H : Hist h q) : ∃ w, waiting h = some w ∧ Inv q w := by
  induction H with
  | nil => exact ⟨[], rfl, inv_create⟩
  | @snoc h q e q' o H hs ih =>
    obtain ⟨w, h1, v⟩ := ih
    obtain ⟨q1, o1, w1, e1, e2, e3⟩ := step_ok v e
    rw [e1] at hs
    cases hs
    exact ⟨w1, by rw [waiting_snoc, h1]; exact e2, e3⟩

/-! ### Theorems -/

/-- C35, lock queue: no call ever touches a node that was freed, and the next result is that of a FIFO queue. -/
theorem C35_lock_never_faults {h : List (Ev × Out)} {q : Q} (H : Hist h q) (e : Ev) : (step q e).isSome := by
  obtain ⟨w, -, v⟩ := hist_ok H
  obtain ⟨q', o, w', e1, -⟩ := step_ok v e
  rw [e1]; rfl

/-- The objects put in. -/
def putIn (h : List (Ev × Out)) : List (Option Nat) := h.filterMap fun x => match x.1 with
  | .push o => some o
  | _ => none

/-- The objects handed out by `pop` and let go by `clear`, one list per call. -/
def gone : List (Ev × Out) → List (Option Nat)
  | [] => []
  | (.pop, .got (some o)) :: h => some o :: gone h
  | (.clear, .released os) :: h => os ++ gone h
  | _ :: h => gone h

/-- C35, lock queue: whatever the schedule, the objects that left the queue, followed by those waiting, are the objects
put in: none is lost, repeated or overtaken.  `pop` returns nothing exactly if nothing is waiting. -/
theorem C35_lock_fifo {h : List (Ev × Out)} {q : Q} (H : Hist h q) (hn : ∀ x ∈ h, x.1 ≠ .push none) :
    ∃ w, putIn h = gone h ++ w ∧
      ∃ q' o, step q .pop = some (q', .got o) ∧ o = w.head?.join ∧ (o = none ↔ w = []) := by
  have key : ∃ w, waiting h = some w ∧ putIn h = gone h ++ w ∧ ∀ x ∈ w, x ≠ none := by
    induction H with
    | nil => exact ⟨[], rfl, rfl, nofun⟩
    | @snoc h q e q' o H hs ih =>
      obtain ⟨w, h1, h2, h3⟩ := ih fun x hx => hn x (by simp [hx])
      obtain ⟨w0, h4, v⟩ := hist_ok H
      rw [h1] at h4
      cases h4
      obtain ⟨q1, o1, w1, e1, e2, e3⟩ := step_ok v e
      rw [e1] at hs
      cases hs
      have hg : ∀ (l : List (Ev × Out)) x, gone (l ++ [x]) = gone l ++ gone [x] := by
        intro l x
        induction l with
        | nil => rfl
        | cons y l ih =>
          obtain ⟨ye, yo⟩ := y
          simp only [List.cons_append]
          cases ye with
          | push a => simpa only [gone] using ih
          | pop =>
            cases yo with
            | got a => cases a <;> simp [gone, ih]
            | _ => simpa only [gone] using ih
          | clear =>
            cases yo with
            | released os => simp [gone, ih]
            | _ => simpa only [gone] using ih
      refine ⟨w1, by rw [waiting_snoc, h1]; exact e2, ?_, ?_⟩
      · simp only [putIn, List.filterMap_append] at h2 ⊢
        rw [h2, hg]
        cases e with
        | push a =>
          cases o <;> simp [replay] at e2
          subst e2
          simp [gone]
        | pop =>
          cases o with
          | got a =>
            cases w with
            | nil => simp [replay] at e2; obtain ⟨rfl, rfl⟩ := e2; simp [gone]
            | cons b w =>
              simp [replay] at e2
              obtain ⟨rfl, rfl⟩ := e2
              cases a with
              | none => exact absurd rfl (h3 none (by simp))
              | some a => simp [gone]
          | _ => simp [replay] at e2
        | clear =>
          cases o with
          | released os => simp [replay] at e2; obtain ⟨rfl, rfl⟩ := e2; simp [gone]
          | _ => simp [replay] at e2
      · cases e with
        | push a =>
          cases o <;> simp [replay] at e2
          subst e2
          have := hn (.push a, .unit) (by simp)
          intro x hx
          rcases List.mem_append.1 hx with hx | hx
          · exact h3 x hx
          · intro h0
            simp only [List.mem_singleton] at hx
            rw [h0] at hx
            rw [← hx] at this
            exact this rfl
        | pop =>
          cases o with
          | got a =>
            cases w with
            | nil => simp [replay] at e2; obtain ⟨rfl, rfl⟩ := e2; exact nofun
            | cons b w =>
              simp [replay] at e2
              obtain ⟨rfl, rfl⟩ := e2
              exact fun x hx => h3 x (List.mem_cons_of_mem _ hx)
          | _ => simp [replay] at e2
        | clear =>
          cases o with
          | released os => simp [replay] at e2; obtain ⟨rfl, rfl⟩ := e2; exact nofun
          | _ => simp [replay] at e2
  obtain ⟨w, h1, h2, h3⟩ := key
  obtain ⟨w0, h4, v⟩ := hist_ok H
  rw [h1] at h4
  cases h4
  refine ⟨w, h2, ?_⟩
  cases w with
  | nil => exact ⟨q, none, by rw [step, pop_nil v]; rfl, rfl, by simp⟩
  | cons x w =>
    obtain ⟨q', e1, -⟩ := pop_cons v
    have := h3 x (by simp)
    exact ⟨q', x, by rw [step, e1]; rfl, by simp, by simp [this]⟩

def run (q : Q) : List Ev → Option (Q × List (Ev × Out))
  | [] => some (q, [])
  | e :: es => (step q e).bind fun (q, o) => (run q es).map fun (q, h) => (q, (e, o) :: h)

def sampleEvs : List Ev := [.push (some 1), .push (some 2), .pop, .push (some 3), .clear, .pop, .push (some 4), .pop]

/-- The two theorems apply to this schedule. -/
example : (run create sampleEvs).map (fun x => x.2.map Prod.snd) =
    some [.unit, .unit, .got (some 1), .unit, .released [some 2, some 3], .got none, .unit, .got (some 4)] ∧
    ∀ e ∈ sampleEvs, e ≠ .push none := by decide +kernel

/-- Why C35 speaks of objects: a null pointer can be put in, and `pop` then says there is nothing. -/
theorem C35_lock_null_not_an_object : (run create [.push none, .push (some 1), .pop, .pop]).map (fun x => x.2.map Prod.snd) =
    some [.unit, .unit, .got none, .got (some 1)] := by decide +kernel

end Sis.Lk
