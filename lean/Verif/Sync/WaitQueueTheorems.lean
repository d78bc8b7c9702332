import Verif.Sync.WaitQueue
import Verif.Sync.LockQueueTheorems
/-
C36: the queue that hands out one job at a time, in order.
-/
namespace Sis.Wq
open Sis
open Sis.Lk (Node Heap load store free load_lt load_set load_append_lt load_append_new Linked)

/-- All sequences of calls and rounds, by whichever threads. -/
inductive Hist : List (Ev × Out) → W → Prop
  | nil : Hist [] create
  | snoc {h q e q' o} : Hist h q → step q e = some (q', o) → Hist (h ++ [(e, o)]) q'

/-! ### Specification -/

/-- The job this result hands out. -/
def handed : Out → Option Nat
  | .given o => some o
  | .handled o => some o
  | .nothing => none

/-- Whether nobody works: nothing was handed out since the last `set_busy 0`. -/
def idle (h : List (Ev × Out)) : Bool := h.foldl (fun f x => match x with
  | (.setBusy b, _) => !b
  | (_, o) => f && (handed o).isNone) true

/-- The jobs put in, in order. -/
def jobs (h : List (Ev × Out)) : List Nat := h.filterMap fun x => match x.1 with
  | .push o => o
  | _ => none

/-- The jobs handed out, in order. -/
def out (h : List (Ev × Out)) : List Nat := h.filterMap fun x => handed x.2

/-! ### Invariant -/

structure Inv (q : W) (w : List Nat) : Prop where
  linked : Linked q.heap q.head (w.map some)
  tail : q.tail = q.head + w.length
  count : q.count = w.length

private theorem inv_create : Inv create [] := by
  refine ⟨⟨rfl, ?_, ?_⟩, rfl, rfl⟩
  · intro i hi
    have : i = 0 := by simpa using hi
    subst this
    exact ⟨none, rfl⟩
  · intro i hi
    simp at hi

/-- The queue inside, as a lock queue. -/
private def asQ (q : W) : Lk.Q := ⟨q.heap, q.head, q.tail, q.count⟩

private theorem asInv {q : W} {w : List Nat} (v : Inv q w) : Lk.Inv (asQ q) (w.map some) :=
  ⟨v.linked, by simpa [asQ] using v.tail, by have := v.count; simp only [asQ, List.length_map]; omega⟩

private theorem push_queued {q : W} {w : List Nat} (v : Inv q w) (a : Nat) (hb : ¬ (q.busy = false ∧ w = [])) :
    ∃ q', push q (some a) = some (q', none) ∧ Inv q' (w ++ [a]) ∧ q'.busy = q.busy := by
  obtain ⟨q1, e1, v1, -⟩ := Lk.push_spec (asInv v) (some a)
  have hc : ¬ (q.busy = false ∧ q.count = 0) := by
    rintro ⟨h1, h2⟩
    rw [v.count] at h2
    exact hb ⟨h1, List.length_eq_zero_iff.1 h2⟩
  refine ⟨⟨q1.heap, q1.rhead, q1.rtail, q.count + 1, q.busy⟩, ?_, ?_, rfl⟩
  · unfold push
    rw [if_neg hc]
    unfold Lk.push at e1
    simp only [asQ] at e1
    cases hl : load (q.heap ++ [some { obj := some a }]) q.tail with
    | none => rw [hl] at e1; cases e1
    | some t =>
      rw [hl] at e1
      simp only [Option.bind_some, Option.map_eq_some_iff] at e1
      obtain ⟨h, e2, rfl⟩ := e1
      simp only [hl, Option.bind_some, e2, Option.map_some]
  · have h2 := v1.linked
    have h3 := v1.tail
    refine ⟨?_, ?_, ?_⟩
    · simpa using h2
    · simpa using h3
    · simp [v.count]

private theorem pop_nil {q : W} (v : Inv q []) : pop q = some (q, none) := by
  unfold pop
  rw [if_neg (by rw [v.count]; simp)]

private theorem pop_cons {q : W} {a : Nat} {w : List Nat} (v : Inv q (a :: w)) :
    ∃ q', pop q = some (q', some a) ∧ Inv q' w ∧ q'.busy = q.busy := by
  obtain ⟨o, ho⟩ := v.linked.at_ 0 (Nat.zero_le _)
  simp only [List.map_cons, List.length_cons, Nat.zero_lt_succ, if_true, Nat.add_zero] at ho
  have h1 := v.linked.obj 0 (by simp)
  simp only [List.map_cons, List.getElem_cons_zero, Nat.add_zero] at h1
  cases h2 : load q.heap (q.head + 1) with
  | none => rw [h2] at h1; cases h1
  | some nb =>
    rw [h2] at h1
    have h3 : nb.obj = some a := by simpa using h1
    refine ⟨⟨q.heap.set q.head none, q.head + 1, q.tail, q.count - 1, q.busy⟩, ?_, ?_, rfl⟩
    · unfold pop
      rw [if_pos (by rw [v.count]; simp)]
      simp only [ho, Option.bind_some, h2, free, Option.map_some, h3]
    · have v2 := Lk.drop_inv (asInv v) (h := q.heap.set q.head none) (by simp [asQ])
        (by intro b hb; rw [load_set, if_neg (by simp only [asQ] at hb; omega)]; rfl)
        (by intro b hb; rw [load_set, if_neg (by simp only [asQ] at hb; omega)]; rfl)
      have hc := v.count
      have ht := v.tail
      refine ⟨v2.linked, ?_, ?_⟩
      · simp only [List.length_cons] at ht ⊢; omega
      · simp only [List.length_cons] at hc ⊢; omega

/-- The state after a history without null objects. -/
private def Good (h : List (Ev × Out)) (q : W) : Prop := ∃ w, Inv q w ∧ jobs h = out h ++ w ∧ q.busy = !idle h

private theorem jobs_snoc (h : List (Ev × Out)) (e : Ev) (o : Out) : jobs (h ++ [(e, o)]) = jobs h ++ (match e with
    | .push (some a) => [a]
    | _ => []) := by
  simp only [jobs, List.filterMap_append]
  rcases e with (_ | a) | _ | _ <;> simp

private theorem out_snoc (h : List (Ev × Out)) (e : Ev) (o : Out) : out (h ++ [(e, o)]) = out h ++ (handed o).toList := by
  simp only [out, List.filterMap_append]
  cases hh : handed o <;> simp [hh]

private theorem idle_snoc (h : List (Ev × Out)) (e : Ev) (o : Out) : idle (h ++ [(e, o)]) = (match e with
    | .setBusy b => !b
    | _ => idle h && (handed o).isNone) := by
  simp only [idle, List.foldl_append, List.foldl_cons, List.foldl_nil]
  cases e <;> rfl

/-- Every step from a good state without a handler that calls back. -/
private theorem step_ok {h : List (Ev × Out)} {q : W} (g : Good h q) (e : Ev) (hn : e ≠ .push none) (hc : e ≠ .round true) :
    ∃ q' o, step q e = some (q', o) ∧ Good (h ++ [(e, o)]) q' ∧
      (∀ a, handed o = some a → idle h = true ∧ jobs (h ++ [(e, o)]) = out h ++ a :: (jobs (h ++ [(e, o)])).drop ((out h).length + 1)) ∧
      (∀ a, e = .push (some a) → idle h = true → jobs h = out h → o = .given a) ∧
      (∀ a w, e = .round false → idle h = true → jobs h = out h ++ a :: w → o = .handled a) := by
  obtain ⟨w, v, hj, hb⟩ := g
  cases e with
  | push o =>
    cases o with
    | none => exact absurd rfl hn
    | some a =>
      by_cases hd : q.busy = false ∧ w = []
      · obtain ⟨h1, rfl⟩ := hd
        have hi : idle h = true := by rw [h1] at hb; simpa using hb.symm
        have e1 : push q (some a) = some ({ q with busy := true }, some a) := by
          unfold push
          rw [if_pos ⟨h1, by rw [v.count]; rfl⟩]
        refine ⟨{ q with busy := true }, .given a, by simp only [step, e1, Option.map_some], ⟨[], ⟨v.linked, v.tail, v.count⟩, ?_, ?_⟩, ?_, ?_,
          nofun⟩
        · rw [jobs_snoc, out_snoc, hj]; simp [handed]
        · rw [idle_snoc]; simp [handed]
        · intro b hb
          cases hb
          refine ⟨hi, ?_⟩
          rw [jobs_snoc, hj]
          simp
        · intro b hb _ _
          cases hb; rfl
      · obtain ⟨q', e1, v', hb'⟩ := push_queued v a hd
        refine ⟨q', .nothing, by simp only [step, e1, Option.map_some], ⟨w ++ [a], v', ?_, ?_⟩, nofun, ?_, nofun⟩
        · rw [jobs_snoc, out_snoc, hj]; simp [handed]
        · rw [idle_snoc, hb', hb]; simp [handed]
        · intro b _ hi hjj
          rw [hj] at hjj
          refine absurd ⟨?_, ?_⟩ hd
          · rw [hb, hi]; rfl
          · simpa using hjj
  | setBusy b =>
    refine ⟨{ q with busy := b }, .nothing, rfl, ⟨w, ⟨v.linked, v.tail, v.count⟩, ?_, ?_⟩, nofun, nofun, nofun⟩
    · rw [jobs_snoc, out_snoc, hj]; simp [handed]
    · rw [idle_snoc]; simp
  | round c =>
    cases c with
    | true => exact absurd rfl hc
    | false =>
      by_cases hq : q.busy = true
      · have e1 : take q = some (q, none) := by unfold take; rw [if_pos hq]
        have hi : idle h = false := by rw [hq] at hb; simpa using hb.symm
        refine ⟨q, .nothing, by simp only [step, e1, Option.bind_some], ⟨w, v, ?_, ?_⟩, nofun, nofun, ?_⟩
        · rw [jobs_snoc, out_snoc, hj]; simp [handed]
        · rw [idle_snoc, hb]; simp [handed]
        · intro a w _ h1; rw [hi] at h1; cases h1
      · have hq : q.busy = false := by simpa using hq
        have hi : idle h = true := by rw [hq] at hb; simpa using hb.symm
        cases w with
        | nil =>
          have e1 : take q = some (q, none) := by
            unfold take
            rw [hq, if_neg (by simp), pop_nil v]
            rfl
          refine ⟨q, .nothing, by simp only [step, e1, Option.bind_some], ⟨[], v, ?_, ?_⟩, nofun, nofun, ?_⟩
          · rw [jobs_snoc, out_snoc, hj]; simp [handed]
          · rw [idle_snoc, hb]; simp [handed]
          · intro a w _ _ h2
            rw [hj] at h2
            simp at h2
        | cons a w =>
          obtain ⟨q', e1, v', hb'⟩ := pop_cons v
          have e2 : take q = some ({ q' with busy := true }, some a) := by
            unfold take
            rw [hq, if_neg (by simp), e1]
            rfl
          refine ⟨{ q' with busy := true }, .handled a, by simp only [step, e2, Option.bind_some, Bool.false_eq_true, if_false],
            ⟨w, ⟨v'.linked, v'.tail, v'.count⟩, ?_, ?_⟩, ?_, nofun, ?_⟩
          · rw [jobs_snoc, out_snoc, hj]; simp [handed]
          · rw [idle_snoc]; simp [handed]
          · intro b hb
            cases hb
            refine ⟨hi, ?_⟩
            rw [jobs_snoc, hj]
            simp
          · intro b w' _ _ h2
            rw [hj] at h2
            simp only [List.append_cancel_left_eq, List.cons.injEq] at h2
            rw [h2.1]

/-- No null object is put in and no handler calls the queue. -/
def Proper (h : List (Ev × Out)) : Prop := ∀ x ∈ h, x.1 ≠ .push none ∧ x.1 ≠ .round true

private theorem hist_ok {h : List (Ev × Out)} {q : W} (H : Hist h q) (hp : Proper h) : Good h q := by
  induction H with
  | nil => exact ⟨[], inv_create, rfl, rfl⟩
  | @snoc h q e q' o H hs ih =>
    have g := ih (fun x hx => hp x (List.mem_append_left _ hx))
    obtain ⟨h1, h2⟩ := hp (e, o) (by simp)
    obtain ⟨q1, o1, e1, g1, -⟩ := step_ok g e h1 h2
    rw [e1] at hs
    cases hs
    exact g1

/-! ### Theorems -/

/-- C36: whatever the threads do, nothing fails or blocks, as long as handlers leave the queue alone. -/
theorem C36_defined_partial {h : List (Ev × Out)} {q : W} (H : Hist h q) (hp : Proper h) (e : Ev) (h1 : e ≠ .push none)
    (h2 : e ≠ .round true) : (step q e).isSome := by
  obtain ⟨q1, o1, e1, -⟩ := step_ok (hist_ok H hp) e h1 h2
  rw [e1]; rfl

/-- C36: one job at a time.  A job is handed out only when nobody works. -/
theorem C36_one_at_a_time_partial {h : List (Ev × Out)} {q : W} (H : Hist h q) (hp : Proper h) (e : Ev) (h1 : e ≠ .push none)
    (h2 : e ≠ .round true) {q' : W} {o : Out} (hs : step q e = some (q', o)) (ho : o ≠ .nothing) : idle h = true := by
  obtain ⟨q1, o1, e1, -, f, -⟩ := step_ok (hist_ok H hp) e h1 h2
  rw [e1] at hs
  cases hs
  cases o with
  | nothing => exact absurd rfl ho
  | given a => exact (f a rfl).1
  | handled a => exact (f a rfl).1

/-- C36: the jobs handed out, followed by others, are the jobs put in: none is lost, repeated or overtaken. -/
theorem C36_order_partial {h : List (Ev × Out)} {q : W} (H : Hist h q) (hp : Proper h) : ∃ w, jobs h = out h ++ w := by
  obtain ⟨w, -, hj, -⟩ := hist_ok H hp
  exact ⟨w, hj⟩

/-- C36: when nobody works and nothing waits, the caller gets the job at once. -/
theorem C36_direct_partial {h : List (Ev × Out)} {q : W} (H : Hist h q) (hp : Proper h) (hi : idle h = true)
    (hw : jobs h = out h) (a : Nat) : ∃ q', step q (.push (some a)) = some (q', .given a) := by
  obtain ⟨q1, o1, e1, -, -, f, -⟩ := step_ok (hist_ok H hp) (.push (some a)) nofun nofun
  exact ⟨q1, by rw [e1, f a rfl hi hw]⟩

/-- C36: when nobody works, the next round of the reader thread handles the first job that waits. -/
theorem C36_next_partial {h : List (Ev × Out)} {q : W} (H : Hist h q) (hp : Proper h) (hi : idle h = true) {a : Nat}
    {w : List Nat} (hw : jobs h = out h ++ a :: w) : ∃ q', step q (.round false) = some (q', .handled a) := by
  obtain ⟨q1, o1, e1, -, -, -, f⟩ := step_ok (hist_ok H hp) (.round false) nofun nofun
  exact ⟨q1, by rw [e1, f a w rfl hi hw]⟩

def run (q : W) : List Ev → Option (W × List (Ev × Out))
  | [] => some (q, [])
  | e :: es => (step q e).bind fun (q, o) => (run q es).map fun (q, h) => (q, (e, o) :: h)

private theorem run_hist {es : List Ev} : ∀ {h h' : List (Ev × Out)} {q q' : W}, Hist h q →
    run q es = some (q', h') → Hist (h ++ h') q' := by
  induction es with
  | nil =>
    intro h h' s s' H e
    simp only [run, Option.some.injEq, Prod.mk.injEq] at e
    rw [← e.1, ← e.2, List.append_nil]; exact H
  | cons a es ih =>
    intro h h' s s' H e
    rw [run] at e
    cases hs : step s a with
    | none => rw [hs] at e; cases e
    | some x =>
      obtain ⟨s1, o⟩ := x
      rw [hs] at e
      simp only [Option.bind_some, Option.map_eq_some_iff, Prod.mk.injEq, Prod.exists] at e
      obtain ⟨s2, h2, e2, rfl, rfl⟩ := e
      have := ih (.snoc H hs) e2
      simpa using this

/-- The theorems apply to this schedule: job 2 waits for job 1, and job 3 for job 2. -/
example : ∃ q h, Hist h q ∧ Proper h ∧ h.map (·.2) = [.given 1, .nothing, .nothing, .nothing, .nothing, .handled 2, .nothing] ∧
    idle h = false ∧ jobs h = out h ++ [3] := by
  have h1 : (run create [.push (some 1), .push (some 2), .round false, .setBusy false, .push (some 3), .round false,
      .round false]).isSome := by decide +kernel
  refine ⟨_, _, run_hist .nil (Option.some_get h1).symm, ?_, by decide +kernel⟩
  unfold Proper
  decide +kernel

/-- C36 is violated when the handler says it is done, or puts in a further job: its thread waits for itself. -/
theorem C36_handler_violated : ∃ q h, Hist h q ∧ Proper h ∧ step q (.round true) = none := by
  have h1 : (run create [.push (some 1), .push (some 2), .setBusy false]).isSome := by decide +kernel
  refine ⟨_, _, run_hist .nil (Option.some_get h1).symm, ?_, by decide +kernel⟩
  unfold Proper
  decide +kernel

/-- C36 is violated by a null job: nobody gets it, but the queue counts as busy, and job 1 is never handed out. -/
theorem C36_null_violated : ∃ q h, Hist h q ∧ jobs h = [1] ∧ idle h = true ∧ step q (.round false) = some (q, .nothing) := by
  have h1 : (run create [.push none, .push (some 1)]).isSome := by decide +kernel
  exact ⟨_, _, run_hist .nil (Option.some_get h1).symm, by decide +kernel⟩

end Sis.Wq
