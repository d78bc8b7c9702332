import Verif.Sync.Tasks
/-
What a user of the list of tasks with a thread of its own sees of a schedule.
-/
namespace Sis.Wt

/-- A schedule of steps with what was seen of each, from the making of the list on. -/
inductive Hist (rf : Bool) : List (Ev × Out) → W → Prop
  | nil : Hist rf [] create
  | snoc {h : List (Ev × Out)} {s s' : W} {e : Ev} {o : Out} : Hist rf h s → enabled s e = true →
      step rf s e = some (s', o) → Hist rf (h ++ [(e, o)]) s'

/-- The task a step adds. -/
def adds : Ev → List Nat
  | .add x => [x]
  | _ => []

/-- The task that begins. -/
def begins : Out → List Nat
  | .began x => [x]
  | _ => []

/-- The task that ends. -/
def ends : Out → List Nat
  | .ended x => [x]
  | _ => []

/-- The tasks that were added, in order. -/
def added (h : List (Ev × Out)) : List Nat := h.flatMap fun x => adds x.1

/-- The tasks that were begun, in order. -/
def began (h : List (Ev × Out)) : List Nat := h.flatMap fun x => begins x.2

/-- The tasks that ended, in order. -/
def ended (h : List (Ev × Out)) : List Nat := h.flatMap fun x => ends x.2

/-- Nothing happens before the list is there, and it is not destroyed. -/
def Plain (h : List (Ev × Out)) : Prop := (∀ x h', h = x :: h' → x.1 = .ready) ∧ ∀ x ∈ h, x.1 ≠ .destroy

/-- The calls of `sis_worker_tasks_wait`; the calls are numbered from 0 in the order they are made. -/
def waitings (h : List (Ev × Out)) : Nat := (h.filter fun x => x.1 = .wait).length

/-- The steps of a schedule, one after another. -/
def run (rf : Bool) (s : W) : List Ev → Option (W × List (Ev × Out))
  | [] => some (s, [])
  | e :: es => if enabled s e then
      (step rf s e).bind fun (s, o) => (run rf s es).map fun (s, h) => (s, (e, o) :: h)
    else none

end Sis.Wt
