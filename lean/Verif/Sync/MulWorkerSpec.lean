import Verif.Sync.MulWorker
/-
What a user of the group of threads that run tasks by name sees of a schedule.
-/
namespace Sis.Mw

/-- A schedule of steps with what was seen of each, from the making of the group on. -/
inductive Hist (nums : Int) (fails : Nat → Bool) : List (Ev × Out) → M → Prop
  | nil : Hist nums fails [] (create nums fails)
  | snoc {h : List (Ev × Out)} {s s' : M} {e : Ev} {o : Out} : Hist nums fails h s → enabled s e = true →
      step s e = some (s', o) → Hist nums fails (h ++ [(e, o)]) s'

/-- The task that a step adds and that is taken in. -/
def takes : Ev × Out → List Task
  | (.add t, .taken) => [t]
  | _ => []

/-- The task that begins. -/
def begins : Out → List Task
  | .began t => [t]
  | _ => []

/-- The task that ends. -/
def ends : Out → List Task
  | .ended t => [t]
  | _ => []

/-- The tasks that are dropped. -/
def drops : Out → List Task
  | .dropped ts => ts
  | _ => []

/-- The tasks that were taken in, in order. -/
def added (h : List (Ev × Out)) : List Task := h.flatMap takes

/-- The tasks that were begun, in order. -/
def began (h : List (Ev × Out)) : List Task := h.flatMap fun x => begins x.2

/-- The tasks that ended, in order. -/
def ended (h : List (Ev × Out)) : List Task := h.flatMap fun x => ends x.2

/-- The tasks that were dropped when the group was destroyed. -/
def dropped (h : List (Ev × Out)) : List Task := h.flatMap fun x => drops x.2

/-- Those of a name. -/
def of (k : Key) (ts : List Task) : List Task := ts.filter fun t => t.key = k

/-- The calls of `sis_mul_worker_cxt_wait`; the calls are numbered from 0 in the order they are made. -/
def waitings (h : List (Ev × Out)) : Nat := (h.filter fun x => x.1 = .wait).length

/-- The steps of a schedule, one after another. -/
def run (s : M) : List Ev → Option (M × List (Ev × Out))
  | [] => some (s, [])
  | e :: es => if enabled s e then
      (step s e).bind fun (s, o) => (run s es).map fun (s, h) => (s, (e, o) :: h)
    else none

end Sis.Mw
