import Verif.Base.Bytes
/-
Model of the group of threads that run tasks by name, `s_sis_mul_worker_cxt` (src/core/sis_mul_worker.c:6-140).

Every thread has a list of tasks.  A caller adds a task at the end of the list of the thread that belongs to the name of
the task; the thread runs the first task and then takes it off.  Adding, reading the first task and taking it off are done
under the lock of the list and are one step each; the lock is given back at once, so it blocks nobody for good.
`sis_mul_worker_cxt_wait` reads the numbers of tasks without the locks, one list after another.

A task is a number, with the name or the number of the thread it was added with.  A task that cannot be read, an `int` that
overflows and the use of the group after it was freed is the outcome `none`.

Not modelled: the waiting times, and that a notice may be missed: a thread may wake up at any time.
-/
namespace Sis.Mw

/-- What a task is added with: the name of `sis_mul_worker_cxt_add_task` or the number of
`sis_mul_worker_cxt_add_task_i` (src/core/sis_mul_worker.c:95-121). -/
inductive Key
  | name (s : List UInt8)
  | index (i : Int)
deriving DecidableEq, Repr

/-- `s_sis_worker_task` (src/core/sis_mul_worker.h:27-34). -/
structure Task where
  key : Key
  obj : Nat
deriving DecidableEq, Repr

/-- Where a thread is (src/core/sis_mul_worker.c:6-36): before the tests of its state, before the test of the number of
tasks, with a task read, in the task, before taking it off. -/
inductive Pc
  | top
  | check
  | got (t : Task)
  | busy (t : Task)
  | del
  | asleep
  | stopped
deriving DecidableEq, Repr

/-- `SIS_WAIT_STATUS_*` (src/core/sis_thread.h:38-40). -/
inductive Status
  | none
  | work
  | exit
deriving DecidableEq, Repr

/-- `s_sis_mul_worker_thread` (src/core/sis_mul_worker.h:36-41). -/
structure Thr where
  tasks : List Task := []
  status : Status := .work
  pc : Pc := .top
deriving DecidableEq, Repr

/-- Where a call of `sis_mul_worker_cxt_wait` is (src/core/sis_mul_worker.c:123-140): before looking at a thread, or done. -/
inductive Look
  | at_ (i : Nat)
  | done
deriving DecidableEq, Repr

/-- Where the call of `sis_mul_worker_cxt_destroy` is (src/core/sis_mul_worker.c:82-94): not made, before a thread, told
that thread to end, done. -/
inductive Dst
  | none
  | at_ (i : Nat)
  | join (i : Nat)
  | gone
deriving DecidableEq, Repr

/-- `s_sis_mul_worker_cxt` (src/core/sis_mul_worker.h:43-47), with the places of the callers. -/
structure M where
  wnums : Nat
  thrs : List (Option Thr)
  waits : List Look := []
  dst : Dst := .none
deriving DecidableEq, Repr

/-- `sis_between` (src/core/sis_math.h:36). -/
def between (a lo hi : Int) : Int := if a < lo then lo else if a > hi then hi else a

/-- `sis_mul_worker_cxt_create` (src/core/sis_mul_worker.c:69-80) with `sis_mul_worker_thread_create`
(src/core/sis_mul_worker.c:38-51): `fails i` says that the thread `i` cannot be started. -/
def create (nums : Int) (fails : Nat → Bool) : M :=
  let n := (between nums 1 64).toNat
  { wnums := n, thrs := (List.range n).map fun i => if fails i then none else some {} }

/-- `sis_get_hash` (src/core/sis_math.h:271-284) of the bytes of a name up to its end, for at least one thread: the sum
of the remainders; the sum of `int` must not overflow. -/
def hash (s : List UInt8) (n : Nat) : Option Nat :=
  let sum := ((s.takeWhile (· ≠ 0)).map fun b => b.toNat % n).sum
  if sum < 2 ^ 31 then some (sum % n) else none

/-- The thread a task is given to (src/core/sis_mul_worker.c:97, 112). -/
def place (n : Nat) : Key → Option Nat
  | .name s => hash s n
  | .index i => some (between i 0 ((n : Int) - 1)).toNat

/-- The steps of the callers and of the threads (src/core/sis_mul_worker.c:6-140). -/
inductive Ev
  | add (t : Task)
  | wait
  | look (i : Nat)
  | work (i : Nat)
  | destroy
deriving DecidableEq, Repr

/-- What is seen of them (src/core/sis_mul_worker.c:6-140): a task was taken in or refused, begins, ends, a call of
`sis_mul_worker_cxt_wait` returns, tasks are dropped, `sis_mul_worker_cxt_destroy` returns. -/
inductive Out
  | unit
  | taken
  | refused
  | began (t : Task)
  | ended (t : Task)
  | returned (i : Nat)
  | dropped (ts : List Task)
  | destroyed
deriving DecidableEq, Repr

/-- `sis_mul_worker_cxt_add_task` (src/core/sis_mul_worker.c:95-108), `sis_mul_worker_cxt_add_task_i`
(src/core/sis_mul_worker.c:109-121) and `sis_mul_worker_thread_add_task` (src/core/sis_mul_worker.c:59-67).  A task for a
thread that could not be started is only noted in the log. -/
def add (s : M) (t : Task) : Option (M × Out) :=
  (place s.wnums t.key).bind fun i =>
  match s.thrs[i]? with
  | none => none
  | some none => some (s, .refused)
  | some (some w) => some ({ s with thrs := s.thrs.set i (some { w with tasks := w.tasks ++ [t] }) }, .taken)

/-- One look of `sis_mul_worker_cxt_wait` (src/core/sis_mul_worker.c:123-140): a thread with tasks begins the looks anew. -/
def look (s : M) : Look → Look
  | .at_ i => match s.thrs[i]? with
    | none => .done
    | some none => .at_ (i + 1)
    | some (some w) => if w.tasks.length > 0 then .at_ 0 else .at_ (i + 1)
  | .done => .done

/-- One step of `_thread_mul_worker` (src/core/sis_mul_worker.c:6-36). -/
def work (w : Thr) : Option (Thr × Out) :=
  match w.pc with
  | .top => match w.status with
    | .work => some ({ w with pc := .check }, .unit)
    | _ => some ({ w with pc := .stopped, status := .none }, .unit)
  | .check =>
    if w.tasks.length > 0 then match w.tasks with
      | t :: _ => some ({ w with pc := .got t }, .unit)
      | [] => none
    else some ({ w with pc := .asleep }, .unit)
  | .got t => some ({ w with pc := .busy t }, .began t)
  | .busy t => some ({ w with pc := .del }, .ended t)
  | .del => some ({ w with tasks := w.tasks.tail, pc := .check }, .unit)
  | .asleep => some ({ w with pc := .top }, .unit)
  | .stopped => some (w, .unit)

/-- One step of `sis_mul_worker_cxt_destroy` (src/core/sis_mul_worker.c:82-94) with `sis_mul_worker_thread_destroy`
(src/core/sis_mul_worker.c:52-58) and `sis_wait_thread_destroy` (src/core/sis_thread.c:159-173). -/
def destroy (s : M) : Option (M × Out) :=
  match s.dst with
  | .none => some ({ s with dst := .at_ 0 }, .unit)
  | .at_ i => match s.thrs[i]? with
    | none => some ({ s with dst := .gone }, .destroyed)
    | some none => some ({ s with dst := .at_ (i + 1) }, .unit)
    | some (some w) =>
      some ({ s with thrs := s.thrs.set i (some { w with status := if w.status = .work then .exit else w.status }),
                     dst := .join i }, .unit)
  | .join i => match s.thrs[i]? with
    | some (some w) => some ({ s with thrs := s.thrs.set i none, dst := .at_ (i + 1) }, .dropped w.tasks)
    | _ => none
  | .gone => none

/-- Whether a step can be made (src/core/sis_mul_worker.c:6-140): callers do not use the group once it is being
destroyed, the other thread waits for the end of a thread (src/core/sis_thread.c:164-169). -/
def enabled (s : M) : Ev → Bool
  | .add _ => s.dst == .none
  | .wait => s.dst == .none
  | .look i => s.dst == .none && (match s.waits[i]? with
    | some (.at_ _) => true
    | _ => false)
  | .work i => match s.thrs[i]? with
    | some (some w) => w.pc != .stopped
    | _ => false
  | .destroy => match s.dst with
    | .join i => match s.thrs[i]? with
      | some (some w) => w.status == .none
      | _ => true
    | .gone => false
    | _ => true

/-- One step (src/core/sis_mul_worker.c:6-140). -/
def step (s : M) : Ev → Option (M × Out)
  | .add t => add s t
  | .wait => some ({ s with waits := s.waits ++ [.at_ 0] }, .unit)
  | .look i => match s.waits[i]? with
    | some l =>
      let r := look s l
      some ({ s with waits := s.waits.set i r }, if r = .done then .returned i else .unit)
    | none => some (s, .unit)
  | .work i => match s.thrs[i]? with
    | some (some w) => (work w).map fun (w, o) => ({ s with thrs := s.thrs.set i (some w) }, o)
    | _ => none
  | .destroy => destroy s

end Sis.Mw
