import Verif.Base.Bytes
/-
Model of the list of tasks with a thread of its own, `s_sis_worker_tasks` (src/core/sis_mul_worker.c:145-301).

Callers add tasks to the write list under the lock.  The thread takes the whole write list over as its read list, runs
the tasks one after another and counts them off.  `sis_worker_tasks_wait` reads both counts without the lock, so the two
writes of the thread to them, `rnums = wnums` and `wnums = 0`, are two steps, and so are the two reads.  In which order
the reads of `rnums + wnums` happen is left open by C: that order is the parameter `rf` ("`rnums` first").

The tasks are a heap: the list of all tasks ever made, in the order of their addresses, with `none` for one that was
freed.  Using a freed task, or the lock before it was made or after it was destroyed, or the list after it was freed, is
the outcome `none`.  A task is a number.

Not modelled: the value of `sis_worker_tasks_add_task`, `rtail`, which is only written, `isstop`, which is not used, the
waiting times, and that a notice may be missed: the thread may wake up at any time.  A thread that cannot be started is
not modelled either.  All other steps under the lock are one step, as nobody sees what is between them.
-/
namespace Sis.Wt

/-- `s_sis_worker_task` (src/core/sis_mul_worker.h:27-34): the work is a number. -/
structure Node where
  obj : Nat
  next : Option Nat := none
deriving DecidableEq, Repr

/-- Where the thread is (src/core/sis_mul_worker.c:166-199). -/
inductive Pc
  | top
  | read
  | swap
  | node (next : Option Nat)
  | busy (a : Nat) (next : Option Nat)
  | asleep
  | stopped
deriving DecidableEq, Repr

/-- Where a call of `sis_worker_tasks_wait` is (src/core/sis_mul_worker.c:290-301). -/
inductive Look
  | first
  | second (v : Int)
  | done
deriving DecidableEq, Repr

/-- Where the call of `sis_worker_tasks_destroy` is (src/core/sis_mul_worker.c:214-250). -/
inductive Dst
  | none
  | look (l : Look)
  | exit
  | join
  | gone
deriving DecidableEq, Repr

/-- `SIS_WAIT_STATUS_*` (src/core/sis_thread.h:38-40). -/
inductive Status
  | none
  | work
  | exit
deriving DecidableEq, Repr

/-- `s_sis_worker_tasks` (src/core/sis_mul_worker.h:69-83), with the places of the callers.  `ready`: the lock was made.
`held`: the thread has it. -/
structure W where
  heap : List (Option Node) := []
  ready : Bool := false
  held : Bool := false
  status : Status := .work
  wnums : Int := 0
  rnums : Int := 0
  whead : Option Nat := .none
  wtail : Option Nat := .none
  rhead : Option Nat := .none
  pc : Pc := .top
  waits : List Look := []
  dst : Dst := .none
deriving DecidableEq, Repr

/-- `sis_worker_tasks_create` (src/core/sis_mul_worker.c:201-213) up to the return of `sis_wait_thread_open`
(src/core/sis_thread.c:189-201): the thread works, the lock is not made yet. -/
def create : W := {}

/-- Reading a task (src/core/sis_mul_worker.c:145-301). -/
def load (h : List (Option Node)) (a : Nat) : Option Node := h[a]?.join

/-- Whether the lock can be used (src/core/sis_mul_worker.c:211, 247). -/
def lockOk (s : W) : Bool := s.ready && (match s.dst with
  | .exit | .join | .gone => false
  | _ => true)

/-- `sis_worker_tasks_add_task` (src/core/sis_mul_worker.c:252-282). -/
def add (s : W) (x : Nat) : Option W :=
  if !lockOk s then .none
  else
    let a := s.heap.length
    let h := s.heap ++ [some ⟨x, .none⟩]
    let s := { s with wnums := s.wnums + 1 }
    match s.whead with
    | .none => some { s with heap := h, whead := some a, wtail := some a }
    | some hd =>
      if s.whead = s.wtail then
        (load h hd).map fun n => { s with heap := h.set hd (some { n with next := some a }), wtail := some a }
      else
        s.wtail.bind fun t =>
        (load h t).map fun n => { s with heap := h.set t (some { n with next := some a }), wtail := some a }

/-- The steps of the callers and of the thread (src/core/sis_mul_worker.c:145-301). -/
inductive Ev
  | ready
  | add (x : Nat)
  | wait
  | look (i : Nat)
  | work
  | miss
  | destroy
deriving DecidableEq, Repr

/-- What is seen of them (src/core/sis_mul_worker.c:145-301): a task begins or ends, a call of
`sis_worker_tasks_wait` returns, tasks are dropped, `sis_worker_tasks_destroy` returns. -/
inductive Out
  | unit
  | began (x : Nat)
  | ended (x : Nat)
  | returned (i : Nat)
  | dropped (xs : List Nat)
  | destroyed
deriving DecidableEq, Repr

/-- One look of `sis_worker_tasks_wait` (src/core/sis_mul_worker.c:292-300). -/
def look (rf : Bool) (s : W) : Look → Look
  | .first => .second (if rf then s.rnums else s.wnums)
  | .second v => if v + (if rf then s.wnums else s.rnums) < 1 then .done else .first
  | .done => .done

/-- A loop that frees a list (src/core/sis_mul_worker.c:219-230, 232-243).  A list that does not end meets a freed task. -/
def freeAll : Nat → List (Option Node) → Option Nat → Option (List (Option Node) × List Nat)
  | _, h, .none => some (h, [])
  | 0, _, some _ => .none
  | k + 1, h, some a =>
    (load h a).bind fun n =>
    (freeAll k (h.set a .none) n.next).map fun (h, xs) => (h, n.obj :: xs)

/-- One step of `_thread_worker` (src/core/sis_mul_worker.c:166-199) with `_sis_worker_tasks_read`
(src/core/sis_mul_worker.c:145-165). -/
def work (s : W) : Option (W × Out) :=
  if s.dst = .gone then .none
  else match s.pc with
  | .top => match s.status with
    | .work => some ({ s with pc := .read }, .unit)
    | _ => some ({ s with pc := .stopped, status := .none }, .unit)
  | .read =>
    if s.rnums > 0 then some ({ s with pc := .node s.rhead }, .unit)
    else if !lockOk s then .none
    else some ({ s with held := true, rnums := s.wnums, pc := .swap }, .unit)
  | .swap =>
    some ({ s with held := false, rhead := s.whead, wnums := 0, whead := .none, wtail := .none,
                   pc := if s.rnums > 0 then .node s.whead else .asleep }, .unit)
  | .node (some a) => (load s.heap a).map fun n => ({ s with pc := .busy a n.next }, .began n.obj)
  | .node .none => some ({ s with rhead := .none, rnums := 0, pc := .read }, .unit)
  | .busy a nx =>
    (load s.heap a).map fun n => ({ s with heap := s.heap.set a .none, rnums := s.rnums - 1, pc := .node nx }, .ended n.obj)
  | .asleep => some ({ s with pc := .top }, .unit)
  | .stopped => some (s, .unit)

/-- One step of `sis_worker_tasks_destroy` (src/core/sis_mul_worker.c:214-250) with `sis_wait_thread_destroy`
(src/core/sis_thread.c:159-173). -/
def destroy (rf : Bool) (s : W) : Option (W × Out) :=
  match s.dst with
  | .none => some ({ s with dst := .look .first }, .unit)
  | .look .done =>
    (freeAll s.heap.length s.heap s.rhead).bind fun (h, xs) =>
    (freeAll h.length h s.whead).map fun (h, ys) =>
    ({ s with heap := h, dst := .exit }, .dropped (xs ++ ys))
  | .look l => some ({ s with dst := .look (look rf s l) }, .unit)
  | .exit => some ({ s with status := if s.status = .work then .exit else s.status, dst := .join }, .unit)
  | .join => some ({ s with dst := .gone }, .destroyed)
  | .gone => .none

/-- Whether a step can be made (src/core/sis_mul_worker.c:145-301): callers need the list, which they get when the
lock was made; the lock is not free while the thread has it; the thread that destroys waits for the end of the other
(src/core/sis_thread.c:164-169).  `sis_mutex_trylock` does not block the thread. -/
def enabled (s : W) : Ev → Bool
  | .ready => !s.ready
  | .add _ => s.ready && !s.held
  | .wait => s.ready
  | .look i => match s.waits[i]? with
    | some .first | some (.second _) => true
    | _ => false
  | .work => s.pc != .stopped
  | .miss => s.pc == .read && s.rnums ≤ 0
  | .destroy => s.ready && (match s.dst with
    | .look .done => !s.held
    | .join => s.status == .none
    | .gone => false
    | _ => true)

/-- One step (src/core/sis_mul_worker.c:145-301).  `miss`: the thread finds the lock taken by a caller, so it goes to
sleep (src/core/sis_mul_worker.c:151, 164, 195). -/
def step (rf : Bool) (s : W) : Ev → Option (W × Out)
  | .ready => some ({ s with ready := true }, .unit)
  | .add x => (add s x).map fun s => (s, .unit)
  | .wait => if s.dst = .gone then .none else some ({ s with waits := s.waits ++ [.first] }, .unit)
  | .look i =>
    if s.dst = .gone then .none
    else match s.waits[i]? with
      | some l =>
        let r := look rf s l
        some ({ s with waits := s.waits.set i r }, if r = .done then .returned i else .unit)
      | .none => some (s, .unit)
  | .work => work s
  | .miss => if lockOk s then some ({ s with pc := .asleep }, .unit) else .none
  | .destroy => destroy rf s

end Sis.Wt
