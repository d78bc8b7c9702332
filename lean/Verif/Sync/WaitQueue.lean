import Verif.Sync.LockQueue
/-
Model of the one-job-at-a-time queue, `s_sis_wait_queue` (src/core/sis_list.lock.c:134-266).

Every function takes the mutex for its whole work, and so does a round of the reader thread, so each is one step and any
schedule is a sequence of steps.  The reader thread runs the handler of the queue with the mutex taken: a handler that
itself calls the queue waits for ever for the mutex its own thread has (`sis_mutex_init` without attributes,
src/os/linux/os_thread.h:95, makes a mutex that is not recursive).  That is the outcome `none`, and so is the use of a
freed node.  The nodes are those of the lock queue.
-/
namespace Sis.Wq
open Sis
open Sis.Lk (Node Heap load store free)

/-- `s_sis_wait_queue` (src/core/sis_list.lock.h:45-54). -/
structure W where
  heap : Heap
  head : Nat
  tail : Nat
  count : Nat
  busy : Bool
deriving DecidableEq, Repr

/-- `sis_wait_queue_create` (src/core/sis_list.lock.c:191-212). -/
def create : W := ⟨[some {}], 0, 0, 0, false⟩

/-- `sis_wait_queue_pop` (src/core/sis_list.lock.c:134-149). -/
def pop (q : W) : Option (W × Option Nat) :=
  if q.count > 0 then
    (load q.heap q.head).bind fun hd =>
    match hd.next with
    | none => some (q, none)
    | some b =>
      (load q.heap b).bind fun nb =>
      (free q.heap q.head).map fun h =>
      ({ q with heap := h, head := b, count := q.count - 1 }, nb.obj)
  else some (q, none)

/-- `sis_wait_queue_push` (src/core/sis_list.lock.c:231-251): the object if the caller is to work on it now. -/
def push (q : W) (o : Option Nat) : Option (W × Option Nat) :=
  if q.busy = false ∧ q.count = 0 then some ({ q with busy := true }, o)
  else
    let h := q.heap ++ [some { obj := o }]
    let a := q.heap.length
    (load h q.tail).bind fun t =>
    (store h q.tail { t with next := some a }).map fun h =>
    ({ q with heap := h, tail := a, count := q.count + 1 }, none)

/-- The first part of a round of the reader thread, `_thread_wait_reader` (src/core/sis_list.lock.c:157-168). -/
def take (q : W) : Option (W × Option Nat) :=
  if q.busy then some (q, none)
  else (pop q).map fun (q, o) => if o.isSome then ({ q with busy := true }, o) else (q, o)

/-- The steps of the threads (src/core/sis_list.lock.c:134-266). -/
inductive Ev
  /-- `sis_wait_queue_push` -/
  | push (o : Option Nat)
  /-- `sis_wait_queue_set_busy` -/
  | setBusy (b : Bool)
  /-- A round of the reader thread; whether the handler calls the queue. -/
  | round (calls : Bool)
deriving DecidableEq, Repr

/-- What is seen of them (src/core/sis_list.lock.c:134-266). -/
inductive Out
  /-- `sis_wait_queue_push` gave the object back: the caller works on it. -/
  | given (o : Nat)
  | nothing
  /-- The handler was called with the object. -/
  | handled (o : Nat)
deriving DecidableEq, Repr

/-- One step of some thread (src/core/sis_list.lock.c:151-190, 231-266). -/
def step (q : W) : Ev → Option (W × Out)
  | .push o => (push q o).map fun (q, r) => (q, match r with
    | none => .nothing
    | some a => .given a)
  | .setBusy b => some ({ q with busy := b }, .nothing)
  | .round calls => (take q).bind fun (q, r) => match r with
    | none => some (q, .nothing)
    | some a => if calls then none else some (q, .handled a)

end Sis.Wq
