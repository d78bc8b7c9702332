import Verif.Sync.LockQueue
/-
Model of the queue with a reader thread, `s_sis_fast_queue` (src/core/sis_list.lock.c:272-422).

Two lists: pushers add to the write list under `wlock`, the reader thread moves that list behind the read list, under
`wlock`, and works the read list off under `rlock`.  `sis_fast_queue_clear` does the same from any other thread and
releases the objects instead of delivering them.  As the read list is worked off without `wlock`, a move by another
thread may happen at any point of that work, and the work between the single writes of a move.  So the steps are:

* a push, which holds `wlock` all the time;
* the first write of a move, `rtail->next = whead->next`, and the other writes of a move, of which only that to `rtail`
  is seen without `wlock`, and nobody reads it without;
* taking `rlock`; reading `node->next`; taking a node off.

Thread 0 is the reader thread, the others call `sis_fast_queue_clear`.  The heap of nodes is that of the lock queue.
`rnums` is only written, so it is left out, like the waiting times and the calls without data.
-/
namespace Sis.Fq
open Sis Sis.Lk

/-- Where a thread is (src/core/sis_list.lock.c:272-422). -/
inductive Pc
  | idle
  | moving
  | gate
  | loop (node : Nat)
  | have_ (node next : Nat)
deriving DecidableEq, Repr

/-- `s_sis_fast_queue` (src/core/sis_list.lock.h:61-78), with the places of the threads. -/
structure F where
  heap : Heap
  rhead : Nat
  rtail : Nat
  whead : Nat
  wtail : Nat
  wnums : Nat
  wlock : Bool
  rlock : Bool
  pcs : List Pc
deriving DecidableEq, Repr

/-- `sis_fast_queue_create` (src/core/sis_list.lock.c:351-381); `t` other threads may call `sis_fast_queue_clear`. -/
def create (t : Nat) : F := ⟨[some {}, some {}], 0, 0, 1, 1, 0, false, false, List.replicate (t + 1) .idle⟩

/-- `sis_fast_queue_push` (src/core/sis_list.lock.c:413-422). -/
def push (s : F) (o : Nat) : Option F :=
  let h := s.heap ++ [some { obj := some o }]
  let a := s.heap.length
  (load h s.wtail).bind fun t =>
  (store h s.wtail { t with next := some a }).map fun h =>
  { s with heap := h, wtail := a, wnums := s.wnums + 1 }

/-- `_fast_queue_move` (src/core/sis_list.lock.c:272-286), first write. -/
def moveA (s : F) : Option F :=
  if s.wnums < 1 then some s
  else
    (load s.heap s.whead).bind fun w =>
    (load s.heap s.rtail).bind fun r =>
    (store s.heap s.rtail { r with next := w.next }).map fun h => { s with heap := h }

/-- `_fast_queue_move` (src/core/sis_list.lock.c:272-286), the other writes. -/
def moveB (s : F) : Option F :=
  if s.wnums < 1 then some s
  else
    (load s.heap s.whead).bind fun w =>
    (store s.heap s.whead { w with next := none }).map fun h =>
    { s with heap := h, rtail := s.wtail, wtail := s.whead, wnums := 0 }

/-- The steps of the threads (src/core/sis_list.lock.c:272-422). -/
inductive Ev
  | push (o : Nat)
  | begin (i : Nat)
  | finish (i : Nat)
  | enter (i : Nat)
  | test (i : Nat)
  | take (i : Nat)
deriving DecidableEq, Repr

/-- What is seen of them (src/core/sis_list.lock.c:272-422). -/
inductive Out
  | unit
  | delivered (o : Option Nat)
  | released (o : Option Nat)
deriving DecidableEq, Repr

/-- Whether the thread is there and not blocked by a lock.  The reader thread only tries `wlock`, so it is not blocked
by it (src/core/sis_list.lock.c:302-307); `sis_fast_queue_clear` is (src/core/sis_list.lock.c:396). -/
def enabled (s : F) : Ev → Bool
  | .push _ => !s.wlock
  | .begin i => s.pcs[i]? == some .idle && (i == 0 || !s.wlock)
  | .finish i => s.pcs[i]? == some .moving
  | .enter i => s.pcs[i]? == some .gate && !s.rlock
  | .test i => match s.pcs[i]? with
    | some (.loop _) => true
    | _ => false
  | .take i => match s.pcs[i]? with
    | some (.have_ _ _) => true
    | _ => false

/-- Reading `node->next` (src/core/sis_list.lock.c:311-315, 402-404): at the end `rlock` is given back. -/
def test (s : F) (i node : Nat) : Option F :=
  (load s.heap node).map fun n =>
  match n.next with
  | none => { s with pcs := s.pcs.set i .idle, rlock := false }
  | some b => { s with pcs := s.pcs.set i (.have_ node b) }

/-- Taking the node off (src/core/sis_list.lock.c:316-324, 405-409). -/
def take (s : F) (i node b : Nat) : Option (F × Option Nat) :=
  (load s.heap b).bind fun nb =>
  (free s.heap node).map fun h =>
  ({ s with heap := h, rhead := b, pcs := s.pcs.set i (.loop b) }, nb.obj)

/-- One step of some thread; `none` is the use of a freed node (src/core/sis_list.lock.c:272-422). -/
def step (s : F) : Ev → Option (F × Out)
  | .push o => (push s o).map fun s => (s, .unit)
  | .begin i =>
    if s.wlock then some ({ s with pcs := s.pcs.set i .gate }, .unit)
    else (moveA s).map fun s => ({ s with wlock := true, pcs := s.pcs.set i .moving }, .unit)
  | .finish i => (moveB s).map fun s => ({ s with wlock := false, pcs := s.pcs.set i .gate }, .unit)
  | .enter i => some ({ s with rlock := true, pcs := s.pcs.set i (.loop s.rhead) }, .unit)
  | .test i => match s.pcs[i]? with
    | some (.loop node) => (test s i node).map fun s => (s, .unit)
    | _ => some (s, .unit)
  | .take i => match s.pcs[i]? with
    | some (.have_ node b) => (take s i node b).map fun (s, o) => (s, if i = 0 then .delivered o else .released o)
    | _ => some (s, .unit)

end Sis.Fq
