import Verif.Base.Bytes
/-
Model of the queue shared by threads, `s_sis_lock_queue` (src/core/sis_list.lock.c:7-130).

The nodes are a heap: the list of all nodes ever made, in the order of their addresses, with `none` for a node that was
freed.  Reading, writing or freeing a freed node is the outcome `none`.  Addresses are not used again.

Every function takes the lock for its whole work, so each is one step, and any schedule of any number of threads is a
sequence of steps.  `sis_lock_queue_push` makes its node before it takes the lock: no other thread knows that node, so
making it is part of the step.  An object is a number; a null object is `none`.
-/
namespace Sis.Lk
open Sis

/-- `s_sis_unlock_node` (src/core/sis_list.lock.h:23-26). -/
structure Node where
  obj : Option Nat := none
  next : Option Nat := none
deriving DecidableEq, Repr

/-- The nodes by address (src/core/sis_list.lock.h:23-26). -/
abbrev Heap := List (Option Node)

/-- Reading a node (src/core/sis_list.lock.c:7-130). -/
def load (h : Heap) (a : Nat) : Option Node := h[a]?.join

/-- Writing a node (src/core/sis_list.lock.c:7-130). -/
def store (h : Heap) (a : Nat) (n : Node) : Option Heap := (load h a).map fun _ => h.set a (some n)

/-- `sis_unlock_node_destroy` (src/core/sis_list.lock.c:18-25). -/
def free (h : Heap) (a : Nat) : Option Heap := (load h a).map fun _ => h.set a none

/-- `s_sis_lock_queue` (src/core/sis_list.lock.h:32-38). -/
structure Q where
  heap : Heap
  rhead : Nat
  rtail : Nat
  rnums : Int
deriving DecidableEq, Repr

/-- `sis_lock_queue_create` (src/core/sis_list.lock.c:34-41). -/
def create : Q := ⟨[some {}], 0, 0, 0⟩

/-- `sis_lock_queue_push` (src/core/sis_list.lock.c:103-111) with `sis_unlock_node_create` (src/core/sis_list.lock.c:7-17). -/
def push (q : Q) (o : Option Nat) : Option Q :=
  let h := q.heap ++ [some { obj := o }]
  let a := q.heap.length
  (load h q.rtail).bind fun t =>
  (store h q.rtail { t with next := some a }).map fun h =>
  { q with heap := h, rtail := a, rnums := q.rnums + 1 }

/-- `sis_lock_queue_pop` (src/core/sis_list.lock.c:113-130): the object of the second node, whose node is the new head. -/
def pop (q : Q) : Option (Q × Option Nat) :=
  (load q.heap q.rhead).bind fun hd =>
  match hd.next with
  | none => some (q, none)
  | some b =>
    (load q.heap b).bind fun nb =>
    (store q.heap b { nb with obj := none }).bind fun h =>
    (free h q.rhead).map fun h =>
    ({ q with heap := h, rhead := b, rnums := q.rnums - 1 }, nb.obj)

/-- `sis_lock_queue_clear` (src/core/sis_list.lock.c:42-54): the objects released.  The counter is the number of nodes
ever made, which no chain of nodes exceeds. -/
def clearLoop : Nat → Q → Option (Q × List (Option Nat))
  | 0, _ => none
  | k + 1, q =>
    (load q.heap q.rhead).bind fun hd =>
    match hd.next with
    | none => some (q, [])
    | some b =>
      (load q.heap b).bind fun nb =>
      (free q.heap q.rhead).bind fun h =>
      (clearLoop k { q with heap := h, rhead := b, rnums := q.rnums - 1 }).map fun (q, os) => (q, nb.obj :: os)

/-- `sis_lock_queue_clear` (src/core/sis_list.lock.c:42-54). -/
def clear (q : Q) : Option (Q × List (Option Nat)) := clearLoop q.heap.length q

/-- `sis_lock_queue_head` (src/core/sis_list.lock.c:62-69). -/
def head (q : Q) : Nat := q.rhead

/-- `sis_lock_queue_head_next` (src/core/sis_list.lock.c:75-82). -/
def headNext (q : Q) : Option (Option Nat) := (load q.heap q.rhead).map Node.next

/-- `sis_lock_queue_tail` (src/core/sis_list.lock.c:83-90). -/
def tail (q : Q) : Nat := q.rtail

/-- `sis_lock_queue_next` (src/core/sis_list.lock.c:92-99). -/
def next (q : Q) (a : Nat) : Option (Option Nat) := (load q.heap a).map Node.next

/-- The calls (src/core/sis_list.lock.c:34-130). -/
inductive Ev
  | push (o : Option Nat)
  | pop
  | clear
deriving DecidableEq, Repr

/-- What they return (src/core/sis_list.lock.c:34-130). -/
inductive Out
  | unit
  | got (o : Option Nat)
  | released (os : List (Option Nat))
deriving DecidableEq, Repr

/-- One call of some thread (src/core/sis_list.lock.c:34-130). -/
def step (q : Q) : Ev → Option (Q × Out)
  | .push o => (push q o).map fun q => (q, .unit)
  | .pop => (pop q).map fun (q, o) => (q, .got o)
  | .clear => (clear q).map fun (q, os) => (q, .released os)

end Sis.Lk
