/-
Model of the count of references to a shared object, `s_sis_object` (src/core/sis_obj.c:6-78), as several threads use it.

The steps are the accesses to the object: `sis_object_incr` reads the count and then adds one to it in one indivisible
step; `sis_object_decr` reads the count, exchanges it if it is still the same, reads it again if not, and frees the
object if it exchanged a one.  The use of the object after it was freed is the outcome `none`.

How threads use the calls: a thread holds a number of references; it calls either of them only when it holds one, and
`sis_object_decr` takes one from it at the start of the call.  A thread can hand a reference over to another.
-/
namespace Sis.Refs

/-- `SIS_OBJECT_MAX_REFS` (src/core/sis_obj.h:11). -/
def maxRefs : Nat := 0xFFFFFFFF

/-- Where a thread is in one of the calls (src/core/sis_obj.c:6-79). -/
inductive Pc
  | idle
  /-- in `sis_object_incr`, after the comparison (src/core/sis_obj.c:18) -/
  | checked
  /-- in `sis_object_decr`, after reading `r` (src/core/sis_obj.c:38-39, 42-43) -/
  | read (r : Nat)
  /-- in `sis_object_decr`, after a failed exchange (src/core/sis_obj.c:40) -/
  | again
  /-- in `sis_object_decr`, after exchanging a one (src/core/sis_obj.c:46) -/
  | freeing
deriving DecidableEq, Repr

/-- A thread: where it is and the references it holds (src/core/sis_obj.c:16-79). -/
structure Thr where
  held : Nat
  pc : Pc
deriving DecidableEq, Repr

/-- `s_sis_object` (src/core/sis_obj.h:23-30); `ptr` is whether the pointer in it is not null, `live` is false once the
object was freed. -/
structure S where
  refs : Nat
  ptr : Bool
  live : Bool
  thr : List Thr
deriving DecidableEq, Repr

/-- `sis_object_create` (src/core/sis_obj.c:6-13), called by the first of the threads. -/
def create (ptr : Bool) (others : Nat) : S := ⟨1, ptr, true, ⟨1, .idle⟩ :: List.replicate others ⟨0, .idle⟩⟩

/-- The steps of the threads (src/core/sis_obj.c:6-79). -/
inductive Ev
  /-- `sis_object_incr`, up to the comparison -/
  | incr (t : Nat)
  | add (t : Nat)
  /-- `sis_object_decr`, up to the first read -/
  | decr (t : Nat)
  | cas (t : Nat)
  | reread (t : Nat)
  | free (t : Nat)
  /-- thread `t` hands one of its references over to thread `u` -/
  | give (t u : Nat)
deriving DecidableEq, Repr

/-- What is seen of them (src/core/sis_obj.c:6-79). -/
inductive Out
  | unit
  /-- `sis_object_incr` returned the object -/
  | granted
  /-- `sis_object_incr` returned null -/
  | refused
  /-- `sis_object_decr` let go of the reference -/
  | released
  /-- the object was freed -/
  | freed
deriving DecidableEq, Repr

/-- Whether the step is the next of its thread, a call being made by a thread that holds a reference (src/core/sis_obj.c:16-79). -/
def enabled (s : S) : Ev → Bool
  | .incr t => s.thr[t]?.any fun x => x.pc == .idle && x.held != 0
  | .add t => s.thr[t]?.any fun x => x.pc == .checked
  | .decr t => s.thr[t]?.any fun x => x.pc == .idle && x.held != 0
  | .cas t => s.thr[t]?.any fun x => match x.pc with
    | .read _ => true
    | _ => false
  | .reread t => s.thr[t]?.any fun x => x.pc == .again
  | .free t => s.thr[t]?.any fun x => x.pc == .freeing
  | .give t u => t != u && (s.thr[t]?.any fun x => x.pc == .idle && x.held != 0) && (s.thr[u]?.any fun x => x.pc == .idle)

/-- A thread changed (src/core/sis_obj.c:16-79). -/
def set (s : S) (t : Nat) (x : Thr) : S := { s with thr := s.thr.set t x }

/-- One step of a thread; `none` is the use of the freed object (src/core/sis_obj.c:16-79). -/
def step (s : S) : Ev → Option (S × Out)
  -- src/core/sis_obj.c:18
  | .incr t => s.thr[t]?.bind fun x => if !s.live then none
    else if s.refs = maxRefs then some (s, .refused) else some (set s t { x with pc := .checked }, .unit)
  -- src/core/sis_obj.c:23, an unsigned int
  | .add t => s.thr[t]?.bind fun x => if !s.live then none
    else some (set { s with refs := (s.refs + 1) % 2 ^ 32 } t ⟨x.held + 1, .idle⟩, .granted)
  -- src/core/sis_obj.c:33-39
  | .decr t => s.thr[t]?.bind fun x => if !s.live then none
    else if !s.ptr then some (set s t ⟨x.held - 1, .idle⟩, .released)
    else some (set s t ⟨x.held - 1, .read s.refs⟩, .unit)
  -- src/core/sis_obj.c:40, 46
  | .cas t => s.thr[t]?.bind fun x => match x.pc with
    | .read r => if !s.live then none
      else if s.refs = r then
        some (set { s with refs := (r + (2 ^ 32 - 1)) % 2 ^ 32 } t { x with pc := if r = 1 then .freeing else .idle }, .released)
      else some (set s t { x with pc := .again }, .unit)
    | _ => some (s, .unit)
  -- src/core/sis_obj.c:42-43
  | .reread t => s.thr[t]?.bind fun x => if !s.live then none else some (set s t { x with pc := .read s.refs }, .unit)
  -- src/core/sis_obj.c:51-69
  | .free t => s.thr[t]?.bind fun x => if !s.live then none else some (set { s with live := false } t { x with pc := .idle }, .freed)
  | .give t u => s.thr[t]?.bind fun x => s.thr[u]?.bind fun y =>
    some (set (set s t { x with held := x.held - 1 }) u { y with held := y.held + 1 }, .unit)

end Sis.Refs
