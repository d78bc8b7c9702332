/-
Model of the lock for several readers or one writer, `s_sis_mutex_rw` (src/core/sis_thread.c:45-145), and of the pool
of wait handles (src/core/sis_thread.c:4-43).

Every call of the lock does its work under an inner mutex, so a call is one step; `sis_mutex_rw_lock_r` and
`sis_mutex_rw_lock_w` repeat the step until it succeeds, and each attempt is one step here.  A failing `assert` is the
outcome `none`.  The counters are unbounded here; in the code they are 32 bit, so 2^31 locks at once are left out.
-/
namespace Sis.Rw

/-- `s_sis_mutex_rw` (src/core/sis_thread.h:17-22) without the inner mutex. -/
structure M where
  tryW : Bool
  reads : Int
  writes : Int
deriving DecidableEq, Repr

/-- `sis_mutex_rw_create` (src/core/sis_thread.c:48-55). -/
def create : M := ⟨false, 0, 0⟩

/-- The calls of src/core/sis_thread.c:61-145. -/
inductive Ev
  /-- one attempt of `sis_mutex_rw_lock_r` -/
  | lockR
  /-- `sis_mutex_rw_try_lock_r` -/
  | tryR
  | unlockR
  /-- one attempt of `sis_mutex_rw_lock_w` -/
  | lockW
  /-- `sis_mutex_rw_try_lock_w` -/
  | tryW
  | unlockW
deriving DecidableEq, Repr

/-- An attempt to read (src/core/sis_thread.c:61-78, 80-93); whether the caller has the lock. -/
def readAttempt (m : M) : Option (M × Bool) :=
  if m.tryW || m.writes > 0 then some (m, false)
  else if m.reads ≥ 0 then some ({ m with reads := m.reads + 1 }, true) else none

/-- An attempt to write (src/core/sis_thread.c:103-117, 118-136). -/
def writeAttempt (m : M) : Option (M × Bool) :=
  if m.reads > 0 || m.writes > 0 then some ({ m with tryW := true }, false)
  else if m.writes ≥ 0 then some (⟨false, m.reads, m.writes + 1⟩, true) else none

/-- One call, or one attempt of a blocking call (src/core/sis_thread.c:61-145). -/
def step (m : M) : Ev → Option (M × Bool)
  | .lockR => readAttempt m
  | .tryR => readAttempt m
  -- src/core/sis_thread.c:95-102
  | .unlockR => if m.reads - 1 ≥ 0 then some ({ m with reads := m.reads - 1 }, true) else none
  | .lockW => writeAttempt m
  | .tryW => writeAttempt m
  -- src/core/sis_thread.c:138-145
  | .unlockW => if m.writes - 1 ≥ 0 then some ({ m with writes := m.writes - 1 }, true) else none

end Sis.Rw

namespace Sis.Pool

/-- `SIS_MAX_WAIT` (src/core/sis_thread.c:4). -/
def maxWait : Nat := 0xFFFF

/-- `__sys_wait_pool` (src/core/sis_thread.c:6): which handles are in use.  The first call of `sis_wait_malloc` clears
it (src/core/sis_thread.c:10-18), which is the initial state here. -/
def create : List Bool := List.replicate maxWait false

/-- The loop of `sis_wait_malloc` (src/core/sis_thread.c:19-26): the first handle that is not in use. -/
def find (p : List Bool) : Option Nat := p.findIdx? fun u => !u

/-- `sis_thread_wait_init` (src/os/linux/os_thread.c:385-389). -/
def mark (p : List Bool) (i : Nat) : List Bool := p.set i true

/-- `sis_wait_malloc` (src/core/sis_thread.c:8-28) without another thread in between; `none` is -1. -/
def malloc (p : List Bool) : List Bool × Option Nat := match find p with
  | some i => (mark p i, some i)
  | none => (p, none)

/-- `sis_wait_free` (src/core/sis_thread.c:37-43). -/
def free (p : List Bool) (i : Nat) : List Bool := p.set i false

/-- `sis_wait_malloc` of two threads at once, each in two steps: the search and the marking of what it found (src/core/sis_thread.c:8-28). -/
inductive TEv
  | look (t : Bool)
  | take (t : Bool)
deriving DecidableEq, Repr

/-- The pool, and what each thread has found and not yet marked (src/core/sis_thread.c:8-28). -/
structure Two where
  pool : List Bool
  found : Bool → Option Nat

/-- One step of a thread; the handle it returns, if the step ends the call (src/core/sis_thread.c:8-28). -/
def tstep (s : Two) : TEv → Two × Option (Bool × Nat)
  | .look t => (⟨s.pool, fun u => if u = t then find s.pool else s.found u⟩, none)
  | .take t => match s.found t with
    | some i => (⟨mark s.pool i, fun u => if u = t then none else s.found u⟩, some (t, i))
    | none => (s, none)

/-- The handles two threads got in a schedule (src/core/sis_thread.c:8-28). -/
def trun (s : Two) : List TEv → List (Bool × Nat)
  | [] => []
  | e :: es => (tstep s e).2.toList ++ trun (tstep s e).1 es

end Sis.Pool
