import Verif.Sync.LockQueue
/-
Model of the message list shared by readers, `s_sis_lock_list` and `s_sis_lock_reader`
(src/core/sis_list.lock.c:429-804).

The messages are in a lock queue, whose model (heap of nodes, use of a freed node as the outcome `none`) is used as it
is.  Every reader has a thread that follows the queue with a cursor, and a watcher thread frees what is not kept.  The
steps are the stretches of these threads between two accesses to what they share:

* a reader's thread reads the head or the tail of the queue; writes its cursor; reads the node after its cursor; reads
  the object there and calls the handler; writes its cursor;
* the watcher thread, with `watchlock`, takes its first place; reads the node after its cursor; compares the cursors of
  the readers with its own, one by one, with `userslock`; frees a message, or none, and goes on;
* opening a reader starts the thread and then registers the reader with `userslock`.

Left out: notices and waiting times (a thread may make its next step at any time), the calls without data, the call
that says that the history was read, and the destruction of the list.  Objects are numbers and never null; `sz` gives
the size counted for an object (src/core/sis_obj.h:45 and the size of the object's own structure).
-/
namespace Sis.Ll
open Sis
open Sis.Lk (Node Heap load Q)

/-- `save_mode` (src/core/sis_list.lock.h:138-140). -/
inductive Save
  | all
  | none_
  | size (max : Nat)
deriving DecidableEq, Repr

/-- What the argument of `sis_lock_list_create` means (src/core/sis_list.lock.c:727-740). -/
def saveMode (maxsize : Nat) : Save :=
  if maxsize = 0 then .all
  else if maxsize = 1 then .none_
  else .size (if maxsize < 1024 then 1024 else maxsize)

/-- Where the thread of a reader is (src/core/sis_list.lock.c:429-513). -/
inductive RPc
  | boot
  | looked (a : Nat)
  | top
  | got (b : Nat)
  | done (b : Nat)
  | closed
deriving DecidableEq, Repr

/-- `s_sis_lock_reader` (src/core/sis_list.lock.h:150-166); `fromHead` is `SIS_UNLOCK_READER_HEAD`. -/
structure Rd where
  fromHead : Bool
  cursor : Option Nat := none
  pc : RPc := .boot
deriving DecidableEq, Repr

/-- Where the watcher is (src/core/sis_list.lock.c:600-715). -/
inductive WPc
  | idle
  | top
  | chk (next k : Nat)
  | pass (next : Nat)
deriving DecidableEq, Repr

/-- `s_sis_lock_list` (src/core/sis_list.lock.h:173-190); a reader is known by its place in `readers`. -/
structure L where
  q : Q
  save : Save
  users : List Nat
  readers : List Rd
  wcur : Option Nat
  wpc : WPc
  cursize : Nat
deriving DecidableEq, Repr

/-- `sis_lock_list_create` (src/core/sis_list.lock.c:721-760). -/
def create (maxsize : Nat) : L := ⟨Lk.create, saveMode maxsize, [], [], none, .idle, 0⟩

/-- The steps of the threads (src/core/sis_list.lock.c:429-804). -/
inductive Ev
  /-- `sis_lock_list_push` -/
  | push (o : Nat)
  /-- `sis_lock_reader_create` and the first part of `sis_lock_reader_open`: the thread runs -/
  | openR (fromHead : Bool)
  /-- the second part of `sis_lock_reader_open` -/
  | register (i : Nat)
  /-- `sis_lock_reader_close` -/
  | close (i : Nat)
  /-- steps of the thread of reader `i` -/
  | look (i : Nat)
  | set (i : Nat)
  | fetch (i : Nat)
  | recv (i : Nat)
  | adv (i : Nat)
  /-- steps of the watcher thread -/
  | wake
  | wtest
  | wcheck
  | wdrop
  /-- `sis_lock_list_clear` -/
  | clear
deriving DecidableEq, Repr

/-- What is seen of them (src/core/sis_list.lock.c:429-804). -/
inductive Out
  | unit
  /-- The handler of reader `i` was called with this object. -/
  | received (i o : Nat)
  /-- The list let go of this object. -/
  | freed (o : Option Nat)
deriving DecidableEq, Repr

/-- Whether the watcher looks at the readers (src/core/sis_list.lock.c:600-615). -/
def isChk : WPc → Bool
  | .chk _ _ => true
  | _ => false

/-- Where the thread of a reader is (src/core/sis_list.lock.c:429-513). -/
def pcOf (s : L) (i : Nat) : Option RPc := s.readers[i]?.map Rd.pc

/-- Whether the step is the next of its thread, and no lock holds it up (src/core/sis_list.lock.c:429-804). -/
def enabled (s : L) : Ev → Bool
  | .push _ => true
  | .openR _ => true
  | .register i => match pcOf s i with
    | none => false
    | some .closed => false
    | some _ => !s.users.contains i && !isChk s.wpc
  | .close i => s.users.contains i && !isChk s.wpc
  | .look i => pcOf s i == some .boot
  | .set i => match pcOf s i with
    | some (.looked _) => true
    | _ => false
  | .fetch i => pcOf s i == some .top
  | .recv i => match pcOf s i with
    | some (.got _) => true
    | _ => false
  | .adv i => match pcOf s i with
    | some (.done _) => true
    | _ => false
  | .wake => s.wpc == .idle && s.save != .all
  | .wtest => s.wpc == .top
  | .wcheck => isChk s.wpc
  | .wdrop => match s.wpc with
    | .pass _ => true
    | _ => false
  | .clear => s.wpc == .idle

/-- A reader changed (src/core/sis_list.lock.c:429-513). -/
def setR (s : L) (i : Nat) (r : Rd) : L := { s with readers := s.readers.set i r }

/-- A step of the thread of a reader, `_thread_reader` (src/core/sis_list.lock.c:429-513). -/
def rstep (s : L) (i : Nat) (r : Rd) : Option (L × Out) :=
  match r.pc, r.cursor with
  -- src/core/sis_list.lock.c:444-455, the read
  | .boot, _ => some (setR s i { r with pc := .looked (if r.fromHead then Lk.head s.q else Lk.tail s.q) }, .unit)
  -- src/core/sis_list.lock.c:444-455, the write
  | .looked a, _ => some (setR s i { r with cursor := some a, pc := .top }, .unit)
  -- src/core/sis_list.lock.c:458, 482
  | .top, some c => (Lk.next s.q c).map fun
    | none => (s, .unit)
    | some b => (setR s i { r with pc := .got b }, .unit)
  -- src/core/sis_list.lock.c:476-480: a node without object is passed over
  | .got b, _ => (load s.q.heap b).map fun n =>
    (setR s i { r with pc := .done b }, match n.obj with
      | some o => .received i o
      | none => .unit)
  -- src/core/sis_list.lock.c:481
  | .done b, _ => some (setR s i { r with cursor := some b, pc := .top }, .unit)
  | _, _ => some (s, .unit)

/-- The first place of the watcher (src/core/sis_list.lock.c:660-671). -/
def wake (s : L) : Option L :=
  match s.wcur with
  | some _ => some { s with wpc := .top }
  | none => (Lk.headNext s.q).map fun
    | none => s
    | some a => { s with wcur := some a, wpc := .top }

/-- The node after the watcher's (src/core/sis_list.lock.c:673-674, 707). -/
def wtest (s : L) (c : Nat) : Option L :=
  (Lk.next s.q c).map fun
  | none => { s with wpc := .idle }
  | some b => { s with wpc := .chk b 0 }

/-- One reader compared, `_unlock_check_user_cursor` (src/core/sis_list.lock.c:600-615, 676-679). -/
def wcheck (s : L) (b k : Nat) : L :=
  match s.users[k]? with
  | none => { s with wpc := .pass b }
  | some i =>
    if (s.readers[i]?.bind Rd.cursor) = s.wcur then { s with wpc := .idle }
    else { s with wpc := .chk b (k + 1) }

/-- One message freed or counted (src/core/sis_list.lock.c:684-706). -/
def wdrop (sz : Nat → Nat) (s : L) (c b : Nat) : Option (L × Out) :=
  let s' := { s with wcur := some b, wpc := .top }
  match s.save with
  | .all => some (s', .unit)
  | .none_ => (Lk.pop s.q).map fun (q, o) => ({ s' with q := q, cursize := s.cursize + (o.map sz).getD 0 }, .freed o)
  | .size max =>
    (load s.q.heap c).bind fun n =>
    let cur := s.cursize + (n.obj.map sz).getD 0
    if cur > max then
      (Lk.pop s.q).map fun (q, o) => ({ s' with q := q, cursize := cur - (o.map sz).getD 0 }, .freed o)
    else some ({ s' with cursize := cur }, .unit)

/-- `sis_lock_list_clear` (src/core/sis_list.lock.c:791-804); the write of `cursize` after the lock was given back is
part of the step. -/
def clear (s : L) : Option L :=
  match s.save with
  | .none_ => some s
  | _ => (Lk.clear s.q).map fun (q, _) => { s with q := q, wcur := none, cursize := 0 }

/-- `sis_lock_reader_close` (src/core/sis_list.lock.c:586-594): the reader is taken out and its thread ended. -/
def closeR (s : L) (i : Nat) : L :=
  { s with users := s.users.erase i, readers := s.readers.modify i fun r => { r with pc := .closed } }

/-- One step of some thread; `none` is the use of a freed node (src/core/sis_list.lock.c:429-804). -/
def step (sz : Nat → Nat) (s : L) : Ev → Option (L × Out)
  | .push o => (Lk.push s.q (some o)).map fun q => ({ s with q := q }, .unit)
  | .openR f => some ({ s with readers := s.readers ++ [{ fromHead := f }] }, .unit)
  | .register i => some ({ s with users := s.users ++ [i] }, .unit)
  | .close i => some (closeR s i, .unit)
  | .look i => s.readers[i]?.bind (rstep s i)
  | .set i => s.readers[i]?.bind (rstep s i)
  | .fetch i => s.readers[i]?.bind (rstep s i)
  | .recv i => s.readers[i]?.bind (rstep s i)
  | .adv i => s.readers[i]?.bind (rstep s i)
  | .wake => (wake s).map fun s => (s, .unit)
  | .wtest => s.wcur.bind fun c => (wtest s c).map fun s => (s, .unit)
  | .wcheck => match s.wpc with
    | .chk b k => some (wcheck s b k, .unit)
    | _ => some (s, .unit)
  | .wdrop => match s.wpc with
    | .pass b => s.wcur.bind fun c => wdrop sz s c b
    | _ => some (s, .unit)
  | .clear => (clear s).map fun s => (s, .unit)

end Sis.Ll
