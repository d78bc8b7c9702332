import Verif.Snodb.Snodb
/-
Model of the log of the day (`workers/snodb/snodb_disk.c` and the parts of `workers/snodb/snodb.c` that use it): a thread
of its own reads the list of packets and writes them to the log; at the end of the day the log goes to the writer of the day's file and is removed; when
the process starts it reads the log of today.

Simplifications.  The log is a list of records for every day: that the worker `sisdb_flog` keeps it so is C112.  Its files can be created, and it has no
directory of its own.  The file of a day is what is handed to the writer of it.  There is a worker that writes
files.  Days are not 0.  Every command is one step, and so is every packet of the thread.
-/
namespace Sis.Snodb
open Sis

/-- A record of the log (`snodb_wlog_save`, workers/snodb/snodb_disk.c:89-112). -/
inductive Rec
  | keys (b : Bytes)
  | sdbs (b : Bytes)
  | zpub (p : Bytes)
deriving DecidableEq, Repr

/-- The stream with its log (`s_snodb_cxt`, workers/snodb/snodb.h:90-143): `wdate` and `winit` are the members `wlog_date` and `wlog_init`, `begun` and
`place` those of the thread; `flog` is the day whose log is open. -/
structure W where
  s : St
  wdate : Nat
  winit : Bool
  begun : Bool
  place : Cursor
  flog : Option Nat
  logs : Nat → Option (List Rec)
  files : Nat → Option (List Rec)

/-- What happens: something of the stream, a step of the thread that writes the log, or the process dies when `n` records of the open log have reached the disk, and starts
again (workers/snodb/snodb.c:63-132, 134-250, 337-653). -/
inductive Act
  | ev (v : Ev)
  | log
  | crash (n today : Nat)
deriving DecidableEq, Repr

/-- One day's entry replaced (src/os/linux/os_file.c:100-135). -/
def setDay (f : Nat → Option (List Rec)) (d : Nat) (v : Option (List Rec)) : Nat → Option (List Rec) := fun x => if x = d then v else f x

/-- `cmd_sisdb_flog_open` as it is used here (workers/sisdb_flog/sisdb_flog.c:177-202): refused while a log is open; the answer is not looked at
(workers/snodb/snodb.c:125). -/
def openLog (w : W) (d : Nat) : W :=
  match w.flog with
  | some _ => w
  | none => { w with flog := some d, logs := setDay w.logs d (some ((w.logs d).getD [])) }

/-- `cmd_sisdb_flog_write` as it is used here (workers/sisdb_flog/sisdb_flog.c:218-229): nothing while no log is open. -/
def writeLog (w : W) (r : Rec) : W :=
  match w.flog with
  | none => w
  | some d => { w with logs := setDay w.logs d ((w.logs d).map (· ++ [r])) }

/-- `cb_wlog_reader` (workers/snodb/snodb.c:98-132) for one packet.  `none`: a text that is not there or is free is read. -/
def logOne (w : W) (p : Bytes) : Option W :=
  if !w.begun && !begins p then some w
  else
    let w := { w with begun := true }
    if w.winit then some (writeLog w (.zpub p))
    else
      match w.s.keys, w.s.sdbs with
      | .val k, .val t => some (writeLog { writeLog (writeLog (openLog w w.s.date) (.keys k)) (.sdbs t) with winit := true } (.zpub p))
      | _, _ => none

/-- A step of the thread (`_thread_reader`, src/core/sis_list.lock.c:429-490), which begins at the end of the list: `snodb_wlog_load` always returns
SIS_METHOD_OK, so that `ishead` is 0 (workers/snodb/snodb.c:238-244). -/
def logStep (w : W) : Option W :=
  match w.place with
  | .closed => some w
  | .lost => none
  | .fresh => some { w with place := .pos w.s.out.length }
  | .pos k =>
    match w.s.out[k]? with
    | none => some w
    | some p => (logOne w p).map fun w => { w with place := .pos (k + 1) }

/-- `cb_snodb_wlog_load` (workers/snodb/snodb_disk.c:34-67), record for record. -/
def loadOne (e : Env) (s : St) (r : Rec) : Option St :=
  match r with
  | .keys b => some { s with keys := .val b }
  | .sdbs b => some { s with sdbs := .val b }
  | .zpub p => (writeInit e s).map fun x => if x.2.1 then x.1 else push x.1 p

/-- All records (workers/snodb/snodb_disk.c:34-67). -/
def loadAll (e : Env) : St → List Rec → Option St
  | s, [] => some s
  | s, r :: rs => (loadOne e s r).bind fun s => loadAll e s rs

/-- `snodb_init` (workers/snodb/snodb.c:134-250) with `snodb_wlog_load` and `cb_snodb_wlog_start` (workers/snodb/snodb_disk.c:17-25, 71-87). -/
def boot (e : Env) (logs files : Nat → Option (List Rec)) (today : Nat) : Option W :=
  match logs today with
  | none => some ⟨init today, 0, false, false, .fresh, none, logs, files⟩
  | some rs => (loadAll e (start e (init today) today).1 rs).map fun s => ⟨s, today, false, false, .fresh, none, logs, files⟩

/-- `snodb_wlog_to_snos` and what is around it in `cmd_snodb_stop` (workers/snodb/snodb.c:457-468, workers/snodb/snodb_disk.c:234-284): the log of the day the
stream has now is closed, handed to the writer of files in place of an older file, and removed. -/
def endLog (w : W) : W :=
  let w := { w with flog := none }
  match w.logs w.s.date with
  | none => w
  | some rs => { w with files := setDay w.files w.s.date (some rs), logs := setDay w.logs w.s.date none }

/-- The log's part of `cmd_snodb_start` (workers/snodb/snodb.c:399-406), and its place when the list is cleared. -/
def startLog (e : Env) (old : Nat) (w : W) (d : Nat) : W :=
  let w := if e.keep then { w with place := match w.place with
      | .pos k => if k = old then .pos 0 else .lost
      | c => c } else w
  if w.wdate = 0 ∨ w.wdate ≠ d then { w with wdate := d, begun := false, winit := false } else w

/-- The logs when the process has died: of the open one there are `n` records (workers/sisdb_flog/sisdb_flog.c:218-229, C112). -/
def onDisk (w : W) (n : Nat) : Nat → Option (List Rec) :=
  match w.flog with
  | none => w.logs
  | some d => setDay w.logs d ((w.logs d).map (List.take n))

/-- One step (workers/snodb/snodb.c:63-132, 337-653); packets that the thread has not passed are not let go. -/
def actStep (e : Env) (w : W) : Act → Option (W × List Out)
  | .log => (logStep w).map fun w => (w, [])
  | .crash n today =>
    (boot e (onDisk w n) w.files today).map fun w => (w, [])
  | .ev .shed =>
    match w.place with
    | .pos k => if w.s.gone + 1 < k then (step e w.s .shed).map fun x => ({ w with s := x.1 }, x.2) else some (w, [])
    | _ => (step e w.s .shed).map fun x => ({ w with s := x.1 }, x.2)
  | .ev (.start d) => (step e w.s (.start d)).map fun x => (startLog e w.s.out.length { w with s := x.1 } d, x.2)
  | .ev (.stop l) => (step e w.s (.stop l)).map fun x => (if w.s.status = .none then { w with s := x.1 } else endLog { w with s := x.1 }, x.2)
  | .ev v => (step e w.s v).map fun x => ({ w with s := x.1 }, x.2)

/-- A history (workers/snodb/snodb.c:63-132, 337-653). -/
def actRun (e : Env) : W → List Act → Option (W × List (List Out))
  | w, [] => some (w, [])
  | w, a :: as => (actStep e w a).bind fun x => (actRun e x.1 as).map fun y => (y.1, x.2 :: y.2)

end Sis.Snodb
