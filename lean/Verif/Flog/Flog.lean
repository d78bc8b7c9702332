import Verif.Disk.Log
import Verif.Net.Msg
/-
Model of the worker that keeps the log of requests (workers/sisdb_flog/sisdb_flog.c) with the parts of the disk layer it
uses (src/core/disk), down to the bytes of the log files.

Simplifications. File names are shorter than 1024 bytes and free of backslashes and zero bytes; dates are not negative.
A process that dies leaves a prefix of the bytes it gave to the file it had open.  A file that exists can be read.  One
command runs at a time, except that `unsub` may come from another thread while `sub` runs; where it breaks off is given with
the `sub`, and the whole file is taken to be read all the same.
-/
namespace Sis.Flog
open Sis Disk Msg

/-- The configuration of the worker: `work-path`, `work-name` and the name of the worker
(`sisdb_flog_init`, workers/sisdb_flog/sisdb_flog.c:34-48). -/
structure Conf where
  path : Option Bytes := none
  name : Option Bytes := none
  key : Bytes
deriving DecidableEq

/-- The members `work-path`, `work-name` and `work-date` of the message of a command
(workers/sisdb_flog/sisdb_flog.c:122-128, 186-192, 239-248). -/
structure Args where
  path : Option Bytes := none
  name : Option Bytes := none
  date : Option Nat := none
deriving DecidableEq

/-- What the worker is doing: `SIS_FLOG_NONE`; `SIS_FLOG_WRITE` with a writer that could not open its file (`munit` is
NULL, src/core/disk/sis_disk_write.c:66-71); `SIS_FLOG_WRITE` with an open file and the position where the next record goes
(workers/sisdb_flog/sisdb_flog.c:193-199).  The status `SIS_FLOG_READ` lasts only as long as a `sub`. -/
inductive St where
  | idle
  | broken
  | writing (file : Bytes) (pos : Nat)
deriving DecidableEq

/-- The worker (`s_sisdb_flog_cxt`, workers/sisdb_flog/sisdb_flog.h) and the files: `can` says which files the process is
allowed to create and write, `files` holds what the process has given to each file. -/
structure W where
  conf : Conf
  can : Bytes → Bool
  today : Nat
  date : Nat
  st : St := .idle
  files : Bytes → Option Bytes

/-- One file replaced or removed (src/os/linux/os_file.c:100-135 and 295-300). -/
def setFile (fs : Bytes → Option Bytes) (f : Bytes) (v : Option Bytes) : Bytes → Option Bytes := fun g => if g = f then v else fs g

/-- `sis_sds_save_get` (src/core/sis_sds.c:1366-1377) after `sis_sds_save_set` (src/core/sis_sds.c:1357-1365): the configured
value, else the one of the message, else the default. -/
def saveGet (conf arg : Option Bytes) (dflt : Bytes) : Bytes :=
  match conf with
  | some v => v
  | none =>
    match arg with
    | some v => v
    | none => dflt

/-- The default of `work-path` (workers/sisdb_flog/sisdb_flog.c:43). -/
def dataDir : Bytes := [100, 97, 116, 97]

/-- The file name of a log in `_disk_ctrl_init` (src/core/disk/sis_disk.io.c:123-126): `"%s/%s/%d.log"`. -/
def fileName (path name : Bytes) (date : Nat) : Bytes :=
  path ++ [47] ++ name ++ [47] ++ (Nat.repr date).toUTF8.toList ++ [46, 108, 111, 103]

/-- `open_date` in `sis_disk_ctrl_create` (src/core/disk/sis_disk.io.c:152). -/
def openDate (today date : Nat) : Nat := if date = 0 then today else date

/-- The first half of `cmd_sisdb_flog_open` and `cmd_sisdb_flog_sub` (workers/sisdb_flog/sisdb_flog.c:122-128 and 186-192):
the date is kept if the message has none. -/
def setDate (a : Args) (w : W) : W := { w with date := a.date.getD w.date }

/-- The file that the writer and the reader are created for (workers/sisdb_flog/sisdb_flog.c:143-146 and 194-197). -/
def target (a : Args) (w : W) : Bytes :=
  fileName (saveGet w.conf.path a.path dataDir) (saveGet w.conf.name a.name w.conf.key) (openDate w.today w.date)

/-- `s_sis_disk_main_head` (src/core/disk/sis_disk.io.h:213-224) as `sis_disk_files_clear`
(src/core/disk/sis_disk_files.c:39-63) and `_disk_ctrl_init` (src/core/disk/sis_disk.io.c:7-11) fill it for a log: head byte,
`"SIS"`, the date in four bytes, version 4 and style 1 in the next two. -/
def headBytes (date : Nat) : Bytes :=
  [headByte 1 0 1, 83, 73, 83] ++ leBytes 4 date ++ [UInt8.ofNat (4 + 32 * 1), 0, 0, 0, 0, 0, 0, 0]

/-- The member `style` of a head: the five bits after the five of the version, in bytes 8 and 9
(src/core/disk/sis_disk.io.h:217-218). -/
def styleOf (h : Bytes) : Nat := ((h.getD 8 0).toNat + 256 * (h.getD 9 0).toNat) / 32 % 32

/-- The test of the head in `sis_disk_files_open_append` and `sis_disk_files_open_rdonly`
(src/core/disk/sis_disk_files.c:238-244 and 285-291): sixteen bytes and the style of a log. -/
def headOk (c : Bytes) : Bool := decide (mainHead ≤ c.length) && decide (styleOf c = 1)

/-- `sis_disk_writer_open` (src/core/disk/sis_disk_write.c:46-75) with `sis_disk_ctrl_write_start`
(src/core/disk/sis_disk.io.c:713-800) for a log file with bytes `c`: the new bytes and the position for writing, or nothing
if the file cannot be opened.  The result of `sis_disk_files_open_append` is not looked at
(src/core/disk/sis_disk_files.c:341-350): with a bad head the file stays open and the position is 0.  `none`: undefined
behaviour while scanning. -/
def openFile (k : Nat) (can : Bool) (date : Nat) (c : Option Bytes) : Option (Option (Bytes × Nat)) :=
  if can then
    match c with
    | none => some (some (headBytes date, mainHead))
    | some c =>
      if headOk c then (reopenLog k (c.drop mainHead)).map fun body => some (c.take mainHead ++ body, mainHead + body.length)
      else some (some (c, 0))
  else some none

/-- Writing `r` at position `pos` (`fwrite` in `sis_file_write`, src/os/linux/os_file.c:187-193). -/
def overlay (pos : Nat) (r c : Bytes) : Bytes := c.take pos ++ r ++ c.drop (pos + r.length)

/-- What is heard and answered: the answer of a command (`SIS_METHOD_OK` or not) and the three callbacks of a subscriber
(workers/sisdb_flog/sisdb_flog.c:71-113). -/
inductive Ev where
  | ret (ok : Bool)
  | start (date : Nat)
  | msg (m : Msg)
  | stop (date : Nat)
deriving DecidableEq

/-- The message that is handed on if `sis_net_decoded_normal` refuses the bytes (its result is not looked at,
workers/sisdb_flog/sisdb_flog.c:104-109): only the name may have been set (src/core/net/sis_net.node.c:1116-1127). -/
def refused (s : Bytes) : Msg :=
  { name := match strPos (s.take 128) with
      | some cur => if cur > 0 then some (s.take cur) else none
      | none => none }

/-- `cb_flog_original` (workers/sisdb_flog/sisdb_flog.c:99-113); `none`: bytes behind the record are read. -/
def deliver (s : Bytes) : Option Msg := (decode s).map fun o => o.getD (refused s)

/-- `mapM` for the records of a file (`cb_flog_original` for each, workers/sisdb_flog/sisdb_flog.c:99-113). -/
def deliverAll : List Bytes → Option (List Msg)
  | [] => some []
  | s :: r => (deliver s).bind fun m => (deliverAll r).map (m :: ·)

/-- `sis_disk_reader_sub_log` (src/core/disk/sis_disk_read.c:163-178) and `sis_disk_io_sub_log`
(src/core/disk/sis_disk.io.log.c:57-90) on a file with bytes `c`: nothing is called if there is no file or its head is bad.
`brk = some j`: an `unsub` is seen after message number `j`, or after the first one if it came earlier
(`sis_disk_reader_unsub`, src/core/disk/sis_disk_read.c:234-250; the test is behind the callback,
src/core/disk/sis_disk.io.log.c:49-52). -/
def subFile (k date : Nat) (brk : Option Nat) (c : Option Bytes) : Option (List Ev) :=
  match c with
  | none => some []
  | some c =>
    if headOk c then
      (replayLog (chunksOf k (c.drop mainHead))).bind fun recs =>
      match brk with
      | none => (deliverAll recs).map fun ms => [.start date] ++ ms.map .msg ++ [.stop date]
      | some j => (deliverAll (recs.take (max 1 j))).map fun ms => [.start date] ++ ms.map .msg ++ [.stop 0]
    else some []

/-- The commands of the worker (workers/sisdb_flog/sisdb_flog.c:13-20), the end of the process, and the change of the day. -/
inductive Op where
  | openLog (a : Args)
  | write (m : Msg)
  | close
  | sub (a : Args) (brk : Option Nat)
  | remove (a : Args)
  /-- the process dies when the first `cut` bytes of the open file have reached the disk, and is started again -/
  | crash (cut : Nat) (conf : Conf) (today : Nat)
  /-- the worker is destroyed and created again -/
  | restart (conf : Conf) (today : Nat)
  | midnight (today : Nat)

/-- `cmd_sisdb_flog_open` (workers/sisdb_flog/sisdb_flog.c:177-202). -/
def cmdOpen (k : Nat) (a : Args) (w : W) : Option (W × List Ev) :=
  match w.st with
  | .idle =>
    let w := setDate a w
    let f := target a w
    (openFile k (w.can f) (openDate w.today w.date) (w.files f)).map fun
      | some (c, pos) => ({ w with st := .writing f pos, files := setFile w.files f (some c) }, [.ret true])
      | none => ({ w with st := .broken }, [.ret true])
  | _ => some (w, [.ret false])

/-- `cmd_sisdb_flog_write` (workers/sisdb_flog/sisdb_flog.c:218-229) with `sis_disk_writer_log`
(src/core/disk/sis_disk_write.c:214-221), which uses `munit` without a test.  `none`: undefined behaviour. -/
def cmdWrite (m : Msg) (w : W) : Option (W × List Ev) :=
  match w.st with
  | .idle => some (w, [.ret true])
  | .broken => none
  | .writing f pos =>
    (encode m).map fun t =>
      let r := encRec logHead t
      ({ w with st := .writing f (pos + r.length), files := setFile w.files f ((w.files f).map (overlay pos r)) }, [.ret true])

/-- `cmd_sisdb_flog_close` (workers/sisdb_flog/sisdb_flog.c:204-217). -/
def cmdClose (w : W) : W × List Ev := ({ w with st := .idle }, [.ret true])

/-- `cmd_sisdb_flog_sub` (workers/sisdb_flog/sisdb_flog.c:114-159). -/
def cmdSub (k : Nat) (a : Args) (brk : Option Nat) (w : W) : Option (W × List Ev) :=
  match w.st with
  | .idle =>
    let w := setDate a w
    (subFile k (openDate w.today w.date) brk (w.files (target a w))).map fun evs => (w, evs ++ [.ret true])
  | _ => some (w, [.ret false])

/-- `cmd_sisdb_flog_remove` (workers/sisdb_flog/sisdb_flog.c:231-251) with `sis_disk_control_remove`
(src/core/disk/sis_disk_write.c:740-746): only the message is looked at, not the configuration. -/
def cmdRemove (a : Args) (w : W) : W × List Ev :=
  match w.st with
  | .idle =>
    match a.path, a.name, a.date with
    | some p, some n, some d => ({ w with files := setFile w.files (fileName p n (openDate w.today d)) none }, [.ret true])
    | _, _, _ => (w, [.ret true])
  | _ => (w, [.ret false])

/-- `sisdb_flog_init` (workers/sisdb_flog/sisdb_flog.c:34-48) on the files that are there. -/
def init (conf : Conf) (today : Nat) (can : Bytes → Bool) (files : Bytes → Option Bytes) : W :=
  { conf := conf, can := can, today := today, date := today, files := files }

/-- The bytes of the open file that are lost (see the simplifications; `sis_file_write`, src/os/linux/os_file.c:187-193). -/
def cutFiles (cut : Nat) (w : W) : Bytes → Option Bytes :=
  match w.st with
  | .writing f _ => setFile w.files f ((w.files f).map (List.take cut))
  | _ => w.files

/-- One step; `none`: undefined behaviour (workers/sisdb_flog/sisdb_flog.c:13-20). -/
def step (k : Nat) (w : W) : Op → Option (W × List Ev)
  | .openLog a => cmdOpen k a w
  | .write m => cmdWrite m w
  | .close => some (cmdClose w)
  | .sub a brk => cmdSub k a brk w
  | .remove a => some (cmdRemove a w)
  | .crash cut conf today => some (init conf today w.can (cutFiles cut w), [])
  | .restart conf today => some (init conf today w.can w.files, [])
  | .midnight today => some ({ w with today := today }, [])

/-- A sequence of steps and everything that is heard and answered (workers/sisdb_flog/sisdb_flog.c:13-20). -/
def run (k : Nat) : W → List Op → Option (W × List Ev)
  | w, [] => some (w, [])
  | w, op :: ops => (step k w op).bind fun r => (run k r.1 ops).map fun q => (q.1, r.2 ++ q.2)

end Sis.Flog
