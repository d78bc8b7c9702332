import Verif.Disk.Log
/- Model of the write-ahead log of the server (workers/sisdb/sisdb_disk.c, workers/sisdb/sisdb.c,
workers/sisdb_server/sisdb_server.c): every write request is logged before it is executed, saving moves the log away and
removes it when the data is on disk, starting replays the log of the day.

Simplifications. The data of the server is a value of an arbitrary type `S`, and a request is its encoded byte string `d`
together with `exec : S → Bytes → S`, which stands for decoding and executing it. Saving is taken to store the whole data
(what it really stores is the subject of C57). Requests are handled one at a time, so none falls between the steps of a save
command (workers/sisdb_server/sisdb_server.c:466-472). The files are byte strings behind their head; the stdio layer is a
buffer of bytes handed to `fwrite` and not yet to the operating system. -/
namespace Sis.Server
open Disk

/-- What the steps of a save have done so far (workers/sisdb/sisdb_disk.c:320-374). -/
inductive Phase where
  | idle | closed | moved | saved
deriving DecidableEq

/-- The server process and its files. `log i` and `safe i` are the bodies of the log files of day `i` in the work directory
and in the safe directory, `buf` the bytes of the open log that are still in the stdio buffer (workers/sisdb/sisdb_disk.c:320-374). -/
structure Srv (S : Type) where
  date : Nat
  mem : S
  data : S
  log : Nat → Bytes := fun _ => []
  buf : Bytes := []
  safe : Nat → Bytes := fun _ => []
  phase : Phase := .idle

/-- A file replaced (workers/sisdb/sisdb_disk.c:327-331). -/
def setFile (f : Nat → Bytes) (i : Nat) (b : Bytes) : Nat → Bytes := fun j => if j = i then b else f j

variable {S : Type} (exec : S → Bytes → S)

/-- `cb_reader_recv` for a write request (workers/sisdb_server/sisdb_server.c:443-472) with `cmd_sisdb_wlog`
(workers/sisdb/sisdb.c:670-684), `cmd_sisdb_flog_write` (workers/sisdb_flog/sisdb_flog.c:206-217) and the log branch of
`sis_disk_files_write` (src/core/disk/sis_disk_files.c:467-481): the record goes to `fwrite`, `sis_file_fsync`
(src/os/linux/os_file.c:194-197) does not flush the stdio buffer, the request is executed and answered. -/
def write (d : Bytes) (s : Srv S) : Srv S := { s with buf := s.buf ++ encRec logHead d, mem := exec s.mem d }

/-- The stdio layer passes the first `n` bytes of its buffer to the operating system (it does so when the buffer is full) (`fwrite` in `sis_safe_write`, src/core/disk/sis_disk_files.c:433-459). -/
def flush (n : Nat) (s : Srv S) : Srv S :=
  { s with log := setFile s.log s.date (s.log s.date ++ s.buf.take n), buf := s.buf.drop n }

/-- `sisdb_wlog_close` in `sisdb_disk_save_start` (workers/sisdb/sisdb_disk.c:325): closing the file flushes the buffer. -/
def saveClose (s : Srv S) : Srv S := { flush s.buf.length s with phase := .closed }

/-- The rest of `sisdb_disk_save_start` (workers/sisdb/sisdb_disk.c:327-331): the log is moved to the safe directory. -/
def saveMove (s : Srv S) : Srv S :=
  { s with safe := setFile s.safe s.date (s.log s.date), log := setFile s.log s.date [], phase := .moved }

/-- `sisdb_disk_save` (workers/sisdb/sisdb_disk.c:337-349). -/
def saveData (s : Srv S) : Srv S := { s with data := s.mem, phase := .saved }

/-- `sisdb_disk_save_stop` (workers/sisdb/sisdb_disk.c:351-377): the log in the safe directory is removed. -/
def saveStop (s : Srv S) : Srv S := { s with safe := setFile s.safe s.date [], phase := .idle }

/-- The process dies and is started again on day `day`: `sisdb_init` (workers/sisdb/sisdb.c:64) takes the date of the day,
`cmd_sisdb_init` (workers/sisdb/sisdb.c:602-641) loads the saved data and calls `sisdb_rlog_read`
(workers/sisdb/sisdb_disk.c:248-277), which executes the messages of the log of this day; the log is then reopened.
Nothing looks into the safe directory. `none`: undefined behaviour while scanning the log. -/
def restart (k day : Nat) (s : Srv S) : Option (Srv S) :=
  match replayLog (chunksOf k (s.log day)), reopenLog k (s.log day) with
  | some msgs, some body =>
    some { s with date := day, mem := msgs.foldl exec s.data, log := setFile s.log day body, buf := [], phase := .idle }
  | _, _ => none

/-- Events outside a save: a request, flushing, a whole save, the daily save with the change to a new day (`sisdb_working`,
workers/sisdb/sisdb.c:135-170), a crash with restart on day `day`. -/
inductive Ev where
  | write (d : Bytes) | flush (n : Nat) | save | newDay (day : Nat) | crash (day : Nat)

/-- One event (workers/sisdb/sisdb_disk.c:320-374). -/
def step (k : Nat) (s : Srv S) : Ev → Option (Srv S)
  | .write d => some (write exec d s)
  | .flush n => some (flush n s)
  | .save => some (saveStop (saveData (saveMove (saveClose s))))
  | .newDay day => some { saveStop (saveData (saveMove (saveClose s))) with date := day }
  | .crash day => restart exec k day s

/-- A sequence of events (workers/sisdb/sisdb_disk.c:320-374). -/
def run (k : Nat) : Srv S → List Ev → Option (Srv S)
  | s, [] => some s
  | s, e :: es => (step exec k s e).bind fun s' => run k s' es

end Sis.Server
