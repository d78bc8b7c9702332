import Verif.Sdb.Ctl
/-
Model of the writer and of the reader of a database on disk (src/core/disk/sis_disk_write.c, src/core/disk/sis_disk_read.c).

Left out: errors of the file system, two writers at the same time, subscriptions, packing.
-/
namespace Sis.Sdb
open Sis Sis.Disk
open Sis.Dyn (sameN getN setN Db)

/-- A data file: without time, of a year, of a day (src/core/disk/sis_disk.io.c:72-121). -/
inductive Uid
  | nots | year (n : Nat) | date (n : Nat)
deriving DecidableEq, Repr

/-- `sis_disk_get_sdb_scale` (src/core/disk/sis_disk_ctrl.c:15-30); `none` for a field that was freed. -/
def scale (db : Db) : Option Kind :=
  match db.time with
  | none => some .nots
  | some a => (Dyn.unit db a).map fun f => if f.style = .date then .year else .date

/-- The style of a file, given when it is opened (src/core/disk/sis_disk_write.c:339-416). -/
def Uid.kind : Uid → Kind
  | .nots => .nots
  | .year _ => .year
  | .date _ => .date

/-- The name of an open file in `writer->units`: "nots" or a number (src/core/disk/sis_disk_write.c:339-416). -/
def Uid.key : Uid → Option Nat
  | .nots => none
  | .year n => some n
  | .date n => some n

/-- The files of a database: the blocks of the main file, and blocks and index of every data file
(src/core/disk/sis_disk.io.c:64-131). -/
structure Disk where
  main : Option Bytes := none
  units : List (Uid × (Bytes × Bytes)) := []

/-- A data file by its name (src/core/disk/sis_disk.io.c:72-121). -/
def Disk.unit (d : Disk) (u : Uid) : Option (Bytes × Bytes) := (d.units.find? fun e => e.1 == u).map (·.2)

/-- `s_sis_disk_writer` that is open (src/core/disk/sis_disk.h:52-72). -/
structure Writer where
  main : Ctl
  units : List (Uid × Ctl) := []

/-- `sis_disk_writer_open` (src/core/disk/sis_disk_write.c:46-75). -/
def openWriter (lib : Lib) (d : Disk) : Option Writer :=
  match d.main with
  | none => some { main := { kind := .main } }
  | some b => (openMain lib b).map fun m => { main := m }

/-- `sis_disk_ctrl_cmp_kdict` (src/core/disk/sis_disk.io.c:309-322). -/
def cmpKeys (m c : Ctl) : Ctl := m.kd.foldl setKey { c with newk := [] }

/-- One table of the main file compared (src/core/disk/sis_disk.io.c:333-359). -/
def cmpTab (c : Ctl) (e : Bytes × List Db) : Option Ctl :=
  match e.2.getLast? with
  | none => none
  | some db => (scale db).map fun k => if k = c.kind then setTab c ⟨e.1, db⟩ else c

/-- `sis_disk_ctrl_cmp_sdict` (src/core/disk/sis_disk.io.c:324-362). -/
def cmpTabs (m : Ctl) (c : Ctl) : Option Ctl := m.sd.foldlM cmpTab { c with news := [] }

/-- `_disk_writer_get_year`, `_disk_writer_get_date`, `_disk_writer_get_nots` (src/core/disk/sis_disk_write.c:339-416): the
open file `u`, opened when it is not, with the dictionaries of the main file added. -/
def getUnit (lib : Lib) (d : Disk) (w : Writer) (u : Uid) : Option Ctl :=
  ((match w.units.find? (fun e : Uid × Ctl => e.1.key == u.key) with
    | some e => some e.2
    | none =>
      match d.unit u with
      | none => some { kind := u.kind }
      | some f => openUnit lib u.kind f) : Option Ctl).bind fun c =>
  (cmpTabs w.main (cmpKeys w.main c)).map fun c => writeTabs lib (writeKeys lib c)

/-- The open file put back under its name (src/core/disk/sis_disk_write.c:339-416). -/
def putUnit (w : Writer) (u : Uid) (c : Ctl) : Writer :=
  if w.units.any (fun e => e.1.key == u.key) then
    { w with units := w.units.map fun e => if e.1.key == u.key then (e.1, c) else e }
  else { w with units := w.units ++ [(u, c)] }

/-- Every open file changed (src/core/disk/sis_disk_write.c:158-171, 118-139). -/
def onUnits (w : Writer) (f : Ctl → Ctl) : Writer := { w with units := w.units.map fun e => (e.1, f e.2) }

/-- `sis_disk_writer_set_kdict` (src/core/disk/sis_disk_write.c:145-172). -/
def setKeys (lib : Lib) (w : Writer) (s : Bytes) : Writer :=
  if s = [] then w
  else
    let w := (splitNames s).foldl (fun w k => onUnits { w with main := setKey w.main k } fun c => setKey c k) w
    onUnits { w with main := writeKeys lib w.main } (writeKeys lib)

/-- `sis_disk_writer_sdict_changed` (src/core/disk/sis_disk_write.c:110-140). -/
def tabChanged (w : Writer) (t : Tab) : Option Writer :=
  (scale t.db).map fun k => onUnits w fun c => if c.kind = k then setTab c t else c

/-- `sis_disk_writer_set_sdict` (src/core/disk/sis_disk_write.c:175-209) for the tables its JSON text describes. -/
def setTabs (lib : Lib) (w : Writer) (ts : List Tab) : Option Writer :=
  (ts.foldlM (fun w t => tabChanged { w with main := setTab w.main t } t) w).map fun w =>
    onUnits { w with main := writeTabs lib w.main } (writeTabs lib)

/-- A number kept in an `int` (src/core/disk/sis_disk_write.c:451-452, 508-509). -/
def i32 (n : Nat) : Int := if n % 2 ^ 32 < 2 ^ 31 then (n % 2 ^ 32 : Nat) else (n % 2 ^ 32 : Nat) - 2 ^ 32

/-- An `int` as an unsigned number of 32 bits: `s_sis_disk_map_unit.idate` (src/core/disk/sis_disk.io.h:366-380). -/
def u32 (n : Int) : Nat := (n % 2 ^ 32).toNat

/-- The date of a time of the table (src/core/disk/sis_disk_write.c:430-433). -/
def dateOf (v : Time.Env) (db : Db) (t : Nat) : Option Nat :=
  match db.time with
  | none => none
  | some a => (Dyn.unit db a).bind fun f =>
    match Dyn.timeStyle f.style with
    | none => some t
    | some st => Time.convert v st .date t

/-- The period of a date: itself or its year (src/core/disk/sis_disk_write.c:329-338). -/
def period (year : Bool) (d : Int) : Int := if year then d.tdiv 10000 else d

/-- The loop of `sis_disk_writer_sdb_year` and `sis_disk_writer_sdb_date` (src/core/disk/sis_disk_write.c:446-477, 503-534):
`now` is the date of the piece that is collected, `from` and `n` its first record and number of records, `i` the record looked
at, `left` the number of records from there on.  The time of a record is kept in an `int`. -/
def splitLoop (v : Time.Env) (year : Bool) (db : Db) (d : Bytes) : Nat → Nat → Int → Nat → Nat → Option (List (Int × Bytes))
  | 0, _, now, «from», n => some [(period year now, (d.drop («from» * db.size)).take (n * db.size))]
  | left + 1, i, now, «from», n =>
    (Dyn.getTime db i d).bind fun t => (dateOf v db (Time.u64 (i32 t))).bind fun c =>
      if period year (i32 c) = period year now then splitLoop v year db d left (i + 1) now «from» (n + 1)
      else
        (splitLoop v year db d left (i + 1) (i32 c) i 1).map fun ps =>
          (period year now, (d.drop («from» * db.size)).take (n * db.size)) :: ps

/-- The pieces of a block and their periods: `sis_disk_writer_sdb_year` and `sis_disk_writer_sdb_date`
(src/core/disk/sis_disk_write.c:423-537).  For an empty block the code reads in front of it. -/
def split (v : Time.Env) (year : Bool) (db : Db) (d : Bytes) : Option (List (Int × Bytes)) :=
  if db.size = 0 ∨ d.length / db.size = 0 then none
  else
    (Dyn.getTime db 0 d).bind fun a => (dateOf v db a).bind fun a =>
      (Dyn.getTime db (d.length / db.size - 1) d).bind fun b => (dateOf v db b).bind fun b =>
        if (if year then period true (i32 a) = period true (i32 b) else a = b) then some [(period year (i32 a), d)]
        else splitLoop v year db d (d.length / db.size - 1) 1 (i32 a) 0 1

/-- The pieces written one by one (src/core/disk/sis_disk_write.c:434-477, 492-534). -/
def writePieces (lib : Lib) (disk : Disk) (year : Bool) (k : Bytes × Nat) (s : Bytes × Nat) : Writer → List (Int × Bytes) → Option Writer
  | w, [] => some w
  | w, (p, d) :: ps =>
    let u := if year then Uid.year (u32 p) else Uid.date (u32 p)
    (getUnit lib disk w u).bind fun c => (writeSdb lib c k.1 s.1 d).bind fun c =>
      let w := putUnit w u c
      writePieces lib disk year k s { w with main := writeMap lib w.main k (some s) 0 (u32 p) false } ps

/-- A key that is not in the main dictionary is added and written there (src/core/disk/sis_disk_write.c:573-579, 607-612). -/
def newKey (lib : Lib) (m : Ctl) (k : Bytes) : Ctl := if (getKey m.kd k).isSome then m else writeKeys lib (setKey m k)

/-- `sis_disk_writer_sdb` with `sis_disk_writer_sdb_nots` (src/core/disk/sis_disk_write.c:539-599). -/
def writerSdb (lib : Lib) (v : Time.Env) (disk : Disk) (w : Writer) (k s d : Bytes) : Option Writer :=
  match getTab w.main.sd s with
  | none => some w
  | some ((sn, dbs), si) =>
    let isnew := (getKey w.main.kd k).isNone
    let w := { w with main := newKey lib w.main k }
    let w := if isnew then onUnits w fun c => setKey c k else w
    (getKey w.main.kd k).bind fun kd =>
      dbs.getLast?.bind fun db => (scale db).bind fun sc =>
        match sc with
        | .year => (split v true db d).bind fun ps => writePieces lib disk true kd (sn, si) w ps
        | .date => (split v false db d).bind fun ps => writePieces lib disk false kd (sn, si) w ps
        | _ =>
          (getUnit lib disk w .nots).bind fun c => (writeNon lib c kd.1 sn d).map fun c =>
            let w := putUnit w .nots c
            { w with main := writeMap lib w.main kd (some (sn, si)) 1 0 false }

/-- `sis_disk_writer_one` (src/core/disk/sis_disk_write.c:601-625). -/
def writerOne (lib : Lib) (disk : Disk) (w : Writer) (k d : Bytes) : Option Writer :=
  let w := { w with main := newKey lib w.main k }
  (getKey w.main.kd k).bind fun kd =>
    (getUnit lib disk w .nots).bind fun c => (writeOne lib c k d).map fun c =>
      let w := putUnit w .nots c
      { w with main := writeMap lib w.main kd none 2 0 false }

/-- `sis_disk_writer_mul` (src/core/disk/sis_disk_write.c:626-650). -/
def writerMul (lib : Lib) (disk : Disk) (w : Writer) (k : Bytes) (l : List Bytes) : Option Writer :=
  let w := { w with main := newKey lib w.main k }
  (getKey w.main.kd k).bind fun kd =>
    (getUnit lib disk w .nots).bind fun c => (writeMul lib c k l).map fun c =>
      let w := putUnit w .nots c
      { w with main := writeMap lib w.main kd none 3 0 false }

/-- `sis_disk_writer_sdb_remove`, `sis_disk_writer_one_remove`, `sis_disk_writer_mul_remove`
(src/core/disk/sis_disk_write.c:653-714): a mark in the main file. -/
def writerRemove (lib : Lib) (w : Writer) (k : Bytes) (s : Option Bytes) (mul : Bool) (sign : Nat) : Option Writer :=
  match s with
  | none =>
    match getKey w.main.kd k with
    | none => some w
    | some kd => some { w with main := writeMap lib w.main kd none (if mul then 3 else 2) 0 true }
  | some s =>
    match getTab w.main.sd s, getKey w.main.kd k with
    | some ((sn, dbs), si), some kd =>
      dbs.getLast?.bind fun db => (scale db).map fun sc =>
        { w with main := writeMap lib w.main kd (some (sn, si)) (if sc = .nots then 1 else 0) (sign % 2 ^ 32) true }
    | _, _ => some w

/-- What a user does with an open writer (src/core/disk/sis_disk_write.c:145-714). -/
inductive Cmd
  | keys (s : Bytes)
  | tabs (ts : List Tab)
  | one (k d : Bytes)
  | mul (k : Bytes) (l : List Bytes)
  | rows (k s d : Bytes)
  | remove (k : Bytes) (s : Option Bytes) (mul : Bool) (sign : Nat)

/-- One call of the writer (src/core/disk/sis_disk_write.c:145-714). -/
def cmd (lib : Lib) (v : Time.Env) (disk : Disk) (w : Writer) : Cmd → Option Writer
  | .keys s => some (setKeys lib w s)
  | .tabs ts => setTabs lib w ts
  | .one k d => writerOne lib disk w k d
  | .mul k l => writerMul lib disk w k l
  | .rows k s d => writerSdb lib v disk w k s d
  | .remove k s mul sign => writerRemove lib w k s mul sign

/-- Calls of the writer in a row (src/core/disk/sis_disk_write.c:145-714). -/
def cmds (lib : Lib) (v : Time.Env) (disk : Disk) : Writer → List Cmd → Option Writer
  | w, [] => some w
  | w, c :: cs => (cmd lib v disk w c).bind fun w => cmds lib v disk w cs

/-- The files that were open, written over the ones of the disk (src/core/disk/sis_disk_write.c:77-96). -/
def closeUnits (lib : Lib) : List (Uid × (Bytes × Bytes)) → List (Uid × Ctl) → Option (List (Uid × (Bytes × Bytes)))
  | fs, [] => some fs
  | fs, (u, c) :: us => (closeUnit lib c).bind fun f => closeUnits lib ((fs.filter fun e => !(e.1 == u)) ++ [(u, f)]) us

/-- `sis_disk_writer_close` (src/core/disk/sis_disk_write.c:77-96). -/
def closeWriter (lib : Lib) (disk : Disk) (w : Writer) : Option Disk :=
  let m := writeTabs lib (writeKeys lib w.main)
  (closeUnits lib disk.units w.units).map fun us => ⟨some m.body, us⟩

/-- A writer is opened, used and closed (src/core/disk/sis_disk_write.c:46-96). -/
def session (lib : Lib) (v : Time.Env) (disk : Disk) (cs : List Cmd) : Option Disk :=
  (openWriter lib disk).bind fun w => (cmds lib v disk w cs).bind fun w => closeWriter lib disk w

/-- One session after the other (src/core/disk/sis_disk_write.c:46-96). -/
def sessions (lib : Lib) (v : Time.Env) : Disk → List (List Cmd) → Option Disk
  | d, [] => some d
  | d, s :: ss => (session lib v d s).bind fun d => sessions lib v d ss

/-! ### Reader -/

/-- `sis_disk_reader_unit_open` (src/core/disk/sis_disk_read.c:22-36); the inner `none` for a file that is not there. -/
def openRd (lib : Lib) (d : Disk) (u : Uid) : Option (Option Ctl) :=
  match d.unit u with
  | none => some none
  | some f => (openUnit lib u.kind f).map some

/-- `sis_disk_reader_make_alone` (src/core/disk/sis_disk_read.c:533-565): the blocks of a key, and the file they are in. -/
def aloneUnits (lib : Lib) (d : Disk) (k : Bytes) : Option (Bytes × List IUnit) :=
  (openRd lib d .nots).map fun c =>
    match c with
    | none => ([], [])
    | some c =>
      match getN c.idx k with
      | none => (c.body, [])
      | some n => (c.body, n.units)

/-- The loop of `sis_disk_reader_get_one` (src/core/disk/sis_disk_read.c:586-605). -/
def catOnes (lib : Lib) (body : Bytes) : List IUnit → Option Bytes
  | [] => some []
  | u :: us =>
    (readSdb lib body u.offset u.size).bind fun (h, m) =>
      (if h = hidOne then (getSsize m).map (·.2) else some []).bind fun a => (catOnes lib body us).map fun b => a ++ b

/-- `sis_disk_reader_get_one` (src/core/disk/sis_disk_read.c:566-615); the inner `none` is NULL. -/
def getOne (lib : Lib) (d : Disk) (k : Bytes) : Option (Option Bytes) :=
  (aloneUnits lib d k).bind fun (body, us) => (catOnes lib body us).map fun m => if m = [] then none else some m

/-- The values of a list block (src/core/disk/sis_disk_read.c:648-655). -/
def takeVals : Nat → Bytes → Option (List Bytes)
  | 0, _ => some []
  | n + 1, m =>
    (getSsize m).bind fun (len, m) =>
      (if len % 2 ^ 32 < 2 ^ 31 then takeBytes (asCount len) m else none).bind fun (a, m) => (takeVals n m).map fun l => a :: l

/-- The loop of `sis_disk_reader_get_mul` (src/core/disk/sis_disk_read.c:636-658). -/
def catMuls (lib : Lib) (body : Bytes) : List IUnit → Option (List Bytes)
  | [] => some []
  | u :: us =>
    (readSdb lib body u.offset u.size).bind fun (h, m) =>
      (if h = hidMul then (getSsize m).bind fun (n, m) => takeVals (asCount n) m else some []).bind fun a =>
        (catMuls lib body us).map fun b => a ++ b

/-- `sis_disk_reader_get_mul` (src/core/disk/sis_disk_read.c:617-668); the inner `none` is NULL. -/
def getMul (lib : Lib) (d : Disk) (k : Bytes) : Option (Option (List Bytes)) :=
  (aloneUnits lib d k).bind fun (body, us) => (catMuls lib body us).map fun l => if l = [] then none else some l

/-- The loop of `_disk_reader_get_sdb_obj` over the blocks of one file (src/core/disk/sis_disk_read.c:700-715). -/
def catRows (lib : Lib) (body : Bytes) : List IUnit → Option Bytes
  | [] => some []
  | u :: us => (readSdb lib body u.offset u.size).bind fun (_, m) => (catRows lib body us).map fun b => m ++ b

/-- One file looked at: `sis_disk_reader_filters` for one key and one table (src/core/disk/sis_disk_read.c:357-377) and the
blocks it has; the inner `none` when it has no entry. -/
def rowsIn (lib : Lib) (d : Disk) (k s : Bytes) (u : Uid) : Option (Option Bytes) :=
  (openRd lib d u).bind fun c =>
    match c with
    | none => some none
    | some c =>
      match getN c.idx (shortName k (some s)) with
      | none => some none
      | some n => (catRows lib c.body n.units).map some

/-- The files of the years `y` to `y + n - 1` (src/core/disk/sis_disk_read.c:414-447). -/
def rowsYears (lib : Lib) (d : Disk) (k s : Bytes) : Nat → Nat → Option (List Bytes)
  | 0, _ => some []
  | n + 1, y =>
    (rowsIn lib d k s (.year y)).bind fun a => (rowsYears lib d k s n (y + 1)).map fun l => a.toList ++ l

/-- The files of the days from `day` to `stop` (src/core/disk/sis_disk_read.c:454-484), at most `n` of them. -/
def rowsDays (lib : Lib) (v : Time.Env) (d : Disk) (k s : Bytes) (stop : Nat) : Nat → Nat → Option (List Bytes)
  | 0, _ => some []
  | n + 1, day =>
    if day ≤ stop then
      (rowsIn lib d k s (.date day)).bind fun a => (Time.nextWorkDay v day 1).bind fun day =>
        (rowsDays lib v d k s stop n day).map fun l => a.toList ++ l
    else some []

/-- `sis_is_multiple_sub` (src/core/sis_db.c:3-14). -/
def multiple (s : Bytes) : Bool := s.any fun c => c == 42 || c == 44

/-- `_disk_reader_get_sdb_obj` (src/core/disk/sis_disk_read.c:671-725) with `sis_disk_reader_make_sdb` and
`_disk_reader_make_sdb_from_file` (src/core/disk/sis_disk_read.c:411-531) for times in milliseconds that are not 0; the inner
`none` is NULL. -/
def getRows (lib : Lib) (v : Time.Env) (d : Disk) (k s : Bytes) (lo hi : Nat) : Option (Option Bytes) :=
  if multiple k || multiple s then some none
  else
    (rowsIn lib d k s .nots).bind fun a =>
      (match a with
        | some b => some [b]
        | none =>
          (Time.getIdate v (Time.time_t (lo / 1000))).bind fun a => (Time.getIdate v (Time.time_t (hi / 1000))).bind fun b =>
            (rowsYears lib d k s (b / 10000 + 1 - a / 10000) (a / 10000)).bind fun ys =>
              if ys ≠ [] then some ys else rowsDays lib v d k s b (b + 1 - a) a).map fun (l : List Bytes) =>
      if l.flatten = [] then none else some l.flatten

end Sis.Sdb
