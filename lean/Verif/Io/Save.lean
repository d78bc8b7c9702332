import Verif.Io.Io
import Verif.Fmap.Load
import Verif.Sdb.Writer
import Verif.Sdb.TabText
/-
Model of what becomes of the database in memory when it is saved, and of the server that is started again on the files:
`sisdb_fmap_cxt_save` (workers/sisdb/sisdb_fmap_write.c:494-545), `sisdb_fmap_cxt_init` (workers/sisdb/sisdb_fmap.c:115-154) and
`cmd_sisdb_get` (workers/sisdb/sisdb.c:217-259) with the files behind it (workers/sisdb/sisdb_fmap_read.c:52-345).

Left out: commands that change the database after the start, and databases in which the name of a key has a point (the server
makes none of these).
-/
namespace Sis.Io
open Sis
open Sis.Dyn (Db getN setN)
open Sis.Fmap (Fidx)

/-! ### The calendar -/

/-- The day, counted from 1 January of the year 0, of a second (`sis_time_get_idate`, src/core/sis_time.c:18-23). -/
def dayNum (v : Time.Env) (sec : Nat) : Nat := (((sec : Int) + v.tz + Time.epoch * 86400) / 86400).toNat

/-- A day as a number like 20210604 (src/core/sis_time.c:18-23). -/
def dateNum (n : Nat) : Nat := (Time.civil n).1 * 10000 + (Time.civil n).2.1 * 100 + (Time.civil n).2.2

/-- The type of the field with the time (src/core/sis_dynamic.c:114-219). -/
def timeStyle (db : Db) : Option Dyn.St := (db.time.bind (Dyn.unit db)).map (·.style)

/-- The period of a time: `sisdb_fmap_unit_get_start` (workers/sisdb/sisdb_fmap_ctrl.c:150-160) and the year of a day
(workers/sisdb/sisdb_fmap_write.c:9).  Simplification: the calendar goes on for ever, and time 0 is the start of 1970 instead of
now; for the times of the theorems it is the conversion of C54 (`period_eq`). -/
def periodNum (v : Time.Env) (db : Db) (t : Nat) : Int :=
  match timeStyle db with
  | some .date => (t / 10000 : Nat)
  | some .msec => dateNum (dayNum v (t / 1000))
  | some .tsec => dateNum (dayNum v t)
  | some .minu => dateNum (dayNum v (t * 60))
  | _ => Sdb.i32 t

/-- The day of a number like 20210604 (`sis_time_make_time`, src/core/sis_time.c:153-165). -/
def dayOfNum (p : Int) : Nat := Time.daysOf (p.toNat / 10000) (p.toNat / 100 % 100) (p.toNat % 100)

/-- The first second of a day (`sis_time_make_time`, src/core/sis_time.c:153-165). -/
def dayStart (v : Time.Env) (p : Int) : Int := ((dayOfNum p : Int) - Time.epoch) * 86400 - v.tz

/-- The calendar of the loader (workers/sisdb/sisdb_fmap_read.c:52-211): the next period is the next year, or the next day
(`sis_time_get_offset_day`, src/core/sis_time.c:222-227); what is no date is followed by the next number.  Simplification: as for
`periodNum`. -/
def calendar (v : Time.Env) (db : Db) : Fmap.Calendar where
  next p := if timeStyle db = some .date then p + 1 else max (p + 1) (dateNum (dayOfNum p + 1) : Int)
  lower p := match timeStyle db with
    | some .date => p.toNat * 10000 + 101
    | some .msec => (dayStart v p * 1000).toNat
    | some .minu => (dayStart v p / 60).toNat
    | _ => (dayStart v p).toNat
  adv p := by split <;> omega
  year := decide (timeStyle db = some .date)
  today := if timeStyle db = some .date then ((dateNum (dayNum v v.now.toNat) / 10000 : Nat) : Int) else (dateNum (dayNum v v.now.toNat) : Nat)

/-! ### Saving -/

/-- `kname` of a series: what is in front of the first point of its key (workers/sisdb/sisdb_fmap.c:156-205). -/
def keyName (key : Bytes) : Bytes := key.takeWhile (· ≠ 46)

/-- `sname` of a series: what is behind the point (workers/sisdb/sisdb_fmap.c:156-205). -/
def tabOfKey (key : Bytes) : Bytes := (key.dropWhile (· ≠ 46)).drop 1

/-- `_disk_save_fmap` (workers/sisdb/sisdb_fmap_write.c:430-492) with `_disk_save_fmap_sdb` (workers/sisdb/sisdb_fmap_write.c:399-428):
the calls of the writer for a series that was made by commands, so that without an index it is marked as written and never as
removed. -/
def saveUnit (e : Bytes × Ser) : List Sdb.Cmd :=
  if indexed e.2.tbl then
    (Fmap.saveSdb e.2.unit).map fun
      | .remove p => .remove (keyName e.1) (some (tabOfKey e.1)) false (Sdb.u32 p)
      | .write recs => .rows (keyName e.1) (tabOfKey e.1) recs.flatten
  else if e.2.unit.recs = [] then []
  else [.rows (keyName e.1) (tabOfKey e.1) e.2.unit.recs.flatten]

/-- `sis_string_list_push_only` (src/core/sis_list.c:2396-2415) of names: those that are there in another case are left out. -/
def pushOnly (l : List Bytes) (k : Bytes) : List Bytes := if l.any fun n => caseEq n k then l else l ++ [k]

/-- `sisdb_fmap_cxt_get_keys` (workers/sisdb/sisdb_fmap.c:245-262). -/
def saveKeys (order : List (Bytes × Ser)) : Bytes := List.intercalate [44] ((order.map fun e => keyName e.1).foldl pushOnly [])

/-- `sisdb_fmap_cxt_get_sdbs` (workers/sisdb/sisdb_fmap.c:264-297) and what `sis_disk_writer_set_sdict`
(src/core/disk/sis_disk_write.c:175-209) reads of it. -/
def saveTabs (tabs : List (Bytes × Tbl)) : Option (List Sdb.Cmd) :=
  if tabs = [] then some []
  else (Sdb.tabText (tabs.map fun e => ⟨e.1, e.2.db⟩)).bind fun s => (Sdb.textTabs s).map fun ts => [.tabs ts]

/-- The calls of the writer made by `sisdb_fmap_cxt_save` (workers/sisdb/sisdb_fmap_write.c:494-545).  `order` is the order in
which the map of series is walked; `none` inside: nothing is opened. -/
def saveCmds (c : Cxt) (order : List (Bytes × Ser)) : Option (Option (List Sdb.Cmd)) :=
  if order ≠ [] then (saveTabs c.tabs).map fun ts => some (.keys (saveKeys order) :: ts ++ order.flatMap saveUnit)
  else if c.tabs = [] then some none
  else (saveTabs c.tabs).map some

/-- `sisdb_fmap_cxt_save` (workers/sisdb/sisdb_fmap_write.c:494-545). -/
def save (lib : Sdb.Lib) (v : Time.Env) (c : Cxt) (order : List (Bytes × Ser)) (d : Sdb.Disk) : Option Sdb.Disk :=
  (saveCmds c order).bind fun
    | none => some d
    | some cs => Sdb.session lib v d cs

/-- The database in memory after a save: the periods written are no longer marked (workers/sisdb/sisdb_fmap_write.c:399-428). -/
def afterSave (c : Cxt) : Cxt :=
  { c with sers := c.sers.map fun e => (e.1, { e.2 with unit := { e.2.unit with fidxs := e.2.unit.fidxs.map fun f =>
      if f.moved then f else { f with writed := false } } }) }

/-! ### Starting again -/

/-- A series of a server with files: its table, whether it is one with times (`ktype` is `SIS_SDB_STYLE_SDB`), and its records and
entries for periods (workers/sisdb/sisdb_fmap.h:50-71). -/
structure Back where
  tbl : Tbl
  timed : Bool
  unit : Fmap.Unit Bytes

/-- A server with files (`s_sisdb_fmap_cxt`, workers/sisdb/sisdb_fmap.h:74-87). -/
structure Srv where
  tabs : List (Bytes × Tbl)
  sers : List (Bytes × Back)

/-- The table of a definition: `field_solely` are the fields marked so (src/core/sis_dynamic.c:196-199). -/
def tblOfDb (db : Db) : Tbl := ⟨db, (db.heap.zipIdx.filter fun e => (e.1.map (·.solely)).getD false).map (·.2)⟩

/-- An entry put in its place in a list sorted by days: `sis_sort_list_set` (src/core/sis_list.c:701-722). -/
def insertDay (e : Nat × Nat) : List (Nat × Nat) → List (Nat × Nat)
  | [] => [e]
  | x :: l => if e.1 < x.1 then e :: x :: l else if e.1 = x.1 then e :: l else x :: insertDay e l

/-- The entries of the map on disk as the server sees them: the period and whether it is active
(workers/sisdb/sisdb_fmap.c:77-113). -/
def entriesOf (days : List (Nat × Nat)) : List (Int × Bool) :=
  (days.foldl (fun l e => insertDay e l) []).map fun e => (Sdb.i32 e.1, decide (e.2 ≠ 0))

/-- `_fmap_cxt_new_of_map` (workers/sisdb/sisdb_fmap.c:77-113).  A value of a key has no list of entries, so that pushing one is
undefined.  The series of a table that is not known is left out.  Simplification: the records of a series without times are read
now and not at its first use (workers/sisdb/sisdb_fmap_read.c:263-283). -/
def newOfMap (lib : Sdb.Lib) (d : Sdb.Disk) (s : Srv) (name : Bytes) (e : Sdb.MapE) : Option Srv :=
  if e.ktype = 2 ∨ e.ktype = 3 then if e.days = [] then some s else none
  else
    match getN s.tabs (tabOfKey name) with
    | none => some s
    | some t =>
      if e.ktype ≠ 1 ∧ indexed t then some { s with sers := (setN s.sers name ⟨t, true, .ofMap (entriesOf e.days)⟩).1 }
      else if t.db.size = 0 then none
      else (Sdb.rowsIn lib d (keyName name) (tabOfKey name) .nots).map fun b =>
        { s with sers := (setN s.sers name ⟨t, false, { (.ofMap (entriesOf e.days) : Fmap.Unit Bytes) with recs := split t.db.size (b.getD []) }⟩).1 }

/-- The tables of the files: of each the last definition (workers/sisdb/sisdb_fmap.c:134-141). -/
def tabsBack (sd : Sdb.TDict) : Option (List (Bytes × Tbl)) :=
  (Sdb.every (sd.map fun e => e.2.getLast?.map fun db => (e.1, tblOfDb db))).map fun l => l.foldl (fun l e => (setN l e.1 e.2).1) []

/-- `sisdb_fmap_cxt_init` (workers/sisdb/sisdb_fmap.c:115-154). -/
def restart (lib : Sdb.Lib) (d : Sdb.Disk) : Option Srv :=
  match d.main with
  | none => some ⟨[], []⟩
  | some b => (Sdb.openMain lib b).bind fun m =>
    (tabsBack m.sd).bind fun tabs => m.maps.foldlM (fun s e => newOfMap lib d s e.1 e.2) ⟨tabs, []⟩

/-! ### Queries -/

/-- The times of a period in milliseconds (workers/sisdb/sisdb_fmap_read.c:54-64). -/
def pairOf (v : Time.Env) (year : Bool) (p : Int) : Option (Nat × Nat) :=
  if p < 0 then none
  else if year then
    (Time.makeTime v (p.toNat * 10000 + 101) 0).bind fun a => (Time.makeTime v (p.toNat * 10000 + 1231) 235959).map fun b =>
      (Time.u64 (a * 1000), Time.u64 (b * 1000 + 999))
  else
    (Time.makeTime v p.toNat 0).bind fun a => (Time.makeTime v p.toNat 235959).map fun b => (Time.u64 (a * 1000), Time.u64 (b * 1000 + 999))

/-- What the reader returns for a period: `sis_disk_reader_get_obj` called in workers/sisdb/sisdb_fmap_read.c:65-75.  The model of the
reader is one for times that are not 0. -/
def readPeriod (lib : Sdb.Lib) (v : Time.Env) (d : Sdb.Disk) (name : Bytes) (t : Tbl) (p : Int) : Option (Option (List Bytes)) :=
  if t.db.size = 0 then none
  else (pairOf v (decide (timeStyle t.db = some .date)) p).bind fun (a, b) =>
    if a = 0 ∨ b = 0 then none
    else (Sdb.getRows lib v d (keyName name) (tabOfKey name) a b).map fun r => r.map (split t.db.size)

/-- The blocks of the active periods of a series (workers/sisdb/sisdb_fmap_read.c:52-111).  Simplification: all are read before it is
known which of them are needed, so that what is undefined for one of them is undefined for every query. -/
def blocks (lib : Sdb.Lib) (v : Time.Env) (d : Sdb.Disk) (name : Bytes) (t : Tbl) (fs : List Fidx) : Option (List (Int × Option (List Bytes))) :=
  Sdb.every ((fs.filter fun f => !f.moved).map fun f => (readPeriod lib v d name t f.isign).map fun b => (f.isign, b))

/-- `cmd_sisdb_get` (workers/sisdb/sisdb.c:217-259) on a server with files, with `sisdb_fmap_cxt_read` (workers/sisdb/sisdb_fmap.c:305-395). -/
def getBack (e : Env) (lib : Sdb.Lib) (v : Time.Env) (d : Sdb.Disk) (s : Srv) (key : Bytes) (info : Option Bytes) : Option (Srv × Reply) := do
  let n ← (match info with | none => some none | some s => Json.load s)
  match getN s.sers key with
  | none => some (s, .null)
  | some b =>
    if b.timed then
      let bs ← blocks lib v d key b.tbl b.unit.fidxs
      let r := Fmap.lazyRead (table e b.tbl) e.goto (calendar v b.tbl.db) (fun p => (bs.find? fun x => x.1 == p).bind (·.2)) b.unit (askOf n).1
      let s := { s with sers := (setN s.sers key { b with unit := r.2 }).1 }
      if r.1.1 < 0 then some (s, .null)
      else (render e b.tbl.db key (fmtOf n) (fieldsOf n) r.1.2.flatten).map fun a => (s, a)
    else
      (render e b.tbl.db key (fmtOf n) (fieldsOf n) (Fmap.nonRead b.unit.recs (askOf n).2 1).flatten).map fun a => (s, a)

/-- Queries one after the other, and their answers (workers/sisdb/sisdb.c:217-259). -/
def getsBack (e : Env) (lib : Sdb.Lib) (v : Time.Env) (d : Sdb.Disk) : Srv → List (Bytes × Option Bytes) → Option (List Reply)
  | _, [] => some []
  | s, q :: qs => do
    let (s, r) ← getBack e lib v d s q.1 q.2
    (getsBack e lib v d s qs).map (r :: ·)

end Sis.Io
