import Verif.Sdb.Index
/-
Model of one open file of a database: `s_sis_disk_ctrl` with the functions that write blocks, dictionaries and map records
(src/core/disk/sis_disk.io.c, src/core/disk/sis_disk.io.sdb.c).
-/
namespace Sis.Sdb
open Sis Sis.Disk
open Sis.Dyn (sameN getN setN Db)

/-- The kinds of files: `SIS_DISK_TYPE_SDB`, `SIS_DISK_TYPE_SDB_NOTS`, `SIS_DISK_TYPE_SDB_YEAR`, `SIS_DISK_TYPE_SDB_DATE`
(src/core/disk/sis_disk.io.h). -/
inductive Kind
  | main | nots | year | date
deriving DecidableEq, Repr

/-- `s_sis_disk_map` (src/core/disk/sis_disk.io.h:366-380): marks by date (an unsigned number of 32 bits), a list in which setting a date that is there
replaces the mark (`sis_sort_list_set`, C42). -/
structure MapE where
  active : Nat
  ktype : Nat
  days : List (Nat × Nat)
deriving DecidableEq, Repr

/-- `s_sis_disk_ctrl` (src/core/disk/sis_disk.io.h:384-440) of a file that is open: the blocks in the file, the
dictionaries, what has to be added to the dictionaries in the file, the index, the marks of the main file, and the fields
of `wcatch->winfo`, which are kept from one write to the next. -/
structure Ctl where
  kind : Kind
  body : Bytes := []
  kd : List Bytes := []
  newk : List Bytes := []
  sd : TDict := []
  news : List Tab := []
  idx : Idx := []
  maps : List (Bytes × MapE) := []
  win : IUnit := {}

/-- The main file has no index and is not compressed (src/core/disk/sis_disk.io.c:64-131). -/
def Ctl.indexed (c : Ctl) : Bool := c.kind != .main

/-- `sis_disk_ctrl_set_kdict` (src/core/disk/sis_disk.io.c:482-493). -/
def setKey (c : Ctl) (k : Bytes) : Ctl :=
  if (getKey c.kd k).isSome then c else { c with kd := c.kd ++ [k], newk := c.newk ++ [k] }

/-- `sis_disk_ctrl_set_sdict` (src/core/disk/sis_disk.io.c:497-528). -/
def setTab (c : Ctl) (t : Tab) : Ctl :=
  if (addTab c.sd t).2 then { c with sd := (addTab c.sd t).1, news := c.news.filter (fun n => !sameN n.name t.name) ++ [t] }
  else c

/-- `sis_disk_idx_get` (src/core/disk/sis_disk_ctrl.c:67-86): the node, made when it is not there. -/
def idxGet (idx : Idx) (k : Bytes) (s : Option Bytes) : Idx × Node :=
  match getN idx (nodeName k s) with
  | some n => (idx, n)
  | none => ((setN idx (nodeName k s) ⟨some k, s, []⟩).1, ⟨some k, s, []⟩)

/-- A change of the node that `sis_disk_idx_get` returns (src/core/disk/sis_disk_ctrl.c:67-86). -/
def idxUpd (idx : Idx) (k : Bytes) (s : Option Bytes) (f : List IUnit → List IUnit) : Idx :=
  let n := (idxGet idx k s).2
  (setN (idxGet idx k s).1 (nodeName k s) { n with units := f n.units }).1

/-- `sis_disk_io_write_noidx` and `sis_disk_io_write_sdb_work` (src/core/disk/sis_disk.io.sdb.c:6-37): the block goes to the
end of the file and, if the file has an index, to the end of the node. -/
def writeWork (lib : Lib) (c : Ctl) (z : Bool) (k : Bytes) (s : Option Bytes) (hid : Nat) (win : IUnit) (d : Bytes) : Ctl × IUnit :=
  let b := block lib z hid d
  let win := { win with fidx := 0, offset := mainHead + c.body.length, size := b.length }
  if c.indexed then
    let win := { win with active := (win.active + 1) % 256 }
    ({ c with body := c.body ++ b, idx := idxUpd c.idx k s fun us => us ++ [win] }, win)
  else ({ c with body := c.body ++ b }, win)

/-- `sis_disk_ctrl_write_kdict` (src/core/disk/sis_disk.io.c:383-412). -/
def writeKeys (lib : Lib) (c : Ctl) : Ctl :=
  if c.newk = [] then c
  else { (writeWork lib c false signKeys none hidKeys {} (joinNames c.newk)).1 with newk := [] }

/-- `sis_disk_ctrl_write_sdict` (src/core/disk/sis_disk.io.c:411-443). -/
def writeTabs (lib : Lib) (c : Ctl) : Ctl :=
  if c.news = [] then c
  else { (writeWork lib c false signTabs none hidTabs {} (lib.text c.news)).1 with news := [] }

/-- A `uint64` as a `double`: to the nearest number with 53 bits, to the even one of two (src/core/sis_math.h:190-211). -/
def dbl (n : Nat) : Nat :=
  if n < 2 ^ 53 then n
  else
    let e := n.log2 - 52
    let q := n / 2 ^ e
    let r := n % 2 ^ e
    (if 2 ^ (e - 1) < r ∨ (r = 2 ^ (e - 1) ∧ q % 2 = 1) then q + 1 else q) * 2 ^ e

/-- `sis_is_mixed` (src/core/sis_math.h:190-211) on whole numbers: a gap above 0.001 is one that is not 0. -/
def mixed (a b c d : Nat) : Bool :=
  if a = d ∨ c = b then true
  else if a > d ∨ c > b then false
  else decide (max a c < min b d)

/-- The blocks `sis_disk_io_merge_sdb` (src/core/disk/sis_disk.io.sdb.c:39-65) keeps. -/
def keep (win : IUnit) (us : List IUnit) : List IUnit :=
  if (win.start = 0 ∧ win.stop = 0) ∨ win.start > win.stop then []
  else us.filter fun u => !mixed (dbl win.start) (dbl win.stop) (dbl u.start) (dbl u.stop)

/-- `sis_disk_io_merge_sdb` (src/core/disk/sis_disk.io.sdb.c:39-65). -/
def mergeSdb (c : Ctl) (k : Bytes) (s : Option Bytes) (win : IUnit) : Ctl := { c with idx := idxUpd c.idx k s (keep win) }

/-- A block of data written with the old ones it replaces removed, as the four functions that follow do it (src/core/disk/sis_disk.io.sdb.c:67-156). -/
def writeMsg (lib : Lib) (c : Ctl) (k : Bytes) (s : Option Bytes) (hid ktype : Nat) (win : IUnit) (d : Bytes) : Ctl :=
  let c := mergeSdb c k s win
  let r := writeWork lib c c.indexed k s hid { win with ktype := ktype } d
  { r.1 with win := r.2 }

/-- `sis_disk_io_write_one` (src/core/disk/sis_disk.io.sdb.c:67-83); `kdict_` is NULL for a key that is not in the dictionary. -/
def writeOne (lib : Lib) (c : Ctl) (k : Bytes) (d : Bytes) : Option Ctl :=
  (getKey c.kd k).map fun (k, i) =>
    writeMsg lib c k none hidOne 2 { c.win with sdict := 0 } (catSsize i ++ catSsize d.length ++ d)

/-- `sis_disk_io_write_mul` (src/core/disk/sis_disk.io.sdb.c:84-103). -/
def writeMul (lib : Lib) (c : Ctl) (k : Bytes) (l : List Bytes) : Option Ctl :=
  (getKey c.kd k).map fun (k, i) =>
    writeMsg lib c k none hidMul 3 { c.win with sdict := 0 }
      (catSsize i ++ catSsize l.length ++ l.flatMap fun d => catSsize d.length ++ d)

/-- `sis_disk_map_get_sdict` (src/core/disk/sis_disk_ctrl.c:375-379): name, number and definitions. -/
def getTab (sd : TDict) (s : Bytes) : Option ((Bytes × List Db) × Nat) := sd.zipIdx.find? fun e => sameN s e.1.1

/-- What `sis_disk_io_write_non` and `sis_disk_io_write_sdb` (src/core/disk/sis_disk.io.sdb.c:104-156) have in common; `ts`
gives the times of the first and the last record.  Bytes that are not whole records are refused, that is nothing is done. -/
def writeTab (lib : Lib) (c : Ctl) (k s : Bytes) (hid ktype : Nat) (ts : Db → IUnit → Option IUnit) (d : Bytes) : Option Ctl :=
  (getTab c.sd s).bind fun ((s, dbs), si) =>
    match dbs.getLast? with
    | none => some c
    | some db =>
      if db.size = 0 then none
      else if d.length % db.size ≠ 0 then some c
      else
        (getKey c.kd k).bind fun (k, i) =>
          (ts db c.win).map fun win =>
            writeMsg lib c k (some s) hid ktype { win with sdict := dbs.length % 256 } (catSsize i ++ catSsize si ++ d)

/-- `sis_disk_io_write_non` (src/core/disk/sis_disk.io.sdb.c:104-129). -/
def writeNon (lib : Lib) (c : Ctl) (k s d : Bytes) : Option Ctl := writeTab lib c k s hidNon 1 (fun _ w => some w) d

/-- The times of the first and the last record of a block; for an empty one the code reads in front of it (src/core/disk/sis_disk.io.sdb.c:130-156). -/
def blockTimes (db : Db) (d : Bytes) : Option (Nat × Nat) :=
  if d.length / db.size = 0 then none
  else (Dyn.getTime db 0 d).bind fun a => (Dyn.getTime db (d.length / db.size - 1) d).map fun b => (a, b)

/-- `sis_disk_io_write_sdb` (src/core/disk/sis_disk.io.sdb.c:130-156). -/
def writeSdb (lib : Lib) (c : Ctl) (k s d : Bytes) : Option Ctl :=
  writeTab lib c k s hidSdb 0 (fun db w => (blockTimes db d).map fun (a, b) => { w with start := a, stop := b }) d

/-- `sis_disk_ctrl_write_stop` (src/core/disk/sis_disk.io.c:803-858) on a data file: the blocks and the index file.  An index
without any block is refused by the code, with the file left open; that is not reached by a writer and not modelled. -/
def closeUnit (lib : Lib) (c : Ctl) : Option (Bytes × Bytes) :=
  (encIdx lib c.idx).bind fun bs => if bs = [] then none else some (c.body, idxFile bs)

/-- `sis_disk_ctrl_write_start` and `sis_disk_ctrl_read_start` (src/core/disk/sis_disk.io.c:620-683, 714-800) on a data file
that exists: new blocks go behind the ones that are there. -/
def openUnit (lib : Lib) (kind : Kind) (f : Bytes × Bytes) : Option Ctl :=
  (readIdx lib f.1 f.2).map fun r => { kind := kind, body := f.1, kd := r.kd, sd := r.sd, idx := r.idx }

/-! ### Map records of the main file -/

/-- `sis_sort_list_find` and `sis_sort_list_set` by what C42 says of them, up to the order of the list (src/core/sis_list.c:701-722, 779-799). -/
def getDay (l : List (Nat × Nat)) (d : Nat) : Option Nat := (l.find? fun e => e.1 == d).map (·.2)
/-- The same for `sis_sort_list_set` (src/core/sis_list.c:701-722). -/
def setDay : List (Nat × Nat) → Nat → Nat → List (Nat × Nat)
  | [], d, v => [(d, v)]
  | e :: l, d, v => if e.1 == d then (d, v) :: l else e :: setDay l d v

/-- The number of a table in a map record, 0 for none (src/core/disk/sis_disk.io.sdb.c:206-213). -/
def tabRef : Option Nat → Nat
  | some i => i + 1
  | none => 0

/-- The bytes of a map record (src/core/disk/sis_disk.io.sdb.c:202-232).  In the call for the mark itself number and width
are exchanged: a mark 1 is written as one byte, a mark 0 as none. -/
def encMap (ki : Nat) (si : Option Nat) (e : MapE) (day : Nat) (mark : Nat) : Bytes :=
  catSsize ki ++ catSsize (tabRef si) ++ catByte e.active 1 ++ catByte e.ktype 1 ++ catSsize 1 ++ catByte 1 mark ++ catSsize day

/-- `sis_disk_io_write_map` (src/core/disk/sis_disk.io.sdb.c:158-240). -/
def writeMap (lib : Lib) (c : Ctl) (k : Bytes × Nat) (s : Option (Bytes × Nat)) (ktype : Nat) (day : Nat) (moved : Bool) : Ctl :=
  let name := shortName k.1 (s.map (·.1))
  match getN c.maps name with
  | none =>
    if moved then c
    else
      let e : MapE := ⟨1, ktype, [(day, 1)]⟩
      { (writeWork lib c false k.1 none hidMap c.win (encMap k.2 (s.map (·.2)) e day 1)).1 with maps := (setN c.maps name e).1 }
  | some e =>
    match getDay e.days day with
    | none =>
      if moved then c
      else
        let e := { e with days := setDay e.days day 1 }
        { (writeWork lib c false k.1 none hidMap c.win (encMap k.2 (s.map (·.2)) e day 1)).1 with maps := (setN c.maps name e).1 }
    | some _ =>
      if moved then
        let e := { e with days := setDay e.days day 0 }
        { (writeWork lib c false k.1 none hidMap c.win (encMap k.2 (s.map (·.2)) e day 0)).1 with maps := (setN c.maps name e).1 }
      else c

/-- The marks of a record that is read (src/core/disk/sis_disk.io.sdb.c:666-674). -/
def decDays : Nat → List (Nat × Nat) → Bytes → Option (List (Nat × Nat))
  | 0, l, _ => some l
  | n + 1, l, m =>
    (getByte 1 m).bind fun (a, m) => (getSsize m).bind fun (d, m) =>
      decDays n (setDay l (d % 2 ^ 32) a) m

/-- `sis_disk_map_merge` (src/core/disk/sis_disk_ctrl.c:417-426). -/
def mergeDays (old new : List (Nat × Nat)) : List (Nat × Nat) := new.foldl (fun l e => setDay l e.1 e.2) old

/-- `cb_sis_disk_io_read_sdb_map` (src/core/disk/sis_disk.io.sdb.c:627-700) on one block. -/
def decMain (lib : Lib) (c : Ctl) (b : UInt8 × Bytes) : Option Ctl :=
  if hidOf b.1 = hidKeys then some { c with kd := loadKeys c.kd b.2 }
  else if hidOf b.1 = hidTabs then some { c with sd := loadTabs lib c.sd b.2 }
  else if hidOf b.1 = hidMap then
    (getSsize b.2).bind fun (ki, m) => (getSsize m).bind fun (si, m) =>
      (if ki % 2 ^ 32 < 2 ^ 31 then c.kd[ki % 2 ^ 32]? else none).bind fun k =>
        let s : Option Bytes := if 0 < si % 2 ^ 32 ∧ si % 2 ^ 32 ≤ 2 ^ 31 then (c.sd[si % 2 ^ 32 - 1]?).map (·.1) else none
        (getByte 1 m).bind fun (active, m) => (getByte 1 m).bind fun (ktype, m) => (getSsize m).bind fun (n, m) =>
          (decDays (asCount n) [] m).map fun days =>
            let name := shortName k s
            match getN c.maps name with
            | some e => { c with maps := (setN c.maps name { e with days := mergeDays e.days days }).1 }
            | none => { c with maps := (setN c.maps name ⟨active, ktype, days⟩).1 }
  else some c

/-- The blocks of the main file in order (src/core/disk/sis_disk.io.sdb.c:702-720). -/
def decMains (lib : Lib) : Ctl → List (UInt8 × Bytes) → Option Ctl
  | c, [] => some c
  | c, b :: bs => (decMain lib c b).bind fun c => decMains lib c bs

/-- The blocks of a file with the tail behind them (src/core/disk/sis_disk.io.c:803-858). -/
def withTail (body : Bytes) : Bytes := body ++ headByte 1 0 hidTail :: List.replicate 47 0

/-- `sis_disk_io_read_sdb_map` (src/core/disk/sis_disk.io.sdb.c:702-720) when the main file is opened. -/
def openMain (lib : Lib) (body : Bytes) : Option Ctl :=
  (readFull (fun _ _ => .next) (chunksOf (readSize - 1) (withTail body))).bind fun bs => decMains lib { kind := .main, body := body } bs

end Sis.Sdb
