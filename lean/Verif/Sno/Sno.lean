import Verif.Sdb.Writer
import Verif.Server.Sub
/-
Model of the files that keep records of all keys and tables in the order in which they came ("SNO" files):
src/core/disk/sis_disk.io.sno.c, with the calls of src/core/disk/sis_disk_write.c and src/core/disk/sis_disk_read.c.

Blocks, dictionaries and the table of nodes are those of `Verif/Sdb`.  What was left out there is left out here: the cache of
written bytes, the second file when one reaches 0xFF000000 bytes, the checks of the tail of an index, errors of the file
system.  A subscriber that ends its subscription does so in a call it gets, not from another thread.

Reading outside of a buffer and using a NULL pointer are the outcome `none`.
-/
namespace Sis.Sno
open Sis Sis.Disk Sis.Sdb
open Sis.Dyn (sameN getN setN Db)

/-- `SIS_DISK_HID_MSG_SNO` (src/core/disk/sis_disk.io.h:139). -/
def hidSno : Nat := 5
/-- `SIS_DISK_HID_SNO_END` (src/core/disk/sis_disk.io.h:143). -/
def hidEnd : Nat := 6
/-- `SIS_DISK_HID_INDEX_SNO` (src/core/disk/sis_disk.io.h:173). -/
def hidIdxSno : Nat := 0x12
/-- `SIS_DISK_HID_INDEX_END` (src/core/disk/sis_disk.io.h:184). -/
def hidIdxEnd : Nat := 0x14

/-- `s_sis_disk_wcatch` (src/core/disk/sis_disk.io.h:314-322): the records of a key and a table that are not yet written.  A
SNO file has the number of a page (`ipage`) where the files of `Verif/Sdb` have the time of the last record, which is never set
here: the model keeps the number of the page in `win.stop`. -/
structure Catch where
  kname : Bytes
  sname : Bytes
  mem : Bytes := []
  win : IUnit := {}
deriving DecidableEq

/-- `s_sis_disk_ctrl` (src/core/disk/sis_disk.io.h:401-455) of an open SNO file.  `c`: blocks, dictionaries and nodes; its kind
stands for `SIS_DISK_TYPE_SNO`, a file with an index.  `ends`: the blocks of the node "_ends_", which is kept apart from the other
nodes.  `pages` to `series`: `sno_pages`, `sno_msec`, `sno_count`, `sno_size`, `sno_series`.  `cats`: `sno_wcatch`, which is
NULL before `sis_disk_writer_start` and after `sis_disk_writer_stop`. -/
structure File where
  c : Ctl := { kind := .date }
  ends : List IUnit := []
  pages : Nat := 0
  msec : Nat := 0
  count : Nat := 0
  size : Nat := 0
  series : Nat := 0
  cats : Option (List (Bytes × Catch)) := none

/-! ### Writing -/

/-- `sis_disk_writer_set_kdict` (src/core/disk/sis_disk_write.c:145-172) on a file that has no other units. -/
def setKeys (lib : Lib) (f : File) (s : Bytes) : File :=
  if s = [] then f else { f with c := writeKeys lib ((splitNames s).foldl setKey f.c) }

/-- `sis_disk_writer_set_sdict` (src/core/disk/sis_disk_write.c:175-209) for the tables its JSON text describes. -/
def setTabs (lib : Lib) (f : File) (ts : List Tab) : File := { f with c := writeTabs lib (ts.foldl setTab f.c) }

/-- `sis_disk_writer_start` (src/core/disk/sis_disk_write.c:226-248) with `sis_disk_io_write_sno_start`
(src/core/disk/sis_disk.io.sno.c:144-158). -/
def start (lib : Lib) (f : File) : File :=
  { f with c := writeTabs lib (writeKeys lib f.c), msec := 0, count := 0, size := 0, series := 0, cats := some [] }

/-- One pass of the loop of `_disk_io_write_sno_watch` (src/core/disk/sis_disk.io.sno.c:163-174): the block. -/
def putCat (lib : Lib) (c : Ctl) (t : Catch) : Ctl :=
  if t.mem = [] then c else (writeWork lib c true t.kname (some t.sname) hidSno t.win t.mem).1

/-- `sis_disk_wcatch_clear` (src/core/disk/sis_disk_ctrl.c:122-129) in that loop. -/
def clearCat (t : Catch) : Catch := if t.mem = [] then t else { t with mem := [], win := {} }

/-- The content of the block that ends a page (src/core/disk/sis_disk.io.sno.c:181-183). -/
def encStop (f : File) : Bytes := catSsize f.msec ++ catSsize f.pages ++ catSsize f.count

/-- The block that ends a page (src/core/disk/sis_disk.io.sno.c:176-187). -/
def putEnd (lib : Lib) (f : File) : File :=
  let b := block lib false hidEnd (encStop f)
  { f with
    c := { f.c with body := f.c.body ++ b }
    ends := f.ends ++ [{ active := 1, offset := mainHead + f.c.body.length, size := b.length, start := f.msec }] }

/-- `_disk_io_write_sno_watch` (src/core/disk/sis_disk.io.sno.c:159-194). -/
def flush (lib : Lib) (f : File) : Option File :=
  f.cats.map fun cats =>
    { putEnd lib { f with
        c := cats.foldl (fun c e => putCat lib c e.2) f.c
        cats := some (cats.map fun e => (e.1, clearCat e.2))
        pages := f.pages + 1 } with size := 0, series := 0 }

/-- `sis_disk_io_write_sno_stop` (src/core/disk/sis_disk.io.sno.c:195-201). -/
def stop (lib : Lib) (f : File) : Option File := (flush lib f).map fun f => { f with cats := none }

/-- The records in a buffer (src/core/disk/sis_disk.io.sno.c:241-246). -/
def slices (size : Nat) (d : Bytes) : List Bytes := (List.range (d.length / size)).map fun i => (d.drop (i * size)).take size

/-- The loop over the records (src/core/disk/sis_disk.io.sno.c:241-246): every record behind its number. -/
def numbered : Nat → List Bytes → Bytes
  | _, [] => []
  | i, r :: rs => catSsize i ++ r ++ numbered (i + 1) rs

/-- The time of the last record in milliseconds: `_set_disk_io_sno_msec` (src/core/disk/sis_disk.io.sno.c:202-211).  Without
any record the code reads in front of the buffer. -/
def lastMsec (v : Time.Env) (db : Db) (d : Bytes) : Option Nat :=
  match db.time with
  | none => some 0
  | some a =>
    if d.length / db.size = 0 then none
    else
      (Dyn.getTime db (d.length / db.size - 1) d).bind fun t => (Dyn.unit db a).bind fun f =>
        match Dyn.timeStyle f.style with
        | none => some t
        | some st => Time.convert v st .msec t

/-- The first bytes of a block, for an empty one (src/core/disk/sis_disk.io.sno.c:230-235). -/
def openCat (db : Db) (ki si : Nat) (t : Catch) (d : Bytes) : Option Catch :=
  if t.mem = [] then
    (Dyn.getTime db 0 d).map fun s => { t with mem := catSsize ki ++ catSsize si, win := { t.win with start := s } }
  else some t

/-- `sis_disk_io_write_sno` (src/core/disk/sis_disk.io.sno.c:212-259); `limit` is `max_page_size`.  Bytes that are not whole
records are refused. -/
def ioWrite (lib : Lib) (v : Time.Env) (limit : Nat) (f : File) (k : Bytes × Nat) (s : Bytes × Nat) (dbs : List Db) (d : Bytes) : Option File :=
  match dbs.getLast? with
  | none => some f
  | some db =>
    if db.size = 0 then none
    else if d.length % db.size ≠ 0 then some f
    else
      f.cats.bind fun cats =>
        let name := shortName k.1 (some s.1)
        let old := (getN cats name).getD { kname := k.1, sname := s.1 }
        (openCat db k.2 s.2 old d).bind fun t =>
          (lastMsec v db d).bind fun ms =>
            let rs := slices db.size d
            let t := { t with mem := t.mem ++ numbered f.series rs, win := { t.win with sdict := dbs.length % 256, stop := f.pages } }
            let f := { f with
              cats := some (setN cats name t).1
              count := f.count + rs.length
              size := f.size + (t.mem.length - old.mem.length)
              series := f.series + rs.length
              msec := max f.msec ms }
            if limit < f.size then flush lib f else some f

/-- `sis_disk_writer_sno` (src/core/disk/sis_disk_write.c:296-315). -/
def put (lib : Lib) (v : Time.Env) (limit : Nat) (f : File) (k s d : Bytes) : Option File :=
  match getTab f.c.sd s with
  | none => some f
  | some ((s, dbs), si) =>
    let c := if (getKey f.c.kd k).isSome then f.c else writeKeys lib (setKey f.c k)
    (getKey c.kd k).bind fun k => ioWrite lib v limit { f with c := c } k (s, si) dbs d

/-- `SIS_DISK_MAXLEN_SNOPAGE` (src/core/disk/sis_disk.io.h:114). -/
def snoPage : Nat := 0x1FFFFFFF

/-! ### The index -/

/-- The bytes of one block of a node (src/core/disk/sis_disk.io.sno.c:352-359). -/
def encUnit (u : IUnit) : Bytes :=
  catByte u.active 1 ++ catByte u.ktype 1 ++ catByte u.sdict 1 ++ catSsize u.fidx ++ catSsize u.offset ++ catSsize u.size ++
    catSsize u.start ++ catSsize u.stop

/-- The bytes of a node (src/core/disk/sis_disk.io.sno.c:334-360). -/
def encNode (n : Node) : Option Bytes :=
  n.kname.map fun k =>
    catSsize k.length ++ k ++ (match n.sname with
      | some s => catSsize s.length ++ s
      | none => catSsize 0) ++ catSsize n.units.length ++ n.units.flatMap encUnit

/-- The loop over the nodes (src/core/disk/sis_disk.io.sno.c:324-371): the contents of the blocks; `mem` is the buffer. -/
def encPages : Bytes → List Node → Option (List Bytes)
  | mem, [] => some (if mem = [] then [] else [mem])
  | mem, n :: ns =>
    (encNode n).bind fun b =>
      if idxPage < (mem ++ b).length then (encPages [] ns).map fun ps => (mem ++ b) :: ps
      else encPages (mem ++ b) ns

/-- The blocks with these contents: when one could not be compressed the next ones are not (src/core/disk/sis_disk.io.sdb.c:6-26,
src/core/disk/sis_disk.io.sno.c:321-371). -/
def packs (lib : Lib) (hid : Nat) : Bool → List Bytes → List (UInt8 × Bytes)
  | _, [] => []
  | z, p :: ps => packed lib z hid p :: packs lib hid (z && (lib.compress p).isSome) ps

/-- The content of the index block of the node "_ends_" (src/core/disk/sis_disk.io.sno.c:302-314). -/
def encEnds (us : List IUnit) : Bytes := catSsize us.length ++ us.flatMap fun u => encRef u ++ catSsize u.start

/-- `sis_disk_io_write_sno_widx` (src/core/disk/sis_disk.io.sno.c:261-375): the blocks of the index file. -/
def encIdx (lib : Lib) (idx : Idx) (ends : List IUnit) : Option (List (UInt8 × Bytes)) :=
  let keys := match getN idx signKeys with
    | some n => [packed lib true hidIdxKeys (encRefs n.units)]
    | none => []
  let tabs := match getN idx signTabs with
    | some n => [packed lib true hidIdxTabs (encRefs n.units)]
    | none => []
  let stops := if ends = [] then [] else [packed lib true hidIdxEnd (encEnds ends)]
  let rest := (idx.filter fun e => !sameN signKeys e.1 && !sameN signTabs e.1).map (·.2)
  (encPages [] rest).map fun ps => keys ++ tabs ++ stops ++ packs lib hidIdxSno true ps

/-- `sis_disk_writer_close` with `sis_disk_ctrl_write_stop` (src/core/disk/sis_disk_write.c:76-100,
src/core/disk/sis_disk.io.c:803-858): the blocks and the index file. -/
def close (lib : Lib) (f : File) : Option (Bytes × Bytes) :=
  (encIdx lib f.c.idx f.ends).bind fun bs => if bs = [] then none else some (f.c.body, idxFile bs)

/-- What is being read of an index, with the largest number of a page so far in the block (src/core/disk/sis_disk.io.sno.c:671-798). -/
structure Rd where
  r : Sdb.Rd := ⟨[], [], []⟩
  ends : List IUnit := []
  pages : Nat := 0
  top : Nat := 0

/-- One block of a node (src/core/disk/sis_disk.io.sno.c:760-773); numbers of pages have 32 bits. -/
def decUnit (m : Bytes) : Option (IUnit × Bytes) :=
  (getByte 1 m).bind fun (active, m) => (getByte 1 m).bind fun (ktype, m) => (getByte 1 m).bind fun (sdict, m) =>
    (getSsize m).bind fun (fidx, m) => (getSsize m).bind fun (off, m) => (getSsize m).bind fun (size, m) =>
      (getSsize m).bind fun (start, m) => (getSsize m).map fun (page, m) =>
        (⟨active, ktype, sdict, fidx % 2 ^ 16, off, size, start, page % 2 ^ 32⟩, m)

/-- `n` blocks of a node (src/core/disk/sis_disk.io.sno.c:758-774). -/
def decUnits : Nat → Bytes → Option (List IUnit × Bytes)
  | 0, m => some ([], m)
  | n + 1, m => (decUnit m).bind fun (u, m) => (decUnits n m).map fun (us, m) => (u :: us, m)

/-- One node of an index block (src/core/disk/sis_disk.io.sno.c:730-777). -/
def decNode (r : Rd) (m : Bytes) : Option (Rd × Bytes) :=
  (getSsize m).bind fun (klen, m) => (if klen % 2 ^ 32 < 2 ^ 31 then takeBytes (asCount klen) m else none).bind fun (k, m) =>
    (getSsize m).bind fun (slen, m) => (takeBytes (asCount slen) m).bind fun (s, m) =>
      (getKey r.r.kd k).bind fun (kname, _) =>
        let sname : Option Bytes := if s = [] then none else (r.r.sd.find? fun e => sameN s e.1).map (·.1)
        (getSsize m).bind fun (blocks, m) => (decUnits (asCount blocks) m).map fun (us, m) =>
          ({ r with
            r := { r.r with idx := (setN r.r.idx (shortName k (if s = [] then none else some s)) ⟨some kname, sname, us⟩).1 }
            top := us.foldl (fun t u => max t u.stop) r.top }, m)

/-- All nodes of an index block: every pass takes bytes, as many passes as bytes are enough (src/core/disk/sis_disk.io.sno.c:680-785). -/
def decNodes : Nat → Rd → Bytes → Option Rd
  | 0, r, m => if m = [] then some r else none
  | n + 1, r, m => if m = [] then some r else (decNode r m).bind fun (r, m) => decNodes n r m

/-- The blocks of the node "_ends_" (src/core/disk/sis_disk.io.sno.c:711-725). -/
def decStops : Nat → Bytes → Option (List IUnit × Bytes)
  | 0, m => some ([], m)
  | n + 1, m =>
    (getSsize m).bind fun (fidx, m) => (getSsize m).bind fun (off, m) => (getSsize m).bind fun (size, m) => (getSsize m).bind fun (start, m) =>
      (decStops n m).map fun (us, m) => ({ fidx := fidx % 2 ^ 16, offset := off, size := size, start := start } :: us, m)

/-- An index block of the node "_ends_" (src/core/disk/sis_disk.io.sno.c:711-727). -/
def decEnds : Nat → Rd → Bytes → Option Rd
  | 0, r, m => if m = [] then some r else none
  | f + 1, r, m =>
    if m = [] then some r
    else (getSsize m).bind fun (n, m) => (decStops (asCount n) m).bind fun (us, m) => decEnds f { r with ends := us } m

/-- `sis_disk_io_unzip_widx` (src/core/disk/sis_disk_files.c:659-679). -/
def unzipIdx (lib : Lib) (b : UInt8 × Bytes) : Bytes :=
  if zipOf b.1 = 0 then b.2 else if zipOf b.1 = 1 then (lib.uncompress b.2).getD [] else []

/-- The nodes of one block of an index; a block of another kind that is not empty is never left (`none`)
(src/core/disk/sis_disk.io.sno.c:680-785). -/
def decContent (lib : Lib) (body : Bytes) (r : Rd) (hid : Nat) (m : Bytes) : Option Rd :=
  if hid = hidIdxKeys then (decDict lib body true m.length r.r m).map fun x => { r with r := x }
  else if hid = hidIdxTabs then (decDict lib body false m.length r.r m).map fun x => { r with r := x }
  else if hid = hidIdxEnd then decEnds m.length r m
  else if hid = hidIdxSno then decNodes m.length r m
  else if m = [] then some r
  else none

/-- `cb_sis_disk_io_read_sno_widx` (src/core/disk/sis_disk.io.sno.c:671-798) on one block: the number of pages is set anew by
every block. -/
def decBlock (lib : Lib) (body : Bytes) (r : Rd) (b : UInt8 × Bytes) : Option Rd :=
  (decContent lib body { r with top := 0 } (hidOf b.1) (unzipIdx lib b)).map fun r => { r with pages := r.top + 1 }

/-- The blocks of an index in order (src/core/disk/sis_disk.io.sno.c:800-823). -/
def decIdx (lib : Lib) (body : Bytes) : Rd → List (UInt8 × Bytes) → Option Rd
  | r, [] => some r
  | r, b :: bs => (decBlock lib body r b).bind fun r => decIdx lib body r bs

/-- `sis_disk_io_read_sno_widx` (src/core/disk/sis_disk.io.sno.c:800-823). -/
def readIdx (lib : Lib) (body file : Bytes) : Option Rd :=
  (readFull (fun _ _ => .next) (chunksOf (readSize - 1) file)).bind fun bs => decIdx lib body {} bs

/-- `sis_disk_ctrl_write_start` and `sis_disk_ctrl_read_start` (src/core/disk/sis_disk.io.c:620-683, 714-800) on a SNO file
that exists: new blocks go behind the ones that are there. -/
def openFile (lib : Lib) (f : Bytes × Bytes) : Option File :=
  (readIdx lib f.1 f.2).map fun r =>
    { c := { kind := .date, body := f.1, kd := r.r.kd, sd := r.r.sd, idx := r.r.idx }, ends := r.ends, pages := r.pages }

/-- A call of a writer (src/core/disk/sis_disk_write.c:145-315). -/
inductive Cmd
  | keys (s : Bytes)
  | tabs (ts : List Tab)
  | start
  | put (k s d : Bytes)
  | stop

/-- The calls (src/core/disk/sis_disk_write.c:145-315). -/
def step (lib : Lib) (v : Time.Env) (limit : Nat) (f : File) : Cmd → Option File
  | .keys s => some (setKeys lib f s)
  | .tabs ts => some (setTabs lib f ts)
  | .start => some (start lib f)
  | .put k s d => put lib v limit f k s d
  | .stop => stop lib f

/-- Opening, calls and closing: `sis_disk_writer_open` to `sis_disk_writer_close` (src/core/disk/sis_disk_write.c:46-100). -/
def session (lib : Lib) (v : Time.Env) (limit : Nat) (old : Option (Bytes × Bytes)) (cs : List Cmd) : Option (Bytes × Bytes) :=
  ((match old with
    | none => some {}
    | some f => openFile lib f) : Option File).bind fun f => (cs.foldlM (step lib v limit) f).bind (close lib)

/-! ### Reading -/

/-- `s_sis_db_chars` (src/core/disk/sis_disk.io.h:378-384): a record with the names of its key and its table. -/
structure Rec where
  key : Bytes
  tab : Bytes
  data : Bytes
deriving DecidableEq, Repr

/-- `s_sis_disk_sno_rctrl` (src/core/disk/sis_disk.io.sno.c:8-60): the slots that are in use, by number.
`sis_disk_sno_rctrl_set` fills a slot. -/
def setSlot : List (Nat × Rec) → Nat → Rec → List (Nat × Rec)
  | [], i, r => [(i, r)]
  | e :: l, i, r => if i < e.1 then (i, r) :: e :: l else if i = e.1 then (i, r) :: l else e :: setSlot l i r

/-- The first loop of `sis_disk_sno_rctrl_push` (src/core/disk/sis_disk.io.sno.c:72-80): numbers and records.  As many passes
as bytes are enough.  A number that does not fit into an `int`, and a record that is not all there, lead out of a buffer. -/
def splitRecs (size : Nat) : Nat → Bytes → Option (List (Nat × Bytes))
  | 0, m => if m = [] then some [] else none
  | f + 1, m =>
    if m = [] then some []
    else
      (getSsize m).bind fun (i, m) =>
        if i < 2 ^ 31 then (takeBytes size m).bind fun (r, m) => (splitRecs size f m).map fun l => (i, r) :: l
        else none

/-- `sis_disk_sno_rctrl_push` (src/core/disk/sis_disk.io.sno.c:61-99). -/
def pushRecs (rc : List (Nat × Rec)) (k s : Bytes) (size : Nat) (m : Bytes) : Option (List (Nat × Rec)) :=
  if size = 0 then none
  else (splitRecs size m.length m).map fun l => l.foldl (fun rc e => setSlot rc e.1 ⟨k, s, e.2⟩) rc

/-- An entry of a list by a number that was kept in an `int` (`sis_map_list_geti`, src/core/sis_map.c:284-295). -/
def nth {α : Type} (l : List α) (i : Nat) : Option α := if i % 2 ^ 32 < 2 ^ 31 then l[i % 2 ^ 32]? else none

/-- `_sis_disk_read_hid_sno` (src/core/disk/sis_disk.io.sno.c:382-399). -/
def readHid (c : Ctl) (rc : List (Nat × Rec)) (m : Bytes) : Option (List (Nat × Rec)) :=
  (getSsize m).bind fun (ki, m) => (getSsize m).bind fun (si, m) =>
    match nth c.kd ki, nth c.sd si with
    | some k, some (s, dbs) => dbs.getLast?.bind fun db => pushRecs rc k s db.size m
    | _, _ => some rc

/-- What a subscriber got through `cb_chardata`, and whether it ended the subscription (src/core/disk/sis_disk.io.sno.c:400-421). -/
abbrev Heard := List Rec × Bool

/-- `sis_disk_sno_rctrl_start` with `sis_disk_sno_rctrl_rpop` (src/core/disk/sis_disk.io.sno.c:107-139, 400-421): the records in the
order of their numbers.  `quit`: whether the subscriber calls `sis_disk_reader_unsub` in the call for the last of these records. -/
def deliver (quit : List Rec → Bool) : Heard → List Rec → Heard
  | h, [] => h
  | h, r :: rs => if h.2 then h else deliver quit (h.1 ++ [r], quit (h.1 ++ [r])) rs

/-- `cb_sis_disk_io_read_sno` (src/core/disk/sis_disk.io.sno.c:422-475) on the blocks of the file, up to the one that makes it stop. -/
def playBlocks (lib : Lib) (c : Ctl) (quit : List Rec → Bool) : List (Nat × Rec) → Heard → List (UInt8 × Bytes) → Option Heard
  | _, h, [] => some h
  | rc, h, b :: bs =>
    if h.2 then some h
    else
      match unzip lib b.1 b.2 with
      | none => playBlocks lib c quit rc h bs
      | some m =>
        if hidOf b.1 = hidSno then (readHid c rc m).bind fun rc => playBlocks lib c quit rc h bs
        else if hidOf b.1 = hidEnd then playBlocks lib c quit [] (deliver quit h (rc.map (·.2))) bs
        else playBlocks lib c quit rc h bs

/-- The list that stands for everything (src/core/disk/sis_disk_ctrl.c:203-227). -/
def star : Bytes := [42]

/-- `_disk_io_sub_sno_parts` (src/core/disk/sis_disk.io.sno.c:499-520) on one node; `none` for a node without table. -/
def wanted (keys sdbs : Bytes) (n : Node) : Option Bool :=
  match n.kname with
  | none => some false
  | some k =>
    if caseEq sdbs (star) then some (Sub.half false k (some keys))
    else n.sname.map fun s => Sub.half true s (some sdbs) && Sub.half false k (some keys)

/-- A block of a part (src/core/disk/sis_disk.io.sno.c:556-566). -/
def loadUnit (lib : Lib) (c : Ctl) (rc : List (Nat × Rec)) (u : IUnit) : Option (List (Nat × Rec)) :=
  (readAt c.body u.offset u.size).bind fun (n, b, m) =>
    if n = 0 then some rc
    else
      match unzip lib b m with
      | none => some rc
      | some m => readHid c rc m

/-- The blocks of one page (src/core/disk/sis_disk.io.sno.c:548-577); a node is what is left of its blocks. -/
def loadPage (lib : Lib) (c : Ctl) (page : Nat) : List (Nat × Rec) → List (List IUnit) → Option (List (Nat × Rec) × List (List IUnit))
  | rc, [] => some (rc, [])
  | rc, [] :: ns => (loadPage lib c page rc ns).map fun (rc, ns) => (rc, [] :: ns)
  | rc, (u :: us) :: ns =>
    if u.stop = page then
      (loadUnit lib c rc u).bind fun rc => (loadPage lib c page rc ns).map fun (rc, ns) => (rc, us :: ns)
    else (loadPage lib c page rc ns).map fun (rc, ns) => (rc, (u :: us) :: ns)

/-- The pages from one on (src/core/disk/sis_disk.io.sno.c:545-588). -/
def playPages (lib : Lib) (c : Ctl) (quit : List Rec → Bool) : Nat → Nat → List (List IUnit) → Heard → Option Heard
  | 0, _, _, h => some h
  | n + 1, page, ns, h =>
    if h.2 then some h
    else (loadPage lib c page [] ns).bind fun (rc, ns) => playPages lib c quit n (page + 1) ns (deliver quit h (rc.map (·.2)))

/-- The first page of nodes (src/core/disk/sis_disk.io.sno.c:534-541); `none` for a node without blocks. -/
def firstPage : List (List IUnit) → Option Nat
  | [] => none
  | [n] => n.head?.map (·.stop)
  | n :: ns => n.head?.bind fun u => (firstPage ns).map fun p => min u.stop p

/-- `sis_disk_io_sub_sno_part` (src/core/disk/sis_disk.io.sno.c:521-594). -/
def playPart (lib : Lib) (f : File) (keys sdbs : Bytes) (quit : List Rec → Bool) (h : Heard) : Option Heard :=
  (f.c.idx.filterM fun e => wanted keys sdbs e.2).bind fun es =>
    if es = [] then some h
    else (firstPage (es.map (·.2.units))).bind fun p => playPages lib f.c quit (f.pages - p) p (es.map (·.2.units)) h

/-- `sis_disk_reader_sub_sno` with `sis_disk_io_sub_sno` (src/core/disk/sis_disk_read.c:211-233,
src/core/disk/sis_disk.io.sno.c:604-669): what the subscriber gets, and whether it is told that it broke off.  `none` for keys or
tables stands for NULL.  The subscriber may end the subscription when it is told of the start. -/
def play (lib : Lib) (file : Bytes × Bytes) (keys sdbs : Option Bytes) (quit : List Rec → Bool) : Option Heard :=
  (openFile lib file).bind fun f =>
    let keys := keys.getD (star)
    let sdbs := sdbs.getD (star)
    let h : Heard := ([], quit [])
    if caseEq keys (star) ∧ caseEq sdbs (star) then
      (readFull (fun _ _ => .next) (chunksOf (readSize - 1) (withTail file.1))).bind fun bs => playBlocks lib f.c quit [] h bs
    else playPart lib f keys sdbs quit h

/-- The records in the blocks of a node, one behind the other (src/core/disk/sis_disk_read.c:801-816). -/
def joinUnits (lib : Lib) (c : Ctl) (size : Nat) : List IUnit → Option Bytes
  | [] => some []
  | u :: us =>
    (readSdb lib c.body u.offset u.size).bind fun (_, m) => (splitRecs size m.length m).bind fun l =>
      (joinUnits lib c size us).map fun d => l.flatMap (·.2) ++ d

/-- `sis_disk_reader_get_obj` with `_disk_reader_get_sno_obj` (src/core/disk/sis_disk_read.c:770-835) for the file of one day:
nothing for a key and a table without records. -/
def getObj (lib : Lib) (file : Bytes × Bytes) (k s : Bytes) : Option (Option Bytes) :=
  (openFile lib file).bind fun f =>
    match getN f.c.idx (shortName k (some s)) with
    | none => some none
    | some n =>
      ((getTab f.c.sd s).bind fun t => t.1.2.getLast?).bind fun db =>
        if db.size = 0 then none
        else (joinUnits lib f.c db.size n.units).map fun d => if d = [] then none else some d

end Sis.Sno
