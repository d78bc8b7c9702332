import Verif.Sno.Sno
import Verif.Zip.Incr
/-
Model of the files that keep records of all keys and tables compressed, in the order in which they came ("SIC" files):
src/core/disk/sis_disk.io.sic.c, with the calls of src/core/disk/sis_disk_write.c and src/core/disk/sis_disk_read.c.

Blocks, dictionaries and the table of nodes are those of `Verif/Sdb`, the compression is that of `Verif/Zip`.  What was left out
there is left out here.  A subscriber gets records through `cb_chardata` and ends its subscription, if it does, in a call it gets.

Reading outside of a buffer, using a NULL pointer and the overflow of a number of records are the outcome `none`.
-/
namespace Sis.Sic
open Sis Sis.Disk Sis.Sdb
open Sis.Sno (Rec Heard star nth slices)
open Sis.Dyn (getN setN Db)

/-- `SIS_DISK_HID_MSG_SIC` (src/core/disk/sis_disk.io.h:155). -/
def hidSic : Nat := 0xB
/-- `SIS_DISK_HID_SIC_NEW` (src/core/disk/sis_disk.io.h:157). -/
def hidNew : Nat := 0xC
/-- `SIS_DISK_HID_INDEX_NEW` (src/core/disk/sis_disk.io.h:186). -/
def hidIdxNew : Nat := 0x15

/-- `SIS_DISK_MAXLEN_SICPART` (src/core/disk/sis_disk.io.h:111): the most bytes of a block of records. -/
def sicPart : Nat := 0x4000
/-- `SIS_DISK_MAXLEN_SICPAGE` (src/core/disk/sis_disk.io.h:112). -/
def sicPage : Nat := 0x00FFFFFF

/-- `s_sis_disk_ctrl` (src/core/disk/sis_disk.io.h:401-455) of an open SIC file.  `c`: blocks, dictionaries and nodes; its kind
stands for `SIS_DISK_TYPE_SIC`, a file with an index.  `news`: the blocks of the node "_news_", which is kept apart from the other
nodes.  `z`: `net_incrzip`, which is NULL before `sis_disk_writer_start` and after `sis_disk_writer_stop`.  `msec` to `zipsize`:
`net_msec`, `net_pages`, `net_count`, `net_zipsize`. -/
structure File where
  c : Ctl := { kind := .date }
  news : List IUnit := []
  z : Option Zip.Z := none
  msec : Nat := 0
  pages : Nat := 0
  count : Nat := 0
  zipsize : Nat := 0

/-! ### Writing -/

/-- `sis_disk_writer_set_kdict` (src/core/disk/sis_disk_write.c:145-172) on a file that has no other units. -/
def setKeys (lib : Lib) (f : File) (s : Bytes) : File :=
  if s = [] then f else { f with c := writeKeys lib ((splitNames s).foldl setKey f.c) }

/-- `sis_disk_writer_set_sdict` (src/core/disk/sis_disk_write.c:175-209) for the tables its JSON text describes. -/
def setTabs (lib : Lib) (f : File) (ts : List Tab) : File := { f with c := writeTabs lib (ts.foldl setTab f.c) }

/-- A compressor or decompressor for all keys and the last definition of every table
(src/core/disk/sis_disk.io.sic.c:54-61, 299-306). -/
def makeZip (kd : List Bytes) (sd : TDict) : Option Zip.Z :=
  sd.foldlM (fun z t => t.2.getLast?.bind fun db => (Zip.setSdb z db).map (·.2)) (Zip.setKey Zip.create kd.length).2

/-- `sis_disk_writer_start` (src/core/disk/sis_disk_write.c:227-248) with `sis_disk_io_write_sic_start`
(src/core/disk/sis_disk.io.sic.c:49-68). -/
def start (lib : Lib) (f : File) : Option File :=
  let c := writeTabs lib (writeKeys lib f.c)
  (makeZip c.kd c.sd).bind fun z => (Zip.start z sicPart).map fun (_, z) =>
    { f with c := c, z := some z, msec := 0, pages := 0, count := 0, zipsize := 0 }

/-- `cb_incrzip_encode_sic` with `sis_disk_io_write_sic_work` (src/core/disk/sis_disk.io.sic.c:5-24, 29-47): a block of records. -/
def putBlock (f : File) (b : Bytes) : File :=
  let e := encRec (headByte 1 2 hidSic) b
  { f with c := { f.c with body := f.c.body ++ e }, zipsize := f.zipsize + e.length }

/-- The blocks the compressor hands on in one call (src/core/disk/sis_disk.io.sic.c:29-47). -/
def putBlocks (f : File) (bs : List Bytes) : File := bs.foldl putBlock f

/-- `sis_disk_io_write_sic_stop` (src/core/disk/sis_disk.io.sic.c:69-79). -/
def stop (f : File) : Option File :=
  f.z.bind fun z => (Zip.stop z).map fun (bs, _) =>
    { putBlocks f bs with z := none, msec := 0, pages := 0, count := 0, zipsize := 0 }

/-- `_set_disk_io_sic_msec` (src/core/disk/sis_disk.io.sic.c:81-93): the time of the first record, for a page that has none. -/
def firstMsec (v : Time.Env) (db : Db) (old : Nat) (d : Bytes) : Option Nat :=
  if old ≠ 0 then some old
  else
    match db.time with
    | none => some 0
    | some a =>
      (Dyn.getTime db 0 d).bind fun t => (Dyn.unit db a).bind fun f =>
        match Dyn.timeStyle f.style with
        | none => some t
        | some st => Time.convert v st .msec t

/-- The block that begins a page (src/core/disk/sis_disk.io.sic.c:108-123). -/
def putNew (lib : Lib) (f : File) : File :=
  let b := block lib false hidNew (catSsize f.msec ++ catSsize (f.pages + 1) ++ catSsize f.count)
  { f with
    c := { f.c with body := f.c.body ++ b }
    news := f.news ++ [{ active := 1, offset := mainHead + f.c.body.length, size := b.length, start := f.msec }]
    pages := f.pages + 1
    msec := 0
    zipsize := 0 }

/-- A page is begun: what the compressor still has is written behind that block (src/core/disk/sis_disk.io.sic.c:105-126). -/
def newPage (lib : Lib) (f : File) : Option File :=
  f.z.bind fun z => (Zip.restart z true).map fun (bs, z) => { putBlocks (putNew lib f) bs with z := some z }

/-- One record: what `sis_incrzip_compress_step` returns is not looked at (src/core/disk/sis_disk.io.sic.c:129-132). -/
def putRec (ki si : Nat) (f : File) (r : Bytes) : Option File :=
  f.z.bind fun z => (Zip.step z ki si r).map fun (_, bs, z) => { putBlocks f bs with z := some z }

/-- `sis_disk_io_write_sic` (src/core/disk/sis_disk.io.sic.c:95-134); `limit` is `max_page_size`.  Bytes that are not whole records
are refused. -/
def ioWrite (lib : Lib) (v : Time.Env) (limit : Nat) (f : File) (ki si : Nat) (dbs : List Db) (d : Bytes) : Option File :=
  match dbs.getLast? with
  | none => some f
  | some db =>
    if db.size = 0 then none
    else if d.length % db.size ≠ 0 then some f
    else
      (firstMsec v db f.msec d).bind fun ms =>
        (if (f.zipsize = 0 ∧ f.count = 0) ∨ limit < f.zipsize then newPage lib { f with msec := ms } else some { f with msec := ms }).bind fun f =>
          if f.count + d.length / db.size < 2 ^ 31 then
            (slices db.size d).foldlM (putRec ki si) { f with count := f.count + d.length / db.size }
          else none

/-- `sis_disk_writer_sic` (src/core/disk/sis_disk_write.c:268-294): for a new key there is one more key in the compressor, which must
be there. -/
def put (lib : Lib) (v : Time.Env) (limit : Nat) (f : File) (k s d : Bytes) : Option File :=
  match getTab f.c.sd s with
  | none => some f
  | some ((_, dbs), si) =>
    ((if (getKey f.c.kd k).isSome then some f
      else f.z.bind fun z => (Zip.addKey z 1).map fun (_, z) => { f with c := writeKeys lib (setKey f.c k), z := some z }) : Option File).bind fun f =>
      (getKey f.c.kd k).bind fun (_, ki) => ioWrite lib v limit f ki si dbs d

/-! ### The index -/

/-- `sis_disk_io_write_sic_widx` (src/core/disk/sis_disk.io.sic.c:136-197): the blocks of the index file. -/
def encIdx (idx : Idx) (news : List IUnit) : List (UInt8 × Bytes) :=
  let keys := match getN idx signKeys with
    | some n => [(headByte 1 0 hidIdxKeys, encRefs n.units)]
    | none => []
  let tabs := match getN idx signTabs with
    | some n => [(headByte 1 0 hidIdxTabs, encRefs n.units)]
    | none => []
  keys ++ tabs ++ if news = [] then [] else [(headByte 1 0 hidIdxNew, Sno.encEnds news)]

/-- `sis_disk_writer_close` with `sis_disk_ctrl_write_stop` (src/core/disk/sis_disk_write.c:76-100,
src/core/disk/sis_disk.io.c:803-858): the blocks and the index file.  An index without any block is refused, with the file left
open. -/
def close (f : File) : Option (Bytes × Bytes) :=
  if encIdx f.c.idx f.news = [] then none else some (f.c.body, idxFile (encIdx f.c.idx f.news))

/-- What is being read of an index (src/core/disk/sis_disk.io.sic.c:341-410). -/
structure Rd where
  r : Sdb.Rd := ⟨[], [], []⟩
  news : List IUnit := []

/-- `cb_sis_disk_io_read_sic_widx` (src/core/disk/sis_disk.io.sic.c:341-410) on one block. -/
def decBlock (lib : Lib) (body : Bytes) (r : Rd) (b : UInt8 × Bytes) : Option Rd :=
  let m := Sno.unzipIdx lib b
  if hidOf b.1 = hidIdxKeys then
    (getSsize m).bind fun (n, m) => (decRefs (asCount n) m).bind fun (us, _) => (readKeys lib body r.r.kd us).map fun kd =>
      { r with r := { r.r with kd := kd, idx := (setN r.r.idx signKeys ⟨none, none, us⟩).1 } }
  else if hidOf b.1 = hidIdxTabs then
    (getSsize m).bind fun (n, m) => (decRefs (asCount n) m).bind fun (us, _) => (readTabs lib body r.r.sd us).map fun sd =>
      { r with r := { r.r with sd := sd, idx := (setN r.r.idx signTabs ⟨none, none, us⟩).1 } }
  else if hidOf b.1 = hidIdxNew then
    (getSsize m).bind fun (n, m) => (Sno.decStops (asCount n) m).map fun (us, _) => { r with news := us }
  else some r

/-- The blocks of an index in order (src/core/disk/sis_disk.io.sic.c:412-432). -/
def decIdx (lib : Lib) (body : Bytes) : Rd → List (UInt8 × Bytes) → Option Rd
  | r, [] => some r
  | r, b :: bs => (decBlock lib body r b).bind fun r => decIdx lib body r bs

/-- `sis_disk_io_read_sic_widx` (src/core/disk/sis_disk.io.sic.c:412-432). -/
def readIdx (lib : Lib) (body file : Bytes) : Option Rd :=
  (readFull (fun _ _ => .next) (chunksOf (readSize - 1) file)).bind fun bs => decIdx lib body {} bs

/-- `sis_disk_ctrl_write_start` and `sis_disk_ctrl_read_start` (src/core/disk/sis_disk.io.c:620-683, 714-800) on a SIC file
that exists: new blocks go behind the ones that are there. -/
def openFile (lib : Lib) (f : Bytes × Bytes) : Option File :=
  (readIdx lib f.1 f.2).map fun r => { c := { kind := .date, body := f.1, kd := r.r.kd, sd := r.r.sd, idx := r.r.idx }, news := r.news }

/-- A call of a writer (src/core/disk/sis_disk_write.c:145-294). -/
inductive Cmd
  | keys (s : Bytes)
  | tabs (ts : List Tab)
  | start
  | put (k s d : Bytes)
  | stop

/-- The calls (src/core/disk/sis_disk_write.c:145-294). -/
def step (lib : Lib) (v : Time.Env) (limit : Nat) (f : File) : Cmd → Option File
  | .keys s => some (setKeys lib f s)
  | .tabs ts => some (setTabs lib f ts)
  | .start => start lib f
  | .put k s d => put lib v limit f k s d
  | .stop => stop f

/-- Opening, calls and closing: `sis_disk_writer_open` to `sis_disk_writer_close` (src/core/disk/sis_disk_write.c:46-100). -/
def session (lib : Lib) (v : Time.Env) (limit : Nat) (old : Option (Bytes × Bytes)) (cs : List Cmd) : Option (Bytes × Bytes) :=
  ((match old with
    | none => some {}
    | some f => openFile lib f) : Option File).bind fun f => (cs.foldlM (step lib v limit) f).bind close

/-! ### Reading -/

/-- What a subscription asks for: `sub_keys`, `sub_sdbs` and `iswhole` of `s_sis_disk_rcatch`
(`sis_disk_rcatch_init_of_sub`, src/core/disk/sis_disk_ctrl.c:203-231). -/
structure Want where
  keys : Bytes
  sdbs : Bytes

/-- `iswhole` (src/core/disk/sis_disk_ctrl.c:203-231). -/
def Want.whole (w : Want) : Bool := caseEq w.keys star && caseEq w.sdbs star

/-- `cb_incrzip_decode_sic` (src/core/disk/sis_disk.io.sic.c:203-235): a record is handed on.  The name of a number that is not in a
dictionary is a NULL pointer, which is used when everything is asked for.  Ending the subscription has no effect here. -/
def hear (kd : List Bytes) (sd : TDict) (w : Want) (quit : List Rec → Bool) (h : Heard) (x : Zip.Rec) : Option Heard :=
  match nth kd x.1, nth sd x.2.1 with
  | some k, some (s, _) =>
    if w.whole || (Sub.half false k (some w.keys) && Sub.half false s (some w.sdbs)) then
      some (h.1 ++ [⟨k, s, x.2.2⟩], h.2 || quit (h.1 ++ [⟨k, s, x.2.2⟩]))
    else some h
  | _, _ => if w.whole then none else some h

/-- `cb_sis_disk_io_read_sic` (src/core/disk/sis_disk.io.sic.c:236-284) on the blocks of the file: whether the subscription was ended
is looked at behind each block. -/
def playBlocks (kd : List Bytes) (sd : TDict) (w : Want) (quit : List Rec → Bool) : Zip.Z → Heard → List (UInt8 × Bytes) → Option Heard
  | _, h, [] => some h
  | z, h, b :: bs =>
    (if hidOf b.1 = hidSic then (Zip.unStep z b.2).bind fun (_, rs, z) => (rs.foldlM (hear kd sd w quit) h).map fun h => (z, h)
      else some (z, h)).bind fun (z, h) => if h.2 then some h else playBlocks kd sd w quit z h bs

/-- `sis_disk_reader_sub_sic` with `sis_disk_io_sub_sic` (src/core/disk/sis_disk_read.c:183-199,
src/core/disk/sis_disk.io.sic.c:286-339): what the subscriber gets, and whether it is told that it broke off.  `none` for keys or
tables stands for NULL; `junk` is what `malloc` returns.  The subscriber may end the subscription when it is told of the start. -/
def play (lib : Lib) (file : Bytes × Bytes) (keys sdbs : Option Bytes) (quit : List Rec → Bool) (junk : Nat → UInt8) : Option Heard :=
  (openFile lib file).bind fun f => (makeZip f.c.kd f.c.sd).bind fun z =>
    (Zip.unStart z ((List.range z.maxdb).map junk)).bind fun (_, z) =>
      (readFull (fun _ _ => .next) (chunksOf (readSize - 1) (withTail file.1))).bind fun bs =>
        playBlocks f.c.kd f.c.sd ⟨keys.getD star, sdbs.getD star⟩ quit z ([], quit []) bs

end Sis.Sic
