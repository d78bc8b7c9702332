import Verif.Zip.Incr
import Verif.Sno.Sno
import Verif.Snodb.Wlog
/-
Model of how records get into the file of a day: the compressor of the stream (`workers/sisdb_server/sisdb_incr.c`), which makes packets of records, and the
worker that makes the file of the packets in the log (`workers/sisdb_wsno/sisdb_wsno.c`).

Simplifications.  The tables that a JSON text describes are given by a function.  The worker wants all keys and tables, as it
always does (workers/sisdb_wsno/sisdb_wsno.c:39-40), so nothing is picked from the texts (`sis_match_key` and
`sis_match_sdb_of_sds`, src/core/sis_utils.c:579-605, 640-678, return a copy for a star).  A file is the calls made to its writer, which are modelled in `Verif/Sno`.  Of
`overwrite` only 0 is modelled, which is what the stream leaves it at (workers/snodb/snodb_disk.c:249-258).
-/
namespace Sis.Wsno
open Sis
open Sis.Sdb (Tab splitNames)
open Sis.Dyn (setN)

/-- The tables in a JSON text, in order (workers/sisdb_server/sisdb_incr.c:58-73), none if it is not JSON, and what `malloc` returns
(src/core/zip/sis_incrzip.c:432-448). -/
structure Env where
  tabs : Bytes → List Tab
  fresh : Nat → Bytes

/-- `s_sisdb_incr` (workers/sisdb_server/sisdb_incr.h:17-30): the two dictionaries, the compressor and `summ_size`. -/
structure Incr where
  keys : List (Bytes × Bytes)
  sdbs : List (Bytes × Tab)
  z : Zip.Z
  summ : Nat

/-- `SISDB_ZIP_PART_SIZE` (workers/sisdb_server/sisdb_incr.h:11, src/core/disk/sis_disk.io.h:111). -/
def partSize : Nat := 0x4000

/-- `SISDB_ZIP_PAGE_SIZE` (workers/sisdb_server/sisdb_incr.h:12, src/core/disk/sis_disk.io.h:112). -/
def pageSize : Nat := 0xFFFFFF

/-- `sisdb_incr_set_keys` (workers/sisdb_server/sisdb_incr.c:38-53). -/
def setKeys (l : List (Bytes × Bytes)) (t : Bytes) : List (Bytes × Bytes) := (splitNames t).foldl (fun l k => (setN l k k).1) l

/-- `sisdb_incr_set_sdbs` (workers/sisdb_server/sisdb_incr.c:54-74). -/
def setSdbs (l : List (Bytes × Tab)) (ts : List Tab) : List (Bytes × Tab) := ts.foldl (fun l t => (setN l t.name t).1) l

/-- `_init_dict` (workers/sisdb_server/sisdb_incr.c:93-102) on a new compressor. -/
def initDict (ks : List (Bytes × Bytes)) (sd : List (Bytes × Tab)) : Option Zip.Z :=
  sd.foldlM (fun z t => (Zip.setSdb z t.2.db).map (·.2)) (Zip.setKey Zip.create ks.length).2

/-- `sisdb_incr_create` (workers/sisdb_server/sisdb_incr.c:5-14) with keys and tables. -/
def withDict (e : Env) (K T : Bytes) : Option Incr :=
  let ks := setKeys [] K
  let sd := setSdbs [] (e.tabs T)
  (initDict ks sd).map fun z => ⟨ks, sd, z, 0⟩

/-- `sisdb_incr_zip_start` (workers/sisdb_server/sisdb_incr.c:147-156), as `_snodb_write_bytes` calls it (workers/snodb/snodb.c:507-514). -/
def zipOpen (e : Env) (K T : Bytes) : Option Incr :=
  (withDict e K T).bind fun i => (Zip.start i.z partSize).map fun r => { i with z := r.2 }

/-- The records of a buffer one by one (workers/sisdb_server/sisdb_incr.c:175-182); whether one is taken is not looked at. -/
def zipLoop (z : Zip.Z) (k s : Int) : List Bytes → Option (List Bytes × Zip.Z)
  | [] => some ([], z)
  | r :: rs => (Zip.step z k s r).bind fun (_, bs, z) => (zipLoop z k s rs).map fun (bs', z) => (bs ++ bs', z)

/-- `sisdb_incr_zip_set` (workers/sisdb_server/sisdb_incr.c:157-183): the packets.  `none`: sums of sizes of 2 GB, a table without bytes. -/
def zipSet (i : Incr) (k s : Int) (d : Bytes) : Option (List Bytes × Incr) :=
  match (if s < 0 then none else i.sdbs[s.toNat]?) with
  | none => some ([], i)
  | some t =>
    if i.summ + d.length ≥ 2 ^ 31 ∨ t.2.db.size = 0 then none
    else
      let r := if i.summ + d.length > pageSize then (Zip.restart i.z true).map fun (bs, z) => (bs, { i with z := z, summ := 0 })
        else some ([], { i with summ := i.summ + d.length })
      r.bind fun (bs, i) => (zipLoop i.z k s (Sno.slices t.2.db.size d)).map fun (bs', z) => (bs ++ bs', { i with z := z })

/-- What the input thread gets (`cb_input_reader`, workers/snodb/snodb.c:63-96): records of a key and a table, or nothing for a time. -/
inductive In
  | record (k s : Int) (d : Bytes)
  | idle
deriving DecidableEq, Repr

/-- `cb_input_reader` (workers/snodb/snodb.c:63-96) on a day that works, with `sisdb_incr_zip_restart` (workers/sisdb_server/sisdb_incr.c:184-187). -/
def zipIn (i : Incr) : In → Option (List Bytes × Incr)
  | .record k s d => zipSet i k s d
  | .idle => (Zip.restart i.z false).map fun (bs, z) => (bs, { i with z := z })

/-- All of it in order (workers/snodb/snodb.c:63-96): the packets of a day. -/
def zipRun (i : Incr) : List In → Option (List Bytes × Incr)
  | [] => some ([], i)
  | x :: xs => (zipIn i x).bind fun (bs, i) => (zipRun i xs).map fun (bs', i) => (bs ++ bs', i)

/-- `sisdb_incr_zip_stop` (workers/sisdb_server/sisdb_incr.c:189-197), as `cmd_snodb_stop` calls it (workers/snodb/snodb.c:414-470): the last packets. -/
def zipStop (i : Incr) : Option (List Bytes) := (Zip.stop i.z).map fun r => r.1

/-- `sisdb_incr_unzip_start` (workers/sisdb_server/sisdb_incr.c:104-111), as `_write_wsno_head` calls it. -/
def unzipOpen (e : Env) (K T : Bytes) : Option Incr :=
  (withDict e K T).bind fun i => (Zip.unStart i.z (e.fresh i.z.maxdb)).map fun r => { i with z := r.2 }

/-- `status` (workers/sisdb_wsno/sisdb_wsno.h:8-13); `SIS_WSNO_EXIT` is the end of the process. -/
inductive Status
  | none
  | init
  | opened
  | fail
  | head
deriving DecidableEq, Repr

/-- `writer` (workers/sisdb_wsno/sisdb_wsno.h:18-38): NULL, one that could not be opened, or one for a day with the calls made so far. -/
inductive Writer
  | null
  | broken
  | on (day : Nat) (cs : List Sno.Cmd)

/-- `s_sisdb_wsno_cxt` (workers/sisdb_wsno/sisdb_wsno.h:18-38); `files` are the writers that were closed, with all their calls. -/
structure W where
  status : Status := .none
  keys : Option Bytes := none
  sdbs : Option Bytes := none
  unzip : Option Incr := none
  writer : Writer := .null
  files : List (Nat × List Sno.Cmd) := []

/-- What the worker is called with (workers/sisdb_wsno/sisdb_wsno.c:279-286); a day, and whether its file can be opened. -/
inductive Call
  | start (day : Nat) (opens : Bool)
  | stop
  | keys (t : Bytes)
  | sdbs (t : Bytes)
  | chars (k s d : Bytes)
  | incr (p : Bytes)
deriving DecidableEq, Repr

/-- `sisdb_wsno_stop` (workers/sisdb_wsno/sisdb_wsno.c:67-82).  `none`: a writer that was not opened has no file and is used
(src/core/disk/sis_disk_write.c:66-71, 250-261). -/
def stopFile (w : W) : Option W :=
  match w.writer with
  | .null => some { w with unzip := none }
  | .broken => none
  | .on d cs => some { w with unzip := none, writer := .null, files := w.files ++ [(d, cs ++ [.stop])] }

/-- `_write_wsno_head` (workers/sisdb_wsno/sisdb_wsno.c:181-222).  `none`: keys or tables were not given. -/
def head (e : Env) (w : W) (iszip : Bool) : Option W :=
  if w.status ≠ .opened then some w
  else
    match w.keys, w.sdbs, w.writer with
    | some K, some T, .on d cs =>
      let w := { w with writer := .on d (cs ++ [.keys K, .tabs (e.tabs T), .start]), status := .head }
      if iszip then (unzipOpen e K T).map fun u => { w with unzip := some u } else some w
    | _, _, _ => none

/-- `cb_decode` (workers/sisdb_wsno/sisdb_wsno.c:168-179) with `sisdb_incr_get_kname` and `sisdb_incr_get_sname`
(workers/sisdb_server/sisdb_incr.c:84-92).  `none`: a key or table without name. -/
def putOf (u : Incr) (r : Zip.Rec) : Option (List Sno.Cmd) :=
  if r.2.2 = [] then some []
  else
    match u.keys[r.1]?, u.sdbs[r.2.1]? with
    | some k, some t => some [.put k.2 t.2.name r.2.2]
    | _, _ => none

/-- The records of a packet one by one (workers/sisdb_wsno/sisdb_wsno.c:168-179). -/
def putsOf (u : Incr) : List Zip.Rec → Option (List Sno.Cmd)
  | [] => some []
  | r :: rs => (putOf u r).bind fun c => (putsOf u rs).map fun cs => c ++ cs

/-- `sisdb_incr_unzip_set` (workers/sisdb_server/sisdb_incr.c:113-121) in `cb_sub_incrzip` (workers/sisdb_wsno/sisdb_wsno.c:240-256). -/
def unzipSet (w : W) (p : Bytes) : Option W :=
  match w.unzip with
  | none => some w
  | some u =>
    (Zip.unStep u.z p).bind fun (_, rs, z) =>
    (putsOf u rs).bind fun cs =>
    match w.writer with
    | .on d cs' => some { w with unzip := some { u with z := z }, writer := .on d (cs' ++ cs) }
    | _ => if cs = [] then some { w with unzip := some { u with z := z } } else none

/-- `cb_sub_start`, `cb_sub_stop`, `cb_dict_keys`, `cb_dict_sdbs`, `cb_sub_chars` and `cb_sub_incrzip` with `sisdb_wsno_start`
(workers/sisdb_wsno/sisdb_wsno.c:83-167, 223-256). -/
def step (e : Env) (w : W) : Call → Option W
  | .start d ok => (stopFile w).map fun w =>
    { w with keys := none, sdbs := none, writer := if ok then .on d [] else .broken, status := if ok then .opened else .fail }
  | .stop =>
    if w.status = .fail then some { w with status := .init }
    else (stopFile w).map fun w => { w with keys := none, sdbs := none, status := .init }
  | .keys t => some { w with keys := some t }
  | .sdbs t => some { w with sdbs := some t }
  | .chars k s d =>
    if w.status = .fail then some w
    else (head e w false).bind fun w =>
      match w.writer with
      | .on day cs => some { w with writer := .on day (cs ++ [.put k s d]) }
      | _ => none
  | .incr p =>
    if w.status = .fail then some w
    else (head e w true).bind fun w => unzipSet w p

/-- Calls one after the other (workers/sisdb_wsno/sisdb_wsno.c:83-256). -/
def run (e : Env) (w : W) (cs : List Call) : Option W := cs.foldlM (step e) w

/-- `cb_snodb_wfile_load` (workers/snodb/snodb_disk.c:166-212): the call for a record of the log. -/
def callOf : Snodb.Rec → Call
  | .keys t => .keys t
  | .sdbs t => .sdbs t
  | .zpub p => .incr p

/-- `snodb_wlog_to_snos` (workers/snodb/snodb_disk.c:234-284) with `cmd_sisdb_wsno_getcb` (workers/sisdb_wsno/sisdb_wsno.c:265-290), `cb_snodb_wfile_start` and
`cb_snodb_wfile_stop` (workers/snodb/snodb_disk.c:143-164): the log of a day goes to the worker, if this one has no file open. -/
def toSno (e : Env) (w : W) (day : Nat) (opens : Bool) (log : List Snodb.Rec) : Option W :=
  if w.status ≠ .none ∧ w.status ≠ .init then some w
  else run e { w with status := .init } (.start day opens :: log.map callOf ++ [.stop])

end Sis.Wsno
