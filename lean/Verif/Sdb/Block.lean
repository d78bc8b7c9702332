import Verif.Disk.Log
import Verif.Dyn.Dynamic
/-
Model of the data files of a database on disk (src/core/disk): blocks, key and table dictionaries, and the index of a file.

A file is its blocks behind the 16 bytes of the file head and before the tail, as one string of bytes; the cache of
`sis_safe_write` (src/core/disk/sis_disk_files.c:433-459) that holds written bytes back is not seen by a reader of a closed
file and is left out.  A file that reaches 0xFF000000 bytes is continued in a second one: that is not modelled, there is
one file with number 0.

Reading outside of a buffer and using a NULL pointer are the outcome `none`.
-/
namespace Sis.Sdb
open Sis Sis.Disk
open Sis.Dyn (sameN getN setN Db)

/-- A table: its name and its fields (`s_sis_dynamic_db`, src/core/sis_dynamic.h:118-127). -/
structure Tab where
  name : Bytes
  db : Db
deriving DecidableEq

/-- What is used of other parts of the program.
`compress`, `uncompress`: `sis_snappy_compress` and `sis_snappy_uncompress` (src/core/zip/sis_snappy.c:8-58), `none` for the
answer 0.
`text`: the JSON text `sis_disk_ctrl_write_sdict` (src/core/disk/sis_disk.io.c:411-443) makes of tables.
`parse`: the tables `sis_json_load`, the loop over its nodes and `sis_dynamic_db_create` make of a text
(src/core/disk/sis_disk_ctrl.c:333-367), in order.
`trace`: whether the `printf` lines of src/core/disk/sis_disk.io.sdb.c are compiled in, as they are in the source. -/
structure Lib where
  compress : Bytes → Option Bytes
  uncompress : Bytes → Option Bytes
  text : List Tab → Bytes
  parse : Bytes → List Tab
  trace : Bool

/-- `SIS_DISK_HID_…` (src/core/disk/sis_disk.io.h:129-188). -/
def hidKeys : Nat := 2
/-- `SIS_DISK_HID_DICT_SDB` (src/core/disk/sis_disk.io.h:135). -/
def hidTabs : Nat := 3
/-- `SIS_DISK_HID_MSG_NON` (src/core/disk/sis_disk.io.h:145). -/
def hidNon : Nat := 7
/-- `SIS_DISK_HID_MSG_ONE` (src/core/disk/sis_disk.io.h:147). -/
def hidOne : Nat := 8
/-- `SIS_DISK_HID_MSG_MUL` (src/core/disk/sis_disk.io.h:149). -/
def hidMul : Nat := 9
/-- `SIS_DISK_HID_MSG_SDB` (src/core/disk/sis_disk.io.h:153). -/
def hidSdb : Nat := 0xA
/-- `SIS_DISK_HID_MSG_MAP` (src/core/disk/sis_disk.io.h:160). -/
def hidMap : Nat := 0xD
/-- `SIS_DISK_HID_INDEX_KEY` (src/core/disk/sis_disk.io.h:168). -/
def hidIdxKeys : Nat := 0x10
/-- `SIS_DISK_HID_INDEX_SDB` (src/core/disk/sis_disk.io.h:170). -/
def hidIdxTabs : Nat := 0x11
/-- `SIS_DISK_HID_INDEX_MSG` (src/core/disk/sis_disk.io.h:180). -/
def hidIdxMsg : Nat := 0x13

/-- The member `zip` of a head byte (src/core/disk/sis_disk.io.h:242-244). -/
def zipOf (b : UInt8) : Nat := b.toNat / 2 % 4

/-- `sis_disk_io_write_noidx` (src/core/disk/sis_disk.io.sdb.c:6-26): the head byte and the bytes that are written for a
block, `z` for `SIS_DISK_ZIP_SNAPPY`. -/
def packed (lib : Lib) (z : Bool) (hid : Nat) (d : Bytes) : UInt8 × Bytes :=
  if z then
    match lib.compress d with
    | some c => (headByte 1 1 hid, c)
    | none => (headByte 1 0 hid, d)
  else (headByte 1 0 hid, d)

/-- The bytes of the block in the file: `sis_disk_files_write_saveidx` (src/core/disk/sis_disk_files.c:486-517) with
`sis_safe_write` (src/core/disk/sis_disk_files.c:433-459). -/
def block (lib : Lib) (z : Bool) (hid : Nat) (d : Bytes) : Bytes := encRec (packed lib z hid d).1 (packed lib z hid d).2

/-- `sis_disk_files_read` (src/core/disk/sis_disk_files.c:627-647): the value returned, the head byte (0 when the file is
shorter) and the bytes left in the buffer. -/
def readAt (body : Bytes) (off size : Nat) : Option (Nat × UInt8 × Bytes) :=
  if off < mainHead then none
  else
    match (body.drop (off - mainHead)).take size with
    | [] => some (0, 0, [])
    | b :: m =>
      if m.length + 1 = size then (getSsize m).map fun (n, r) => (n, b, r)
      else some (0, headByte 1 0 0, b :: m)

/-- `sis_disk_ctrl_unzip_sdb` (src/core/disk/sis_disk.io.c:549-612): the bytes, `none` for the answer 0. -/
def unzip (lib : Lib) (b : UInt8) (m : Bytes) : Option Bytes :=
  if zipOf b = 0 then if m = [] then none else some m
  else if zipOf b = 1 then (lib.uncompress m).bind fun d => if d = [] then none else some d
  else none

/-- `sis_disk_io_read_sdb` (src/core/disk/sis_disk.io.sdb.c:352-388) for one entry of an index: the kind of the block and
the bytes left in the buffer, behind the numbers of key and table.  A block that cannot be read or unpacked leaves what was
read so far. -/
def readSdb (lib : Lib) (body : Bytes) (off size : Nat) : Option (Nat × Bytes) :=
  (readAt body off size).bind fun (n, b, m) =>
    if n = 0 then some (hidOf b, m)
    else
      match unzip lib b m with
      | none => some (hidOf b, m)
      | some d =>
        if hidOf b = hidOne ∨ hidOf b = hidMul then (getSsize d).map fun (_, r) => (hidOf b, r)
        else if hidOf b = hidSdb ∨ hidOf b = hidNon ∨ hidOf b = 5 then
          (getSsize d).bind fun (_, r) => (getSsize r).map fun (_, r) => (hidOf b, r)
        else some (hidOf b, d)

/-! ### Dictionaries -/

/-- `sis_trim` (src/os/linux/os_str.h:60-90): blanks and control bytes at both ends go. -/
def trim (s : Bytes) : Bytes := ((s.reverse.dropWhile (· ≤ 32)).reverse).dropWhile (· ≤ 32)

/-- The pieces of a text between commas; what is behind the last comma only if there is something (`sis_string_list_load`, src/core/sis_list.c:2150-2220). -/
def pieces : Bytes → Bytes → List Bytes
  | acc, [] => if acc = [] then [] else [acc.reverse]
  | acc, c :: s => if c = 44 then acc.reverse :: pieces [] s else pieces (c :: acc) s

/-- `sis_string_list_load` with "," (src/core/sis_list.c:2150-2220). -/
def splitNames (s : Bytes) : List Bytes := (pieces [] s).map trim

/-- `sis_disk_map_get_kdict` (src/core/disk/sis_disk_ctrl.c:369-373): the key as the dictionary has it, and its number. -/
def getKey (kd : List Bytes) (k : Bytes) : Option (Bytes × Nat) := (kd.zipIdx).find? fun e => sameN k e.1

/-- The part of `sis_disk_reader_set_kdict` (src/core/disk/sis_disk_ctrl.c:310-331) and of `sis_disk_ctrl_set_kdict`
(src/core/disk/sis_disk.io.c:482-493) that adds a key that is not there. -/
def addKey (kd : List Bytes) (k : Bytes) : List Bytes := if (getKey kd k).isSome then kd else kd ++ [k]

/-- `sis_disk_reader_set_kdict` (src/core/disk/sis_disk_ctrl.c:310-331). -/
def loadKeys (kd : List Bytes) (s : Bytes) : List Bytes := (splitNames s).foldl addKey kd

/-- The names joined with commas, as `sis_disk_ctrl_write_kdict` does (src/core/disk/sis_disk.io.c:382-398). -/
def joinNames : List Bytes → Bytes
  | [] => []
  | [k] => k
  | k :: ks => k ++ 44 :: joinNames ks

/-- `sis_dynamic_dbinfo_same` (src/core/sis_dynamic.c:285-308); `none` for a field that was freed. -/
def sameDb (a b : Db) : Bool :=
  a.fields.length = b.fields.length ∧
    (a.fields.map fun f => Dyn.unit a f.2) = (b.fields.map fun f => Dyn.unit b f.2)

/-- A dictionary of tables: the name a table came with first, and its definitions, oldest first (`map_sdicts`, src/core/disk/sis_disk.io.h:384-440 and src/core/disk/sis_disk_ctrl.c:333-367). -/
abbrev TDict := List (Bytes × List Db)

/-- `sis_disk_sdict_isnew` (src/core/disk/sis_disk_ctrl.c:279-290). -/
def isNew (dbs : List Db) (db : Db) : Bool :=
  match dbs.getLast? with
  | none => true
  | some l => !sameDb l db

/-- The part of `sis_disk_reader_set_sdict` (src/core/disk/sis_disk_ctrl.c:348-360) and of `sis_disk_ctrl_set_sdict`
(src/core/disk/sis_disk.io.c:496-526) that adds a definition; whether it is a new one. -/
def addTab (sd : TDict) (t : Tab) : TDict × Bool :=
  match getN sd t.name with
  | none => ((setN sd t.name [t.db]).1, true)
  | some dbs => if isNew dbs t.db then ((setN sd t.name (dbs ++ [t.db])).1, true) else (sd, false)

/-- `sis_disk_reader_set_sdict` (src/core/disk/sis_disk_ctrl.c:333-367). -/
def loadTabs (lib : Lib) (sd : TDict) (s : Bytes) : TDict :=
  if s.length < 16 then sd else (lib.parse s).foldl (fun sd t => (addTab sd t).1) sd

end Sis.Sdb
