import Verif.Sdb.Block
/- Model of the index of a data file: `sis_disk_io_write_sdb_widx` and its reader (src/core/disk/sis_disk.io.sdb.c). -/
namespace Sis.Sdb
open Sis Sis.Disk
open Sis.Dyn (sameN getN setN)

/-- `s_sis_disk_idx_unit` (src/core/disk/sis_disk.io.h:292-303). -/
structure IUnit where
  active : Nat := 0
  ktype : Nat := 0
  sdict : Nat := 0
  fidx : Nat := 0
  offset : Nat := 0
  size : Nat := 0
  start : Nat := 0
  stop : Nat := 0
deriving DecidableEq, Repr

/-- `s_sis_disk_idx` (src/core/disk/sis_disk.io.h:306-311): names that may be missing, and the blocks. -/
structure Node where
  kname : Option Bytes
  sname : Option Bytes
  units : List IUnit
deriving DecidableEq, Repr

/-- `map_idxs` of a file: nodes by name (src/core/disk/sis_disk.io.h:384-440). -/
abbrev Idx := List (Bytes × Node)

/-- `SIS_DISK_SIGN_KEY`, `SIS_DISK_SIGN_SDB` (src/core/disk/sis_disk.io.h:90-91). -/
def signKeys : Bytes := [95, 107, 101, 121, 115, 95]
/-- `SIS_DISK_SIGN_SDB` (src/core/disk/sis_disk.io.h:91). -/
def signTabs : Bytes := [95, 115, 100, 98, 115, 95]

/-- The name of a node: `sis_disk_idx_get` (src/core/disk/sis_disk_ctrl.c:72-76). -/
def nodeName (k : Bytes) : Option Bytes → Bytes
  | none => k
  | some s => k ++ 46 :: s

/-- The bytes of one block in a list of dictionary blocks (src/core/disk/sis_disk.io.sdb.c:263-269). -/
def encRef (u : IUnit) : Bytes := catSsize u.fidx ++ catSsize u.offset ++ catSsize u.size

/-- The content of an index block of dictionary blocks (src/core/disk/sis_disk.io.sdb.c:262-269, 278-285). -/
def encRefs (us : List IUnit) : Bytes := catSsize us.length ++ us.flatMap encRef

/-- `stop - start` on unsigned numbers of 64 bits (src/core/disk/sis_disk.io.sdb.c:327). -/
def gap (start stop : Nat) : Nat := (stop + 2 ^ 64 - start) % 2 ^ 64

/-- `start + …` on unsigned numbers of 64 bits (src/core/disk/sis_disk.io.sdb.c:573). -/
def after (start len : Nat) : Nat := (start + len) % 2 ^ 64

/-- The bytes of one block of a node (src/core/disk/sis_disk.io.sdb.c:321-329). -/
def encUnit (u : IUnit) : Bytes :=
  catByte u.active 1 ++ catByte u.ktype 1 ++ catByte u.sdict 1 ++ catSsize u.fidx ++ catSsize u.offset ++ catSsize u.size ++
    catSsize u.start ++ catSsize (gap u.start u.stop)

/-- The bytes of a node (src/core/disk/sis_disk.io.sdb.c:303-331).  The trace line reads the name of the table, a NULL
pointer for a node without. -/
def encNode (lib : Lib) (n : Node) : Option Bytes :=
  match n.kname with
  | none => none
  | some k =>
    if lib.trace ∧ n.sname = none then none
    else
      some (catSsize k.length ++ k ++ (match n.sname with
        | some s => catSsize s.length ++ s
        | none => catSsize 0) ++ catSsize n.units.length ++ n.units.flatMap encUnit)

/-- `SIS_DISK_MAXLEN_IDXPAGE` (src/core/disk/sis_disk.io.h:116). -/
def idxPage : Nat := 0x00FFFFFF

/-- The loop over the nodes (src/core/disk/sis_disk.io.sdb.c:294-342): the contents of the blocks; `mem` is the buffer. -/
def encPages (lib : Lib) : Bytes → List Node → Option (List Bytes)
  | mem, [] => some (if mem = [] then [] else [mem])
  | mem, n :: ns =>
    (encNode lib n).bind fun b =>
      if idxPage < (mem ++ b).length then (encPages lib [] ns).map fun ps => (mem ++ b) :: ps
      else encPages lib (mem ++ b) ns

/-- `sis_disk_io_write_sdb_widx` (src/core/disk/sis_disk.io.sdb.c:250-350): the blocks of the index file as head byte and
content.  The index is not compressed (src/core/disk/sis_disk.io.c:140). -/
def encIdx (lib : Lib) (idx : Idx) : Option (List (UInt8 × Bytes)) :=
  let keys := match getN idx signKeys with
    | some n => [(headByte 1 0 hidIdxKeys, encRefs n.units)]
    | none => []
  let tabs := match getN idx signTabs with
    | some n => [(headByte 1 0 hidIdxTabs, encRefs n.units)]
    | none => []
  let rest := (idx.filter fun e => !sameN signKeys e.1 && !sameN signTabs e.1).map (·.2)
  (encPages lib [] rest).map fun ps => keys ++ tabs ++ ps.map fun p => (headByte 1 0 hidIdxMsg, p)

/-- The bytes of the index file behind its head, with its tail (48 bytes, of which only the head byte is of interest;
src/core/disk/sis_disk.io.h:226-240). -/
def idxFile (blocks : List (UInt8 × Bytes)) : Bytes :=
  blocks.flatMap (fun b => encRec b.1 b.2) ++ headByte 1 0 hidTail :: List.replicate 47 0

/-! ### Reading -/

/-- What is being read: the dictionaries and the nodes (src/core/disk/sis_disk.io.sdb.c:490-600). -/
structure Rd where
  kd : List Bytes
  sd : TDict
  idx : Idx

/-- `n` blocks of a list of dictionary blocks (src/core/disk/sis_disk.io.sdb.c:507-515); numbers and sizes are kept in their
16 and 64 bits. -/
def decRefs : Nat → Bytes → Option (List IUnit × Bytes)
  | 0, m => some ([], m)
  | n + 1, m =>
    (getSsize m).bind fun (fidx, m) => (getSsize m).bind fun (off, m) => (getSsize m).bind fun (size, m) =>
      (decRefs n m).map fun (us, m) => ({ fidx := fidx % 2 ^ 16, offset := off, size := size } :: us, m)

/-- One block of a node (src/core/disk/sis_disk.io.sdb.c:565-577). -/
def decUnit (m : Bytes) : Option (IUnit × Bytes) :=
  (getByte 1 m).bind fun (active, m) => (getByte 1 m).bind fun (ktype, m) => (getByte 1 m).bind fun (sdict, m) =>
    (getSsize m).bind fun (fidx, m) => (getSsize m).bind fun (off, m) => (getSsize m).bind fun (size, m) =>
      (getSsize m).bind fun (start, m) => (getSsize m).map fun (len, m) =>
        (⟨active, ktype, sdict, fidx % 2 ^ 16, off, size, start, after start len⟩, m)

/-- `n` blocks of a node (src/core/disk/sis_disk.io.sdb.c:561-579). -/
def decUnits : Nat → Bytes → Option (List IUnit × Bytes)
  | 0, m => some ([], m)
  | n + 1, m => (decUnit m).bind fun (u, m) => (decUnits n m).map fun (us, m) => (u :: us, m)

/-- A number kept in an `int`: negative numbers count as no blocks (src/core/disk/sis_disk.io.sdb.c:321-329 and 565-577). -/
def asCount (n : Nat) : Nat := if n % 2 ^ 32 < 2 ^ 31 then n % 2 ^ 32 else 0

/-- `sis_disk_ctrl_read_kdict` (src/core/disk/sis_disk.io.c:272-289): the blocks are read out of the work file. -/
def readKeys (lib : Lib) (body : Bytes) : List Bytes → List IUnit → Option (List Bytes)
  | kd, [] => some kd
  | kd, u :: us =>
    (readAt body u.offset u.size).bind fun (n, b, m) =>
      if n = 0 then readKeys lib body kd us
      else readKeys lib body (loadKeys kd ((unzip lib b m).getD m)) us

/-- `sis_disk_ctrl_read_sdict` (src/core/disk/sis_disk.io.c:291-309). -/
def readTabs (lib : Lib) (body : Bytes) : TDict → List IUnit → Option TDict
  | sd, [] => some sd
  | sd, u :: us =>
    (readAt body u.offset u.size).bind fun (n, b, m) =>
      if n = 0 then readTabs lib body sd us
      else readTabs lib body (loadTabs lib sd ((unzip lib b m).getD m)) us

/-- The name under which a node is read back: `sis_sprintf(name, 255, …)` (src/core/disk/sis_disk.io.sdb.c:550-558). -/
def shortName (k : Bytes) (s : Option Bytes) : Bytes := (nodeName k s).take 254

/-- One node of an index block (src/core/disk/sis_disk.io.sdb.c:538-590). -/
def decNode (lib : Lib) (r : Rd) (m : Bytes) : Option (Rd × Bytes) :=
  (getSsize m).bind fun (klen, m) => (if klen % 2 ^ 32 < 2 ^ 31 then takeBytes (asCount klen) m else none).bind fun (k, m) =>
    (getSsize m).bind fun (slen, m) => (takeBytes (asCount slen) m).bind fun (s, m) =>
      (getKey r.kd k).bind fun (kname, _) =>
        let sname : Option Bytes := if s = [] then none else (r.sd.find? fun e => sameN s e.1).map (·.1)
        (getSsize m).bind fun (blocks, m) => (decUnits (asCount blocks) m).bind fun (us, m) =>
          if lib.trace ∧ sname = none ∧ us ≠ [] then none
          else some ({ r with idx := (setN r.idx (shortName k (if s = [] then none else some s)) ⟨some kname, sname, us⟩).1 }, m)

/-- All nodes of an index block: every pass takes bytes, as many passes as bytes are enough (src/core/disk/sis_disk.io.sdb.c:538-590). -/
def decNodes (lib : Lib) : Nat → Rd → Bytes → Option Rd
  | 0, r, m => if m = [] then some r else none
  | f + 1, r, m => if m = [] then some r else (decNode lib r m).bind fun (r, m) => decNodes lib f r m

/-- A list of dictionary blocks is read again and again until the buffer is empty (src/core/disk/sis_disk.io.sdb.c:498-535). -/
def decDict (lib : Lib) (body : Bytes) (keys : Bool) : Nat → Rd → Bytes → Option Rd
  | 0, r, m => if m = [] then some r else none
  | f + 1, r, m =>
    if m = [] then some r
    else
      (getSsize m).bind fun (n, m) => (decRefs (asCount n) m).bind fun (us, m) =>
        if keys then
          (readKeys lib body r.kd us).bind fun kd =>
            decDict lib body keys f { r with kd := kd, idx := (setN r.idx signKeys ⟨none, none, us⟩).1 } m
        else
          (readTabs lib body r.sd us).bind fun sd =>
            decDict lib body keys f { r with sd := sd, idx := (setN r.idx signTabs ⟨none, none, us⟩).1 } m

/-- `cb_sis_disk_io_read_sdb_widx` (src/core/disk/sis_disk.io.sdb.c:490-600) on one block; a block of another kind that is
not empty is never left (`none`). -/
def decBlock (lib : Lib) (body : Bytes) (r : Rd) (b : UInt8 × Bytes) : Option Rd :=
  if hidOf b.1 = hidIdxKeys then decDict lib body true b.2.length r b.2
  else if hidOf b.1 = hidIdxTabs then decDict lib body false b.2.length r b.2
  else if hidOf b.1 = hidIdxMsg then decNodes lib b.2.length r b.2
  else if b.2 = [] then some r
  else none

/-- The blocks of an index in order (src/core/disk/sis_disk.io.sdb.c:602-625). -/
def decIdx (lib : Lib) (body : Bytes) : Rd → List (UInt8 × Bytes) → Option Rd
  | r, [] => some r
  | r, b :: bs => (decBlock lib body r b).bind fun r => decIdx lib body r bs

/-- `sis_disk_io_read_sdb_widx` (src/core/disk/sis_disk.io.sdb.c:602-625): the index file is read `readSize` bytes at a time
by `sis_disk_files_read_fulltext`. -/
def readIdx (lib : Lib) (body file : Bytes) : Option Rd :=
  (readFull (fun _ _ => .next) (chunksOf (readSize - 1) file)).bind fun bs => decIdx lib body ⟨[], [], []⟩ bs

end Sis.Sdb
