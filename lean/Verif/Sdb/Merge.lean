import Verif.Sdb.Writer
/-
Model of the merge of the blocks of a year: `sis_disk_ctrl_merge` (src/core/disk/sis_disk.io.c:915-1023), which
`cmd_sisdb_wsdb_merge` (workers/sisdb_wsdb/sisdb_wsdb.c:241-267) calls for the file of the year of a date.

Left out: the names of the files, what is left behind when a file cannot be removed or renamed, and a year without a file.
-/
namespace Sis.Sdb
open Sis Sis.Disk
open Sis.Dyn (sameN getN setN)

/-- A block of the old file as `sis_disk_io_read_sdb` (src/core/disk/sis_disk.io.sdb.c:352-388) leaves it: its kind, whether it was
compressed, and the bytes in the buffer. -/
def readUnit (lib : Lib) (body : Bytes) (u : IUnit) : Option (Nat × Bool × Bytes) :=
  (readAt body u.offset u.size).bind fun (_, b, _) =>
    (readSdb lib body u.offset u.size).map fun (h, m) => (h, zipOf b == 1, m)

/-- `wcatch` of the new file (src/core/disk/sis_disk.io.c:939-953): the bytes that are collected, and kind, compression and index entry of the
block that was read last. -/
structure Part where
  mem : Bytes := []
  hid : Nat := 0
  zip : Bool := false
  win : IUnit := {}

/-- `sis_disk_io_write_noidx` (src/core/disk/sis_disk.io.sdb.c:6-26) at the end of the new file. -/
def putBlock (lib : Lib) (t : Ctl) (p : Part) : Ctl × IUnit :=
  let b := block lib p.zip p.hid p.mem
  ({ t with body := t.body ++ b }, { p.win with fidx := 0, offset := mainHead + t.body.length, size := b.length })

/-- A dictionary block in the new file (src/core/disk/sis_disk.io.c:962-982): the entry of the new index is made anew, an older one
is lost. -/
def putDict (lib : Lib) (t : Ctl) (p : Part) (sign : Bytes) : Ctl :=
  let r := putBlock lib t p
  { r.1 with idx := (setN t.idx sign ⟨none, none, [r.2]⟩).1 }

/-- The blocks of an entry, `k` of them done (src/core/disk/sis_disk.io.c:944-1004).  The numbers of key and table come from
the dictionaries of the old file; a name that is missing there is a NULL pointer. -/
def mergeUnits (lib : Lib) (src : Ctl) (n : Node) : Nat → Ctl → Part → List IUnit → Option (Ctl × Part)
  | _, t, p, [] => some (t, p)
  | k, t, p, u :: us =>
    (readUnit lib src.body u).bind fun (hid, zip, m) =>
      if hid = hidKeys then
        mergeUnits lib src n (k + 1) (putDict lib t ⟨p.mem ++ m, hid, zip, u⟩ signKeys) ⟨[], hid, zip, u⟩ us
      else if hid = hidTabs then
        mergeUnits lib src n (k + 1) (putDict lib t ⟨p.mem ++ m, hid, zip, u⟩ signTabs) ⟨[], hid, zip, u⟩ us
      else if hid = hidSdb ∨ hid = hidNon then
        if k = 0 then
          n.kname.bind fun kn => n.sname.bind fun sn =>
            (getKey src.kd kn).bind fun (_, i) => (getTab src.sd sn).bind fun (_, j) =>
              mergeUnits lib src n (k + 1) t ⟨p.mem ++ catSsize i ++ catSsize j ++ m, hid, zip, u⟩ us
        else mergeUnits lib src n (k + 1) t ⟨p.mem ++ m, hid, zip, u⟩ us
      else mergeUnits lib src n (k + 1) t ⟨p.mem, hid, zip, u⟩ us

/-- One entry of the old index (src/core/disk/sis_disk.io.c:942-1014): what was collected becomes one block, with the index entry
of the last block that was read. -/
def mergeNode (lib : Lib) (src : Ctl) (t : Ctl) (e : Bytes × Node) : Option Ctl :=
  (mergeUnits lib src e.2 0 t {} e.2.units).bind fun (t, p) =>
    if p.mem = [] then some t
    else
      let r := putBlock lib t p
      e.2.kname.map fun k => { r.1 with idx := idxUpd t.idx k e.2.sname fun us => us ++ [r.2] }

/-- `sis_disk_ctrl_merge` (src/core/disk/sis_disk.io.c:915-1023) on the two files of a year. -/
def mergeFile (lib : Lib) (f : Bytes × Bytes) : Option (Bytes × Bytes) :=
  (openUnit lib .year f).bind fun c => (c.idx.foldlM (mergeNode lib c) { kind := .year }).bind fun t => closeUnit lib t

/-- `cmd_sisdb_wsdb_merge` (workers/sisdb_wsdb/sisdb_wsdb.c:241-267) for a date of the year `y`: the new files take the place of
the old ones. -/
def mergeYear (lib : Lib) (d : Disk) (y : Nat) : Option Disk :=
  (d.unit (.year y)).bind fun f => (mergeFile lib f).map fun g =>
    { d with units := (d.units.filter fun e => !(e.1 == .year y)) ++ [(.year y, g)] }

end Sis.Sdb
