import Verif.Sdb.Index
/- What is said of the index of a data file, apart from the functions that write and read it. -/
namespace Sis.Sdb
open Sis

/-- Whether a name of the index is not one of the two that lead to the dictionaries. -/
def isEntry (n : Bytes) : Bool :=
  !(n.map lower == "_keys_".toUTF8.toList) && !(n.map lower == "_sdbs_".toUTF8.toList)

/-- The name of the entry of a key, or of a key and a table. -/
def entryName (k : Bytes) : Option Bytes → Bytes
  | none => k
  | some s => k ++ ".".toUTF8.toList ++ s

/-- The blocks an index has under a name. -/
def blocksOf (idx : Idx) (n : Bytes) : List IUnit := ((idx.find? fun e => n.map lower == e.1.map lower).map fun e => e.2.units).getD []

/-- The numbers of a block are in the range of their C types (src/core/disk/sis_disk.io.h:292-303). -/
structure InTypes (u : IUnit) : Prop where
  active : u.active < 2 ^ 8
  ktype : u.ktype < 2 ^ 8
  sdict : u.sdict < 2 ^ 8
  fidx : u.fidx < 2 ^ 16
  offset : u.offset < 2 ^ 64
  size : u.size < 2 ^ 64
  start : u.start < 2 ^ 64
  stop : u.stop < 2 ^ 64

/-- An entry for a key and possibly a table that are in the dictionaries. -/
structure Known (keys : List Bytes) (tabs : TDict) (e : Bytes × Node) (k : Bytes) (s : Option Bytes) : Prop where
  name : e.1 = entryName k s
  kname : e.2.kname = some k
  sname : e.2.sname = s
  key : k ∈ keys
  tab : ∀ t, s = some t → t ≠ [] ∧ t ∈ tabs.map (·.1)

end Sis.Sdb
