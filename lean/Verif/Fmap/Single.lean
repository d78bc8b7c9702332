import Verif.Fmap.Store
/-
Model of the keys without time index of `workers/sisdb/sisdb_fmap*.c`: a single value (`ONE`), a list of values (`MUL`) and a
list of records (`NON`), each cached in memory over a value on disk.
-/
namespace Sis.Fmap

/-- `s_sisdb_fmap_unit` (workers/sisdb/sisdb_fmap.h:50-71) of a key without time index. -/
structure Cached (β : Type) where
  value : β
  reads : Nat
  moved : Bool
  writed : Bool
deriving DecidableEq, Repr

variable {β : Type}

/-- The `ONE`, `MUL` and `NON` branches of `sisdb_fmap_cxt_read_data` (workers/sisdb/sisdb_fmap_read.c:215-330): `disk` is
what the reader finds for the key, if anything.  The value on disk replaces the one in memory until the key has been
read once. -/
def Cached.load (disk : Option β) (c : Cached β) : Cached β :=
  if c.reads = 0 then match disk with
    | some v => { c with value := v }
    | none => c
  else c

/-- `sisdb_fmap_cxt_read` (workers/sisdb/sisdb_fmap.c:305-395) on a key without time index; the value the answer is taken
from. -/
def Cached.read (disk : Option β) (c : Cached β) : β × Cached β :=
  let c := c.load disk
  (c.value, { c with reads := c.reads + 1 })

/-- `sisdb_fmap_unit_create` (workers/sisdb/sisdb_fmap_ctrl.c:10-56): the unit made for a key, new
(workers/sisdb/sisdb_fmap.c:150-198) or found on disk (workers/sisdb/sisdb_fmap.c:73-109). -/
def Cached.create (empty : β) : Cached β := ⟨empty, 0, false, false⟩

/-- The `ONE` branch of `sisdb_fmap_cxt_update` (workers/sisdb/sisdb_fmap.c:397-515) on an existing unit. -/
def Cached.setOne {γ : Type} (disk : Option (List γ)) (c : Cached (List γ)) (v : List γ) : Cached (List γ) :=
  { c.load disk with value := v }

/-- The `ONE` branch of `sisdb_fmap_cxt_del` (workers/sisdb/sisdb_fmap.c:518-586). -/
def Cached.delOne {γ : Type} (c : Cached (List γ)) : Cached (List γ) := { c with value := [], moved := true }

/-- `sisdb_fmap_cxt_remove` (workers/sisdb/sisdb_fmap.c:588-627), `ONE` and `NON`. -/
def Cached.remove {γ : Type} (c : Cached (List γ)) : Cached (List γ) := { c with value := [], reads := 0, moved := true }

/-- The `NON` branch of `sisdb_fmap_cxt_update` (workers/sisdb/sisdb_fmap.c:397-515, lines 452-477) on an existing unit. -/
def Cached.setNon {γ : Type} (T : Table γ) (uniqFields : Bool) (disk : Option (List γ)) (c : Cached (List γ)) (batch : List γ) :
    Cached (List γ) :=
  let c := c.load disk
  { c with value := nonUpdate T uniqFields c.value batch, writed := c.writed || decide (batch.length > 0) }

/-- The `NON` branch of `sisdb_fmap_cxt_del` (workers/sisdb/sisdb_fmap.c:518-586). -/
def Cached.delNon {γ : Type} (disk : Option (List γ)) (c : Cached (List γ)) (start count : Int) : Cached (List γ) :=
  let c := c.load disk
  let l := nonDel c.value start count
  { c with value := l, moved := c.moved || decide (l.length = 0) }

/-- What `_disk_save_fmap` (workers/sisdb/sisdb_fmap_write.c:431-491) asks the disk writer to do for one key. -/
inductive KeySave (β : Type)
  | nothing
  | remove
  | write (v : β)
deriving DecidableEq

/-- The `ONE` branch of `_disk_save_fmap` (workers/sisdb/sisdb_fmap_write.c:431-491). -/
def Cached.saveOne (c : Cached β) : KeySave β := if c.moved then .remove else .write c.value

/-- The `MUL` branch of `_disk_save_fmap` (workers/sisdb/sisdb_fmap_write.c:431-491): the code is commented out. -/
def Cached.saveMul (_ : Cached β) : KeySave β := .nothing

/-- The `NON` branch of `_disk_save_fmap` (workers/sisdb/sisdb_fmap_write.c:431-491). -/
def Cached.saveNon {γ : Type} (c : Cached (List γ)) : KeySave (List γ) :=
  if c.moved then .remove
  else if c.writed then (if c.value.length > 0 then .write c.value else .nothing) else .nothing

/-! ### list-valued keys -/

/-- The `MUL` branch of `sisdb_fmap_cxt_del` (workers/sisdb/sisdb_fmap.c:518-586): the loop runs from `count` down to 0
inclusive and deletes the node at `start` each time; a missing node is ignored (src/core/sis_list.c:489-514). -/
def mulDel {γ : Type} (l : List γ) (start : Int) (count : Int) : List γ :=
  match notsCount (start % 2 ^ 64).toNat count l.length with
  | none => l
  | some (s, c) => loop s.toNat (c + 1).toNat l
where
  /-- `n` rounds of the loop. -/
  loop (s : Nat) : Nat → List γ → List γ
    | 0, l => l
    | n + 1, l => loop s n (l.eraseIdx s)

/-- `_fmap_calc_nots_start` (workers/sisdb/sisdb_fmap.c:31-43). -/
def notsStart (start inums : Int) : Int :=
  let s := if start < 0 then max (inums + start) 0 else start
  if s ≥ inums then -1 else s

/-- The `MUL` branch of `sisdb_fmap_cxt_update` (workers/sisdb/sisdb_fmap.c:397-515): append, or replace the element at
`start`. -/
def mulUpdate {γ : Type} (l : List γ) (append : Bool) (start : Int) (v : γ) : List γ :=
  if append then l ++ [v]
  else
    let s := notsStart start l.length
    if s ≥ 0 then l.set s.toNat v else l

end Sis.Fmap
