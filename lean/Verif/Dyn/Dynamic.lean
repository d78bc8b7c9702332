import Verif.Base.Bytes
import Verif.Strs.Case
import Verif.Time.Calendar
/-
Model of table definitions and of the conversion of records between two of them (src/core/sis_dynamic.c:55-777,
src/core/sis_dynamic.h:97-381).

The named lists of fields are used by what C41 proves of them: a list of named entries in which setting a name that is
there replaces the entry where it is.  Names are the same when equal but for case.  The fields are a heap of units, each
`none` once it was freed: a named list frees the entry it replaces.  Using a freed unit, reading or writing outside of a
buffer and the overflow of an `int` are the outcome `none`.

Left out: names of tables and the list of the fields with unique values; the definition is read out of its JSON text in
Verif/Sdb/TabText.lean.
-/
namespace Sis.Dyn
open Sis

/-- The types of a field (src/core/sis_dynamic.h:77-91) a definition can name (src/core/sis_dynamic.c:12-54). -/
inductive St
  | int | uint | char | float | price | wsec | msec | tsec | minu | date
deriving DecidableEq, Repr

/-- `s_sis_dynamic_field` (src/core/sis_dynamic.h:98-108). -/
structure Field where
  fname : Bytes
  style : St
  len : Nat
  count : Nat
  offset : Nat
  dot : Nat
  mindex : Bool
  solely : Bool
deriving DecidableEq, Repr

/-- `s_sis_dynamic_db` (src/core/sis_dynamic.h:118-127): the units, the named list of them, and the places of the special ones. -/
structure Db where
  heap : List (Option Field)
  fields : List (Bytes × Nat)
  size : Nat
  time : Option Nat
  mindex : Option Nat
deriving DecidableEq, Repr

/-- What `sis_dynamic_db_create` reads of one entry of `fields` (src/core/sis_dynamic.c:131-167); `none` for a missing
name and for a type that is not known. -/
structure Def where
  name : Option Bytes
  style : Option St
  len : Int
  count : Int
  main : Bool := false
  dot : Int := 0
  solely : Bool := false
deriving DecidableEq, Repr

/-- Names equal but for case (`_sis_dict_strcase_compare`, src/core/sis_map.c:32-35). -/
def sameN (a b : Bytes) : Bool := a.map lower == b.map lower

/-- `sis_map_list_get` by what C41 says of it (src/core/sis_map.c:198-213). -/
def getN {α : Type} (l : List (Bytes × α)) (k : Bytes) : Option α := (l.find? fun e => sameN k e.1).map (·.2)

/-- `sis_map_list_set` by what C41 says of it; the entry that is freed (src/core/sis_map.c:216-234). -/
def setN {α : Type} : List (Bytes × α) → Bytes → α → List (Bytes × α) × Option α
  | [], k, v => ([(k, v)], none)
  | e :: l, k, v => if sameN k e.1 then ((e.1, v) :: l, some e.2) else (e :: (setN l k v).1, (setN l k v).2)

/-- The unit at an address (`s_sis_dynamic_field *`, src/core/sis_dynamic.h:98-108). -/
def unit (db : Db) (a : Nat) : Option Field := db.heap[a]?.join

/-- The digits of a field (src/core/sis_dynamic.c:164-168 and 175): three for a price without, and 8 bits of the number are kept. -/
def dotOf (style : St) (dot : Int) : Nat := ((if style = St.price ∧ dot = 0 then 3 else dot) % 2 ^ 8).toNat

/-- The types that make a field the time of a table (src/core/sis_dynamic.c:185-189). -/
def isTime : St → Bool
  | .tsec | .msec | .minu | .date => true
  | _ => false

/-- One pass of the loop of `sis_dynamic_db_create` (src/core/sis_dynamic.c:131-200); `off` is the local `offset`, of
which the field keeps 16 bits, and `sis_dynamic_field_create` (src/core/sis_dynamic.c:60-65) the first 31 bytes of the name. -/
def addDef (db : Db) (off : Nat) (d : Def) : Option (Db × Nat) :=
  match d.name, d.style with
  | some name, some style =>
    if d.len > 0xFFFF ∨ d.len < 1 then some (db, off)
    else if d.count > 0xFFFF ∨ d.count < 1 then some (db, off)
    else
      let f : Field := ⟨name.take 31, style, d.len.toNat, d.count.toNat, off % 2 ^ 16, dotOf style d.dot, d.main, d.solely⟩
      let off' := off + f.len * f.count
      if off' < 2 ^ 31 then
        let a := db.heap.length
        let r := setN db.fields name a
        let heap := db.heap ++ [some f]
        some (⟨match r.2 with
          | some old => heap.set old none
          | none => heap, r.1, db.size,
          if db.time.isNone ∧ isTime style = true then some a else db.time,
          if d.main then some a else db.mindex⟩, off')
      else none
  | _, _ => some (db, off)

/-- The loop of `sis_dynamic_db_create` (src/core/sis_dynamic.c:130-202). -/
def addDefs (db : Db) (off : Nat) : List Def → Option (Db × Nat)
  | [] => some (db, off)
  | d :: ds => (addDef db off d).bind fun (db, off) => addDefs db off ds

/-- `sis_dynamic_db_create` (src/core/sis_dynamic.c:114-219); the inner `none` is NULL. -/
def create (ds : List Def) : Option (Option Db) :=
  (addDefs ⟨[], [], 0, none, none⟩ 0 ds).map fun (db, off) =>
    if off = 0 then none
    else some { db with size := off, mindex := if db.time.isSome then db.time else db.mindex }

/-- `sis_dynamic_db_add_field` (src/core/sis_dynamic.c:71-89), for a length and a number that fit 16 bits. -/
def addField (db : Db) (name : Bytes) (style : St) (len count dot : Nat) : Option Db :=
  match getN db.fields name with
  | some _ => some db
  | none =>
    let f : Field := ⟨name.take 31, style, len, count, db.size % 2 ^ 16, dot % 2 ^ 8, false, false⟩
    if count * len < 2 ^ 31 then
      some { db with heap := db.heap ++ [some f], fields := db.fields ++ [(name, db.heap.length)], size := (db.size + count * len) % 2 ^ 32 }
    else none

/-- `sis_dynamic_db_get_field` (src/core/sis_dynamic.c:267-283) of a name without an index: the field, `none` for NULL and
for a freed one. -/
def field (db : Db) (name : Bytes) : Option Field := (getN db.fields name).bind (unit db)

/-- `sis_map_list_geti` (src/core/sis_map.c:190-193) of the fields. -/
def fieldAt (db : Db) (i : Nat) : Option Field := db.fields[i]?.bind fun e => unit db e.2

/-- `len` bytes at `pos` of a buffer (the loads of src/core/sis_dynamic.c:392-547). -/
def elem (buf : Bytes) (pos len : Nat) : Option Bytes :=
  if pos + len ≤ buf.length then some ((buf.drop pos).take len) else none

/-- The lengths `_sis_field_get_uint` and the like know (src/core/sis_dynamic.h:160-185). -/
def intLen (n : Nat) : Bool := n == 1 || n == 2 || n == 4 || n == 8

/-- `_sis_field_get_uint` (src/core/sis_dynamic.h:155-187) of the record at `base`. -/
def getUint (f : Field) (buf : Bytes) (base i : Nat) : Option Nat :=
  if intLen f.len then (elem buf (base + f.offset + i * f.len) f.len).map leVal else some 0

/-- An unsigned number of `k` bytes as a signed one (the casts of src/core/sis_dynamic.h:188-218). -/
def signed (k n : Nat) : Int := if n < 2 ^ (8 * k - 1) then n else (n : Int) - 2 ^ (8 * k)

/-- `_sis_field_get_int` (src/core/sis_dynamic.h:188-218). -/
def getInt (f : Field) (buf : Bytes) (base i : Nat) : Option Int :=
  if intLen f.len then (elem buf (base + f.offset + i * f.len) f.len).map fun b => signed f.len (leVal b) else some 0

/-- `sis_dynamic_db_get_time` (src/core/sis_dynamic.c:311-318), for an index that is not negative. -/
def getTime (db : Db) (idx : Nat) (buf : Bytes) : Option Nat :=
  match db.time with
  | none => some 0
  | some a =>
    if buf.length % db.size ≠ 0 ∨ (idx + 1) * db.size % 2 ^ 32 > buf.length then some 0
    else (unit db a).bind fun f => getUint f buf (idx * db.size % 2 ^ 32) 0

/-- `sis_dynamic_db_get_mindex` (src/core/sis_dynamic.c:319-326). -/
def getMindex (db : Db) (idx : Nat) (buf : Bytes) : Option Nat :=
  match db.mindex with
  | none => some 0
  | some a =>
    if buf.length % db.size ≠ 0 ∨ (idx + 1) * db.size % 2 ^ 32 > buf.length then some 0
    else (unit db a).bind fun f => getUint f buf (idx * db.size % 2 ^ 32) 0

/-- A write: where and what (the stores of src/core/sis_dynamic.c:333-346 and 392-547). -/
abbrev W := Nat × Bytes

/-- `_sis_field_set_uint` and `_sis_field_set_int` (src/core/sis_dynamic.h:300-357) as a write. -/
def setNum (f : Field) (base v i : Nat) : List W :=
  if intLen f.len then [(base + f.offset + i * f.len, leBytes f.len v)] else []

/-- The types of times `_sis_dynamic_unit_convert` converts (src/core/sis_dynamic.c:392-547). -/
def timeStyle : St → Option Time.Style
  | .tsec => some .tsec
  | .msec => some .msec
  | .minu => some .minu
  | .date => some .date
  | _ => none

/-- What the arithmetic of floating point numbers and prices makes of an element, as a number of the width of the field;
not modelled (src/core/sis_dynamic.c:392-547). -/
abbrev Float := Field → Field → Bytes → Nat

/-- A floating point number or price written, or one that was read written as an integer (src/core/sis_dynamic.c:392-547). -/
def setFloat (fl : Float) (g f : Field) (src : Bytes) (base i : Nat) : Option (List W) :=
  (elem src (base + g.offset + i * g.len) g.len).bind fun e =>
  if f.style = .float ∨ f.style = .price then
    if f.len = 4 ∨ f.len = 8 then some [(f.offset + i * f.len, leBytes f.len (fl g f e))] else none
  else some (setNum f 0 (fl g f e) i)

/-- One pass of the loop of `_sis_dynamic_unit_convert` (src/core/sis_dynamic.c:392-547): element `i` of the field `g` of
the record at `ib` to the field `f` of the record at the start of the output. -/
def convElem (v : Time.Env) (fl : Float) (g f : Field) (src : Bytes) (ib i : Nat) : Option (List W) :=
  match g.style, f.style with
  | .char, .char => (elem src (ib + g.offset + i * g.len) (min g.len f.len)).map fun e => [(f.offset + i * f.len, e)]
  | .char, _ => some []
  | .wsec, _ => some []
  | _, .char => some []
  | _, .wsec => some []
  | .int, .float => setFloat fl g f src ib i
  | .int, _ => (getInt g src ib i).map fun n => setNum f 0 (Time.u64 n) i
  | .float, _ => setFloat fl g f src ib i
  | .price, _ => setFloat fl g f src ib i
  | gs, fs =>
    if fs = .float then setFloat fl g f src ib i
    else (getUint g src ib i).bind fun n =>
      match timeStyle gs, timeStyle fs with
      | some a, some b => (Time.convert v a b n).map fun m => setNum f 0 m i
      | _, _ => some (setNum f 0 n i)

/-- Several parts, all of them defined (the loops of src/core/sis_dynamic.c:392-547). -/
def collect {α : Type} : List (Option (List α)) → Option (List α)
  | [] => some []
  | x :: xs => x.bind fun a => (collect xs).map fun b => a ++ b

/-- `s_sis_dynamic_field_convert` (src/core/sis_dynamic.h:132-136); `conv` tells the two transfer functions apart. -/
structure Conv where
  g : Option Field
  f : Field
  conv : Bool
deriving DecidableEq, Repr

/-- `_sis_dynamic_unit_copy` (src/core/sis_dynamic.c:333-346) or `_sis_dynamic_unit_convert` as writes into a record.  They
read the input only, so that the writes can be made after all of them are known. -/
def shift (v : Time.Env) (fl : Float) (c : Conv) (src : Bytes) (ib : Nat) : Option (List W) :=
  match c.g with
  | none => some []
  | some g =>
    if c.conv then collect ((List.range (min g.count c.f.count)).map fun i => convElem v fl g c.f src ib i)
    else (elem src (ib + g.offset) (g.len * min g.count c.f.count)).map fun e => [(c.f.offset, e)]

/-- One entry of the loop of `_sis_dynamic_match` (src/core/sis_dynamic.c:600-637), and whether it asks for a conversion. -/
def matchOne (gdb : Db) (f : Field) : Option (Conv × Bool) :=
  match getN gdb.fields f.fname with
  | none => some (⟨none, f, false⟩, false)
  | some a => (unit gdb a).map fun g =>
    if g.style ≠ f.style then (⟨some g, f, true⟩, true)
    else if g.len ≠ f.len then (⟨some g, f, true⟩, true)
    else if g.count ≠ f.count then (⟨some g, f, false⟩, true)
    else (⟨some g, f, false⟩, false)

/-- The loop of `_sis_dynamic_match` (src/core/sis_dynamic.c:600-637). -/
def matchLoop (gdb fdb : Db) : List (Bytes × Nat) → List (Bytes × Conv) → Bool → Option (List (Bytes × Conv) × Bool)
  | [], l, ch => some (l, ch)
  | (_, a) :: rest, l, ch => (unit fdb a).bind fun f => (matchOne gdb f).bind fun (c, b) =>
    matchLoop gdb fdb rest (setN l f.fname c).1 (ch || b)

/-- `_sis_dynamic_match` (src/core/sis_dynamic.c:587-643): the transfers, and whether records are converted or copied. -/
def matchDb (gdb fdb : Db) : Option (List (Bytes × Conv) × Bool) :=
  matchLoop gdb fdb fdb.fields [] (fdb.size != gdb.size || fdb.fields.length != gdb.fields.length)

/-- One write into the record at `base` (src/core/sis_dynamic.c:682-718). -/
def put (out : Bytes) (base : Nat) (w : W) : Option Bytes :=
  if base + w.1 + w.2.length ≤ out.length then some (out.take (base + w.1) ++ w.2 ++ out.drop (base + w.1 + w.2.length)) else none

/-- The writes of one record (src/core/sis_dynamic.c:682-718). -/
def puts (out : Bytes) (base : Nat) : List W → Option Bytes
  | [] => some out
  | w :: ws => (put out base w).bind fun out => puts out base ws

/-- The loop of `_sis_dynamic_method_owner` (src/core/sis_dynamic.c:554-579) over `n` records from record `i` on. -/
def owner (v : Time.Env) (fl : Float) (gsize fsize : Nat) (cs : List (Bytes × Conv)) (src : Bytes) : Nat → Nat → Bytes → Option Bytes
  | 0, _, out => some out
  | n + 1, i, out =>
    (collect (cs.map fun c => shift v fl c.2 src (i * gsize))).bind fun ws =>
    (puts out (i * fsize) ws).bind fun out => owner v fl gsize fsize cs src n (i + 1) out

/-- `sis_dynamic_convert` (src/core/sis_dynamic.c:682-718) of a convert made by `sis_dynamic_convert_create`
(src/core/sis_dynamic.c:645-653), for less than 2^31 bytes: what it returns and the output. -/
def convert (v : Time.Env) (fl : Float) (gdb fdb : Db) (src out : Bytes) : Option (Nat × Bytes) :=
  (matchDb gdb fdb).bind fun (cs, ch) =>
  if src.length ≥ 2 ^ 31 ∨ out.length ≥ 2 ^ 31 then none
  else if src.length = 0 ∨ out.length = 0 then some (1, out)
  else
    let count := src.length / gdb.size
    if count * gdb.size ≠ src.length then some (4, out)
    else if count * fdb.size ≠ out.length then some (5, out)
    else if ch then (owner v fl gdb.size fdb.size cs src count 0 (List.replicate out.length 0)).map fun o => (0, o)
    else (elem src 0 out.length).map fun o => (0, o)

/-- `sis_dynamic_convert_length` (src/core/sis_dynamic.c:662-680), for less than 2^31 bytes in and out. -/
def convertLength (gdb fdb : Db) (src : Bytes) : Nat :=
  if src.length = 0 then 0
  else if src.length / gdb.size * gdb.size ≠ src.length then 0
  else src.length / gdb.size * fdb.size

end Sis.Dyn
