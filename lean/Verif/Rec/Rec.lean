import Verif.Sdb.TabText
/-
Model of the texts in which records are given and returned: `sisdb_io_set_chars` takes them as JSON
(`sis_array_to_struct_sds`, `sis_json_to_struct_sds`), `sisdb_io_get_chars_sds` returns them as JSON
(`sis_sdb_to_array_sds`, `sis_sdb_fields_to_array_sds`, `sis_sdb_fields_to_json_sds`) (src/core/sis_utils.c:123-535,
src/core/sis_dynamic.h:437-535, workers/sisdb/sisdb_io.c:79-237).

The numbers of floating point fields and prices are not modelled: the text `printf` makes of an element and the number
`atof` makes of a text are parameters.  The outcome `none` is undefined behaviour: a field that was freed or is not
there, a read or a write outside of a buffer, the overflow of an `int`.
-/
namespace Sis.Rec
open Sis Sis.Num
open Sis.Json (Node Ty)
open Sis.Dyn (Db Field St elem put puts)
open Sis.Sdb (every numNode strNode)

/-- What the C library makes of floating point numbers (`sis_json_array_add_double`, src/core/sis_dynamic.h:453-463, and
`sis_json_get_double`, src/core/sis_dynamic.h:515-530); not modelled. -/
structure Fl where
  toText : Field → Bytes → Bytes
  ofText : Field → Bytes → Nat

/-- One element of a record as a node of an array that has `k` elements: the body of the loop of
`sis_dynamic_field_to_array` (src/core/sis_dynamic.h:441-473), with `sis_json_array_add_int`, `sis_json_array_add_uint`,
`sis_json_array_add_double` and `sis_json_array_add_string` (src/core/sis_json.c:899-940). -/
def cellNode (fl : Fl) (f : Field) (buf : Bytes) (base i k : Nat) : Option Node :=
  match f.style with
  | .int => do
    let v ← Dyn.getInt f buf base i
    let t ← lldtoa v 32
    some (.mk .int (some (llutoa k 32)) (some t) [])
  | .tsec | .msec | .minu | .date | .uint => (Dyn.getUint f buf base i).map (numNode k)
  | .float | .price => (elem buf (base + f.offset + i * f.len) f.len).map fun e =>
      .mk .double (some (llutoa k 32)) (some (fl.toText f e)) []
  | .char => (elem buf (base + f.offset + i * f.len) f.len).map fun e => strNode k (Json.cstrOf e)
  | .wsec => some (strNode k [32])

/-- The loop of `sis_dynamic_field_to_array` (src/core/sis_dynamic.h:441-473) from element `i` on: `todo` elements are
still to come, the array has `k` already. -/
def cellsFrom (fl : Fl) (f : Field) (buf : Bytes) (base : Nat) : Nat → Nat → Nat → Option (List Node)
  | 0, _, _ => some []
  | todo + 1, i, k => do
    let n ← cellNode fl f buf base i k
    let ns ← cellsFrom fl f buf base todo (i + 1) (k + 1)
    some (n :: ns)

/-- The calls of `sis_dynamic_field_to_array` for the fields of one record (src/core/sis_utils.c:139-143): the array has `k`
elements already. -/
def rowFrom (fl : Fl) (buf : Bytes) (base : Nat) : List Field → Nat → Option (List Node)
  | [], _ => some []
  | f :: fs, k => do
    let a ← cellsFrom fl f buf base f.count 0 k
    let b ← rowFrom fl buf base fs (k + a.length)
    some (a ++ b)

/-- All fields of a table in order (`sis_map_list_geti`, src/core/sis_map.c:190-196). -/
def fieldsOf (db : Db) : Option (List Field) := every (db.fields.map fun e => Dyn.unit db e.2)

/-- The arrays of the records of a buffer, from record `r` on (the loop of src/core/sis_utils.c:136-156): an array that
`sis_json_array_add_node` adds has no key (src/core/sis_json.c:658-676). -/
def rowsFrom (fl : Fl) (fs : List Field) (size : Nat) (buf : Bytes) : Nat → Nat → Option (List Node)
  | 0, _ => some []
  | todo + 1, r => do
    let row ← rowFrom fl buf (r * size) fs 0
    let rs ← rowsFrom fl fs size buf todo (r + 1)
    some (.mk .array none none row :: rs)

/-- The number of records in a buffer, an `int` (src/core/sis_utils.c:127); `none`: division by zero, or more than an `int`
holds. -/
def recCount (db : Db) (buf : Bytes) : Option Nat :=
  if db.size = 0 ∨ 2 ^ 31 ≤ buf.length / db.size then none else some (buf.length / db.size)

/-- The document of all records: a single one is not put into an array of its own (src/core/sis_utils.c:144-156). -/
def allRows : List Node → Node
  | [.mk _ _ _ row] => .mk .array none none row
  | rows => .mk .array none none rows

/-- `sis_sdb_to_array_sds` (src/core/sis_utils.c:123-170) with `sis_json_to_sds` (src/core/sis_utils.c:539-558); the inner
`none` is NULL. -/
def toArray (fl : Fl) (db : Db) (key : Option Bytes) (buf : Bytes) : Option (Option Bytes) := do
  let count ← recCount db buf
  let fs ← fieldsOf db
  if count < 1 ∨ fs.length < 1 then some none
  else
    let rows ← rowsFrom fl fs db.size buf count 0
    let two := allRows rows
    match key with
    | some k => some (Json.outputZip (.mk .object none none [.mk .array (some k) none two.child]))
    | none => some (Json.outputZip two)

/-- The fields of a list of names (`sis_map_list_get` in src/core/sis_utils.c:371, 393, 417); a name that is not there
gives a null pointer. -/
def pick (db : Db) (names : List Bytes) : Option (List (Option Field)) :=
  every (names.map fun n => match Dyn.getN db.fields n with
    | none => some none
    | some a => (Dyn.unit db a).map some)

/-- Leaving out the null pointers, as `sis_dynamic_field_to_array` does (src/core/sis_dynamic.h:439). -/
def present (fs : List (Option Field)) : List Field := fs.filterMap id

/-- `sis_sdb_fields_to_array_sds` (src/core/sis_utils.c:360-381) with the short layout. -/
def fieldsToArray (fl : Fl) (db : Db) (names : List Bytes) (buf : Bytes) : Option (Option Bytes) := do
  let count ← recCount db buf
  let fs ← pick db names
  let rows ← rowsFrom fl (present fs) db.size buf count 0
  some (Json.outputZip (.mk .array none none rows))

/-- The texts of `sis_sprintf(fname, 64, "%s%d", ...)` (src/core/sis_utils.c:398-400). -/
def numbered (name : Bytes) (k : Nat) : Bytes := (name ++ llutoa k 32).take 63

/-- The members `sis_sdb_fields_to_json_sds` makes for the `i`-th name (src/core/sis_utils.c:392-409); `none`: the name is not
a field. -/
def headMembers (i : Nat) : Option Field → Option (List Node)
  | none => none
  | some f =>
    if f.count > 1 then some ((List.range f.count).map fun k => .mk .int (some (numbered f.fname k)) (some (llutoa i 32)) [])
    else some [.mk .int (some f.fname) (some (llutoa i 32)) []]

/-- The members for all names (src/core/sis_utils.c:392-409). -/
def headFrom : Nat → List (Option Field) → Option (List Node)
  | _, [] => some []
  | i, f :: fs => do
    let a ← headMembers i f
    let b ← headFrom (i + 1) fs
    some (a ++ b)

/-- `sis_sdb_fields_to_json_sds` (src/core/sis_utils.c:383-433) with the names of the fields and the short layout. -/
def fieldsToJson (fl : Fl) (db : Db) (key : Bytes) (names : List Bytes) (buf : Bytes) : Option (Option Bytes) := do
  let count ← recCount db buf
  let fs ← pick db names
  let hs ← headFrom 0 fs
  let rows ← rowsFrom fl (present fs) db.size buf count 0
  some (Json.outputZip (.mk .object none none
    [.mk .object (some "fields".toUTF8.toList) none hs, .mk .array (some key) none rows]))

/-! ### Records out of texts -/

/-- `sis_json_find_node` (src/core/sis_json.c:1600-1618). -/
def find (n : Node) (key : Bytes) : Option Node := Json.findNode (key.length + 1) n key

/-- `sis_dynamic_field_json_to_struct` (src/core/sis_dynamic.h:477-535): what is written into the record for element `i` of a
field. -/
def cellWrites (fl : Fl) (f : Field) (i : Nat) (key : Bytes) (n : Node) : Option (List Dyn.W) :=
  match f.style with
  | .char =>
    match Json.getStr n key with
    | none => some []
    | some s =>
      let len := min f.len s.length
      some ((f.offset + i * f.len, s.take len) ::
        if len < f.len then [(f.offset + i * f.len + len, [0])] else [])
  | .tsec | .msec | .minu | .date | .uint | .int =>
    match find n key with
    | none => some []
    | some _ => some (Dyn.setNum f 0 (Json.getInt n key 0 % 2 ^ 64).toNat i)
  | .float | .price =>
    match (find n key) with
    | none => some []
    | some c => if f.len = 4 ∨ f.len = 8 then some [(f.offset + i * f.len, leBytes f.len (fl.ofText f (c.value.getD [])))] else none
  | .wsec => some []

/-- The elements of one field, from element `i` on, with the numbers `fidx`, `fidx + 1`, ... as keys
(src/core/sis_utils.c:482-488). -/
def fieldWrites (fl : Fl) (f : Field) (row : Node) : Nat → Nat → Nat → Option (List Dyn.W)
  | 0, _, _ => some []
  | todo + 1, i, fidx => do
    let a ← cellWrites fl f i (llutoa fidx 32) row
    let b ← fieldWrites fl f row todo (i + 1) (fidx + 1)
    some (a ++ b)

/-- One record of an array (src/core/sis_utils.c:478-489). -/
def rowWrites (fl : Fl) (row : Node) : List Field → Nat → Option (List Dyn.W)
  | [], _ => some []
  | f :: fs, fidx => do
    let a ← fieldWrites fl f row f.count 0 fidx
    let b ← rowWrites fl row fs (fidx + f.count)
    some (a ++ b)

/-- The loop of `sis_array_to_struct_sds` over the arrays (src/core/sis_utils.c:467-492): `index` counts the records
written. -/
def rowsInto (fl : Fl) (fs : List Field) (size : Nat) : List Node → Nat → Bytes → Option Bytes
  | [], _, out => some out
  | row :: rows, index, out =>
    if row.child.length ≠ fs.length then rowsInto fl fs size rows index out
    else do
      let ws ← rowWrites fl row fs 0
      let out ← puts out (index * size) ws
      rowsInto fl fs size rows (index + 1) out

/-- `sis_array_to_struct_sds` (src/core/sis_utils.c:436-494); `sis_sdsnewlen` of NULL clears the bytes
(src/core/sis_sds.c:73-77).  The inner `none` is NULL. -/
def arrayToStruct (fl : Fl) (db : Db) (text : Bytes) : Option (Option Bytes) := do
  match ← Json.load text with
  | none => some none
  | some n =>
    let rows := if Json.nested n.child then n.child else [n]
    let fs ← fieldsOf db
    if 2 ^ 31 ≤ rows.length * db.size then none
    else
      let out ← rowsInto fl fs db.size rows 0 (List.replicate (rows.length * db.size) 0)
      some (some out)

/-- The elements of one field of an object (src/core/sis_utils.c:519-531). -/
def namedWrites (fl : Fl) (f : Field) (n : Node) : Nat → Nat → Option (List Dyn.W)
  | 0, _ => some []
  | todo + 1, i => do
    let a ← cellWrites fl f i (if f.count > 1 then numbered f.fname i else f.fname) n
    let b ← namedWrites fl f n todo (i + 1)
    some (a ++ b)

/-- All fields of an object (src/core/sis_utils.c:516-532). -/
def objWrites (fl : Fl) (n : Node) : List Field → Option (List Dyn.W)
  | [] => some []
  | f :: fs => do
    let a ← namedWrites fl f n f.count 0
    let b ← objWrites fl n fs
    some (a ++ b)

/-- `sis_json_to_struct_sds` (src/core/sis_utils.c:496-535) without a record to start from, as `sisdb_io_set_chars` calls it
(workers/sisdb/sisdb_io.c:218-221). -/
def jsonToStruct (fl : Fl) (db : Db) (text : Bytes) : Option (Option Bytes) := do
  match ← Json.load text with
  | none => some none
  | some n =>
    let fs ← fieldsOf db
    let ws ← objWrites fl n fs
    let out ← puts (List.replicate db.size 0) 0 ws
    some (some out)

/-- The part of `sisdb_io_set_chars` that makes records of a text (workers/sisdb/sisdb_io.c:209-230); the inner `none` is an
error. -/
def setChars (fl : Fl) (db : Db) (text : Bytes) : Option (Option Bytes) :=
  match text with
  | 123 :: _ => jsonToStruct fl db text
  | 91 :: _ => arrayToStruct fl db text
  | _ => some none

/-! ### Selected fields in binary -/

/-- `sis_dynamic_db_get_field` with an index (src/core/sis_dynamic.c:267-283): a field and which element of it.  A name that
is not a field is cut at its first point by `sis_str_divide` (src/core/sis_str.c:177-208) into two buffers of 128 bytes. -/
def getField (db : Db) (name : Bytes) : Option (Option (Field × Int)) :=
  match Dyn.getN db.fields name with
  | some a => (Dyn.unit db a).map fun f => some (f, 0)
  | none =>
    if 128 ≤ (name.takeWhile (· != 46)).length ∨ 128 ≤ ((name.dropWhile (· != 46)).drop 1).length then none
    else
      match name.dropWhile (· != 46) with
      | [] => some none
      | _ :: r =>
        match Dyn.getN db.fields (name.takeWhile (· != 46)) with
        | none => some none
        | some a => (Dyn.unit db a).map fun f => some (f, Sdb.int32 (atoll r))

/-- The bytes copied for one element (src/core/sis_utils.c:291-301). -/
def pickBytes (buf : Bytes) (base : Nat) (f : Field) (index : Int) : Option Bytes :=
  let at_ : Int := base + f.offset + index * f.len
  if index * f.len ≥ 2 ^ 31 ∨ index * f.len < -2 ^ 31 ∨ at_ < 0 then none else elem buf at_.toNat f.len

/-- The bytes of one record (src/core/sis_utils.c:286-302). -/
def selectRow (buf : Bytes) (base : Nat) : List (Option (Field × Int)) → Option Bytes
  | [] => some []
  | none :: fs => selectRow buf base fs
  | some (f, i) :: fs => do
    let a ← pickBytes buf base f i
    let b ← selectRow buf base fs
    some (a ++ b)

/-- The bytes of the records from `r` on (src/core/sis_utils.c:284-304). -/
def selectRows (fs : List (Option (Field × Int))) (size : Nat) (buf : Bytes) : Nat → Nat → Option Bytes
  | 0, _ => some []
  | todo + 1, r => do
    let a ← selectRow buf (r * size) fs
    let b ← selectRows fs size buf todo (r + 1)
    some (a ++ b)

/-- `sisdb_sdb_struct_to_sds` (src/core/sis_utils.c:277-306), the answer of `sisdb_io_get_sds` to a query with a list of
fields (workers/sisdb/sisdb_io.c:97-124).  NULL, when nothing was copied, is the empty list. -/
def selectBin (db : Db) (names : List Bytes) (buf : Bytes) : Option Bytes := do
  let count ← recCount db buf
  if count = 0 then some []
  else
    let fs ← every (names.map (getField db))
    selectRows fs db.size buf count 0

end Sis.Rec
