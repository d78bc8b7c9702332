import Verif.Csv.Csv
import Verif.Fmap.Store
/-
Model of the commands of a database in memory: `create`, `set`, `bset`, `get` and `del` (workers/sisdb/sisdb.c:187-336), with the
functions of workers/sisdb/sisdb_io.c and the tables and series of workers/sisdb/sisdb_fmap.c they work on.

Simplifications: there are no files, so that `sisdb_fmap_cxt_read_data` loads nothing (workers/sisdb/sisdb_fmap_read.c:220-223).  A
database, with or without files, gives the same answers by C58.  The period of a time, which only matters for saving, is a
parameter, and so are floating point numbers and the interpolation of `sisdb_fmap_unit_goto`.  A series has fewer than 2^32 bytes.
Subscribers are in `Verif/Server`.  The outcome `none` is undefined behaviour: the server crashes, or worse.
-/
namespace Sis.Io
open Sis
open Sis.Json (Node)
open Sis.Dyn (Db Field Def)
open Sis.Fmap (Goto Query)
open Sis.Rec (Fl)

/-- What is not modelled: floating point numbers (src/core/sis_dynamic.h:453-530), the guess of a position
(workers/sisdb/sisdb_fmap_ctrl.c:183-209) and the period of a time (workers/sisdb/sisdb_fmap_ctrl.c:150-160). -/
structure Env where
  fl : Fl
  goto : Goto
  sign : Db → Nat → Int

/-- A table: its fields (`s_sis_dynamic_db`, src/core/sis_dynamic.h:110-122), and `field_solely`, the addresses of its unique
fields. -/
structure Tbl where
  db : Db
  only : List Nat

/-- A series: `s_sisdb_fmap_unit` (workers/sisdb/sisdb_fmap.h:50-71) with its table and its records. -/
structure Ser where
  tbl : Tbl
  unit : Fmap.Unit Bytes

/-- `s_sisdb_fmap_cxt` (workers/sisdb/sisdb_fmap.h:74-87): tables by name and series by key.  Both are maps whose names are the
same in upper and lower case (C41, C63). -/
structure Cxt where
  tabs : List (Bytes × Tbl)
  sers : List (Bytes × Ser)

/-- `sisdb_fmap_cxt_create` (workers/sisdb/sisdb_fmap.c:50-63) without a file. -/
def Cxt.empty : Cxt := ⟨[], []⟩

/-! ### Tables -/

/-- `sis_json_cmp_child_node` (src/core/sis_json.c:1587-1599). -/
def child (n : Node) (k : String) : Option Node := (Json.cmpChild n.child k.toUTF8.toList).bind (n.child[·]?)

/-- Whether `sis_dynamic_db_create` makes a field of a definition (src/core/sis_dynamic.c:131-165). -/
def counted (d : Def) : Bool :=
  d.name.isSome && d.style.isSome && decide (¬ (d.len > 0xFFFF ∨ d.len < 1)) && decide (¬ (d.count > 0xFFFF ∨ d.count < 1))

/-- `field_solely` of the definitions (src/core/sis_dynamic.c:196-199): the addresses of the fields marked as unique. -/
def onlyOf (ds : List Def) : List Nat := ((ds.filter counted).zipIdx.filter fun e => e.1.solely).map (·.2)

/-- `sis_dynamic_db_create` (src/core/sis_dynamic.c:114-219) of a document; the inner `none` is NULL. -/
def tblOf (n : Node) : Option (Option Tbl) :=
  match child n "fields" with
  | none => some none
  | some fs => (Dyn.create (fs.child.map Sdb.defOf)).map fun db => db.map fun db => ⟨db, onlyOf (fs.child.map Sdb.defOf)⟩

/-- An answer: nothing (`SIS_METHOD_NULL`), a text, bytes, a number, `ok`, or an error (workers/sisdb/sisdb.c:187-336). -/
inductive Reply
  | null
  | chars (b : Bytes)
  | bytes (b : Bytes)
  | int (n : Int)
  | ok
  | error
deriving DecidableEq, Repr

/-- `cmd_sisdb_create` (workers/sisdb/sisdb.c:187-214) with `sisdb_io_create` (workers/sisdb/sisdb_io.c:8-21) and
`sisdb_fmap_cxt_setdb` (workers/sisdb/sisdb_fmap.c:215-226). -/
def create (c : Cxt) (name : Bytes) (info : Option Bytes) : Option (Cxt × Reply) := do
  match ← (match info with | none => some none | some s => Json.load s) with
  | none => some (c, .error)
  | some n =>
    match ← tblOf n with
    | none => some (c, .error)
    | some t =>
      match Dyn.getN c.tabs name with
      | some old => if Sdb.sameDb old.db t.db then some (c, .error) else some ({ c with tabs := (Dyn.setN c.tabs name t).1 }, .ok)
      | none => some ({ c with tabs := (Dyn.setN c.tabs name t).1 }, .ok)

/-! ### Series -/

/-- The name of the table in a key: what is behind its first point (`sis_str_divide_sds`, src/core/sis_str.c:209-236); NULL if there
is nothing. -/
def tableName (key : Bytes) : Option Bytes :=
  match key.dropWhile (· ≠ 46) with
  | [] => none
  | [_] => none
  | _ :: r => some r

/-- `sisdb_fmap_cxt_new` (workers/sisdb/sisdb_fmap.c:156-205) for a series, with `sisdb_fmap_unit_create`
(workers/sisdb/sisdb_fmap_ctrl.c:12-58); `none`: NULL. -/
def newSer (c : Cxt) (key : Bytes) : Option (Cxt × Ser) :=
  ((tableName key).bind (Dyn.getN c.tabs)).map fun t =>
    ({ c with sers := (Dyn.setN c.sers key ⟨t, ⟨[], [], 0, 0, 0⟩⟩).1 }, ⟨t, ⟨[], [], 0, 0, 0⟩⟩)

/-- Whether the records of a table have an index: `ktype` is `SIS_SDB_STYLE_SDB`, otherwise `SIS_SDB_STYLE_NON`
(workers/sisdb/sisdb_fmap_ctrl.c:44-49). -/
def indexed (t : Tbl) : Bool := t.db.mindex.isSome

/-- The bytes of the unique fields of a record, of each its first element (workers/sisdb/sisdb_fmap_write.c:234-242, 283-292). -/
def uniq (t : Tbl) (r : Bytes) : List Nat :=
  t.only.flatMap fun a => match Dyn.unit t.db a with
    | some f => ((r.drop f.offset).take f.len).map (·.toNat)
    | none => []

/-- What the code reads of the records of a table (workers/sisdb/sisdb_fmap_ctrl.c:144-160).  Records whose index cannot be read are
never stored (`put`). -/
def table (e : Env) (t : Tbl) : Fmap.Table Bytes := ⟨fun r => (Dyn.getMindex t.db 0 r).getD 0, uniq t, e.sign t.db⟩

/-- The records of a buffer (workers/sisdb/sisdb_fmap_write.c:307-397). -/
def split (size : Nat) (b : Bytes) : List Bytes := (List.range (b.length / size)).map fun i => (b.drop (i * size)).take size

/-- The part of `sisdb_fmap_cxt_update` behind the search for the series (workers/sisdb/sisdb_fmap.c:417-514): the new series, `none`
inside if the bytes are not a number of records.  Undefined: reading the index or a unique field through a field that was freed. -/
def put (e : Env) (s : Ser) (b : Bytes) : Option (Option Ser) :=
  if s.tbl.db.size = 0 then none
  else if b.length % s.tbl.db.size ≠ 0 then some none
  else
    let batch := split s.tbl.db.size b
    if (batch.any fun r => (Dyn.getMindex s.tbl.db 0 r).isNone) ∨ (s.tbl.only.any fun a => (Dyn.unit s.tbl.db a).isNone) then none
    else if indexed s.tbl then
      some (some { s with unit := Fmap.sdbUpdate (table e s.tbl) (!s.tbl.only.isEmpty) e.goto s.unit batch })
    else
      some (some { s with unit := { s.unit with recs := Fmap.nonUpdate (table e s.tbl) (!s.tbl.only.isEmpty) s.unit.recs batch } })

/-- `sisdb_fmap_cxt_update` (workers/sisdb/sisdb_fmap.c:397-515), called by `sisdb_io_update` (workers/sisdb/sisdb_io.c:195-204).  For a
series that is there the index of the last record is read: with no record at all that is a place 4 GB away. -/
def update (e : Env) (c : Cxt) (key b : Bytes) : Option (Cxt × Int) :=
  match Dyn.getN c.sers key with
  | some s =>
    if indexed s.tbl ∧ b.length = 0 then none
    else (put e s b).map fun
      | none => (c, 0)
      | some s => ({ c with sers := (Dyn.setN c.sers key s).1 }, 1)
  | none =>
    match newSer c key with
    | none => some (c, 0)
    | some (c, s) => (put e s b).map fun
      | none => (c, 0)
      | some s => ({ c with sers := (Dyn.setN c.sers key s).1 }, 1)

/-- `sisdb_fmap_cxt_getdb_of_key` (workers/sisdb/sisdb_fmap.c:231-239): a key of a table that is not there is undefined behaviour. -/
def dbOfKey (c : Cxt) (key : Bytes) : Option (Cxt × Tbl) :=
  match Dyn.getN c.sers key with
  | some s => some (c, s.tbl)
  | none => (newSer c key).map fun (c, s) => (c, s.tbl)

/-- `sisdb_io_set_chars` (workers/sisdb/sisdb_io.c:209-237). -/
def setChars (e : Env) (c : Cxt) (key : Bytes) (info : Option Bytes) : Option (Cxt × Int) :=
  match info with
  | some (ch :: text) =>
    if ch ≠ 123 ∧ ch ≠ 91 then some (c, -1)
    else do
      let (c, t) ← dbOfKey c key
      match ← Rec.setChars e.fl t.db (ch :: text) with
      | none => some (c, -3)
      | some b => update e c key b
  | _ => some (c, -1)

/-- `cmd_sisdb_set` (workers/sisdb/sisdb.c:260-284), without the subscribers. -/
def set (e : Env) (c : Cxt) (key : Bytes) (info : Option Bytes) : Option (Cxt × Reply) :=
  if key.contains 46 then (setChars e c key info).map fun (c, o) => (c, .int o) else some (c, .int 0)

/-- `cmd_sisdb_bset` (workers/sisdb/sisdb.c:286-310), without the subscribers: `sis_sdslen` of NULL is undefined. -/
def bset (e : Env) (c : Cxt) (key : Bytes) (info : Option Bytes) : Option (Cxt × Reply) :=
  if key.contains 46 then info.bind fun b => (update e c key b).map fun (c, o) => (c, .int o) else some (c, .int 0)

/-! ### Queries -/

/-- `int8` of a number (`ifprev`, workers/sisdb/sisdb_fmap.h:160): whether it is not zero. -/
def flag8 (v : Int) : Bool := v % 256 ≠ 0

/-- `sis_json_get_int` of a member (src/core/sis_json.c:1477-1485). -/
def intOf (n : Node) (k : String) (dflt : Int) : Int := Json.getInt n k.toUTF8.toList dflt

/-- `_init_cmd_from_get` (workers/sisdb/sisdb_io.c:23-77): the condition, and `start`, which is all that counts for a series without
index. -/
def askOf : Option Node → Query × Int
  | none => (.range (-1) 0 false, -1)
  | some n =>
    match child n "range" with
    | some r =>
      match child r "start" with
      | none => (.range (-1) 0 false, -1)
      | some _ => (.range (intOf r "start" 0) (intOf r "stop" 0) (flag8 (intOf r "ifprev" 0)), intOf r "start" 0)
    | none =>
      match child n "where" with
      | none => (.range (-1) 0 false, -1)
      | some w =>
        let start := match child w "start" with
          | none => -1
          | some _ => intOf w "start" 0
        (.whereTs (start % 2 ^ 64).toNat (Sdb.int32 (match child w "offset" with
          | none => 0
          | some _ => intOf w "offset" 0)), start)

/-- The formats of `sis_db_get_format_from_node` (src/core/sis_db.c:30-70); those of bytes are handled alike
(workers/sisdb/sisdb.c:234-241). -/
inductive Fmt
  | bytes
  | json
  | array
  | csv
  | string
deriving DecidableEq, Repr

/-- The format for a first letter (src/core/sis_db.c:36-68). -/
def fmtCh (ch : UInt8) : Fmt :=
  match lower ch with
  | 122 | 115 | 98 => .bytes
  | 106 => .json
  | 97 => .array
  | 99 => .csv
  | _ => .string

/-- `sis_db_get_format_from_node` with the default of `cmd_sisdb_get` (src/core/sis_db.c:30-70, workers/sisdb/sisdb.c:233). -/
def fmtOf (n : Option Node) : Fmt :=
  match (n.bind (child · "format")).bind Node.value with
  | some (ch :: _) => fmtCh ch
  | _ => .array

/-- `_read_fields` (workers/sisdb/sisdb_io.c:79-93): the names of the fields that are asked for; `none`: all. -/
def fieldsOf (n : Option Node) : Option (List Bytes) :=
  match n.bind (child · "fields") with
  | none => none
  | some f =>
    match f.value.getD [] with
    | 42 :: _ => none
    | v => some (Csv.loadList 44 v)

/-- `sisdb_fmap_cxt_read` for a series (workers/sisdb/sisdb_fmap.c:305-395): the count and the records. -/
def read (e : Env) (s : Ser) (a : Query × Int) : Int × List Bytes :=
  if indexed s.tbl then Fmap.tsdbRead (table e s.tbl) e.goto s.unit a.1
  else
    let l := Fmap.nonRead s.unit.recs a.2 1
    (l.length, l)

/-- A text or NULL as an answer (workers/sisdb/sisdb.c:243-256). -/
def charsOf : Option Bytes → Reply
  | none => .null
  | some b => .chars b

/-- The answer made of the records: `sisdb_io_get_sds` (workers/sisdb/sisdb_io.c:97-124) and `sisdb_io_get_chars_sds`
(workers/sisdb/sisdb_io.c:126-179). -/
def render (e : Env) (db : Db) (key : Bytes) (fmt : Fmt) (fields : Option (List Bytes)) (buf : Bytes) : Option Reply :=
  match fmt, fields with
  | .bytes, none => some (.bytes buf)
  | .bytes, some ns => (Rec.selectBin db ns buf).map fun b => if b = [] then .null else .bytes b
  | .json, none => (Rec.toArray e.fl db (some key) buf).map charsOf
  | .array, none => (Rec.toArray e.fl db (some key) buf).map charsOf
  | .csv, none => (Csv.toCsv e.fl db buf).map .chars
  | .json, some ns => (Rec.fieldsToJson e.fl db key ns buf).map charsOf
  | .array, some ns => (Rec.fieldsToArray e.fl db ns buf).map charsOf
  | .csv, some ns => (Csv.fieldsToCsv e.fl db ns buf).map .chars
  | .string, _ => some .null

/-- `cmd_sisdb_get` (workers/sisdb/sisdb.c:217-259). -/
def get (e : Env) (c : Cxt) (key : Bytes) (info : Option Bytes) : Option Reply := do
  let n ← (match info with | none => some none | some s => Json.load s)
  match Dyn.getN c.sers key with
  | none => some .null
  | some s =>
    let (count, recs) := read e s (askOf n)
    if count < 0 then some .null else render e s.tbl.db key (fmtOf n) (fieldsOf n) recs.flatten

/-! ### Deletes -/

/-- The condition of `sisdb_io_del` (workers/sisdb/sisdb_io.c:248-285); `none`: nothing is deleted. -/
def delOf (n : Node) : Option (Query × Int) :=
  match child n "range" with
  | some r =>
    match child r "start" with
    | none => none
    | some _ => some (.range (intOf r "start" 0) (intOf r "stop" (intOf r "start" 0)) false, intOf r "start" 0)
  | none =>
    match child n "where" with
    | none => some (.whereTs 0 0, 0)
    | some w =>
      match child w "start" with
      | none => none
      | some _ => some (.whereTs (intOf w "start" 0 % 2 ^ 64).toNat 0, intOf w "start" 0)

/-- `sisdb_io_del` (workers/sisdb/sisdb_io.c:247-290) with `sisdb_fmap_cxt_del` (workers/sisdb/sisdb_fmap.c:518-585): `count` is 0 for
a series without index. -/
def delSer (e : Env) (c : Cxt) (key : Bytes) (n : Node) : Cxt × Int :=
  match delOf n with
  | none => (c, 0)
  | some a =>
    match Dyn.getN c.sers key with
    | none => (c, 0)
    | some s =>
      if indexed s.tbl then
        let r := Fmap.tsdbDel (table e s.tbl) e.goto s.unit a.1
        ({ c with sers := (Dyn.setN c.sers key { s with unit := r.2 }).1 }, r.1)
      else
        let l := Fmap.nonDel s.unit.recs a.2 0
        ({ c with sers := (Dyn.setN c.sers key { s with unit := { s.unit with recs := l } }).1 }, s.unit.recs.length - l.length)

/-- `cmd_sisdb_del` (workers/sisdb/sisdb.c:311-336): `sis_sdslen` of NULL is undefined. -/
def del (e : Env) (c : Cxt) (key : Bytes) (info : Option Bytes) : Option (Cxt × Reply) := do
  match ← Json.load (← info) with
  | none => some (c, .error)
  | some n => if key.contains 46 then some ((delSer e c key n).1, .int (delSer e c key n).2) else some (c, .int 0)

/-! ### Commands -/

/-- A command with its subject and its information (workers/sisdb/sisdb.c:187-336). -/
inductive Cmd
  | create (name : Bytes) (info : Option Bytes)
  | set (key : Bytes) (info : Option Bytes)
  | bset (key : Bytes) (info : Option Bytes)
  | get (key : Bytes) (info : Option Bytes)
  | del (key : Bytes) (info : Option Bytes)

/-- One command (workers/sisdb/sisdb.c:187-336). -/
def step (e : Env) (c : Cxt) : Cmd → Option (Cxt × Reply)
  | .create name info => create c name info
  | .set key info => set e c key info
  | .bset key info => bset e c key info
  | .get key info => (get e c key info).map fun r => (c, r)
  | .del key info => del e c key info

/-- Commands one after the other, and their answers (workers/sisdb/sisdb.c:187-336). -/
def run (e : Env) (c : Cxt) : List Cmd → Option (Cxt × List Reply)
  | [] => some (c, [])
  | m :: ms => do
    let (c, r) ← step e c m
    let (c, rs) ← run e c ms
    some (c, r :: rs)

end Sis.Io
