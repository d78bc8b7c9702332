import Verif.Rec.Rec
import Verif.Memory.Queue
/-
Model of CSV texts: how they are made of records (src/core/sis_csv.c:192-251, src/core/sis_dynamic.h:396-435,
src/core/sis_utils.c:172-192 and 308-357, src/core/sis_db.c:146-186), and how files of them are read, as a whole
(src/core/sis_csv.c:5-168) and line by line (src/core/sis_csv.c:254-354).

The outcome `none` is undefined behaviour.  What `printf` makes of a floating point number is a parameter; that of the C library
for the smallest 64-bit number is not called.
-/
namespace Sis.Csv
open Sis
open Sis.Dyn (Db Field St elem)
open Sis.Rec (Fl)

/-! ### Making lines -/

/-- The loop that makes the digits of a number, last one first (`sis_sdsull2str`, src/core/sis_sds.c:549-578). -/
def digits (v : Nat) : Bytes := UInt8.ofNat (48 + v % 10) :: (if v < 10 then [] else digits (v / 10))
termination_by v
decreasing_by omega

/-- `sis_sdsull2str` (src/core/sis_sds.c:549-578). -/
def ull2str (v : Nat) : Bytes := (digits v).reverse

/-- `sis_sdsll2str` (src/core/sis_sds.c:513-546); the smallest number has no negative. -/
def ll2str (v : Int) : Option Bytes :=
  if v = -2 ^ 63 then none else some ((digits v.natAbs ++ if v < 0 then [45] else []).reverse)

/-- Whether a comma comes first (src/core/sis_csv.c:200, 213, 225, 238). -/
def sep (o : Bytes) : Bytes := if 0 < o.length ∧ o.getLast? ≠ some 10 then [44] else []

/-- `sis_csv_make_str` (src/core/sis_csv.c:192-209): `len` bytes, or up to the first zero if the last byte is one.  With no
bytes the one before the text is read. -/
def makeStr (o str : Bytes) (len : Nat) : Option Bytes :=
  if len = 0 then none
  else
    match str[len - 1]? with
    | none => none
    | some c => some (o ++ sep o ++ if c = 0 then Json.cstrOf str else str.take len)

/-- `sis_csv_make_int` (src/core/sis_csv.c:210-221) with `sis_sdscatfmt` (src/core/sis_sds.c:682-778). -/
def makeInt (o : Bytes) (v : Int) : Option Bytes := (ll2str v).map fun t => o ++ sep o ++ t

/-- `sis_csv_make_uint` (src/core/sis_csv.c:222-233) with `sis_sdscatfmt` (src/core/sis_sds.c:682-778). -/
def makeUint (o : Bytes) (v : Nat) : Bytes := o ++ sep o ++ ull2str v

/-- `sis_csv_make_double` (src/core/sis_csv.c:234-247): comma and number are put into 16 bytes, the last of them a zero;
`t` is the text of the number. -/
def makeDouble (o t : Bytes) : Bytes := o ++ (sep o ++ t).take 15

/-- `sis_csv_make_end` (src/core/sis_csv.c:248-251). -/
def makeEnd (o : Bytes) : Bytes := o ++ [13, 10]

/-- One element of a record: the body of the loop of `sis_dynamic_field_to_csv` (src/core/sis_dynamic.h:400-431). -/
def cell (fl : Fl) (f : Field) (buf : Bytes) (base i : Nat) (o : Bytes) : Option Bytes :=
  match f.style with
  | .int => (Dyn.getInt f buf base i).bind (makeInt o)
  | .tsec | .msec | .minu | .date | .uint => (Dyn.getUint f buf base i).map (makeUint o)
  | .float | .price => (elem buf (base + f.offset + i * f.len) f.len).map fun e => makeDouble o (fl.toText f e)
  | .char => (elem buf (base + f.offset + i * f.len) f.len).bind fun e => makeStr o e f.len
  | .wsec => makeStr o [32] 1

/-- `sis_dynamic_field_to_csv` (src/core/sis_dynamic.h:396-435) from element `i` on. -/
def cells (fl : Fl) (f : Field) (buf : Bytes) (base : Nat) : Nat → Nat → Bytes → Option Bytes
  | 0, _, o => some o
  | todo + 1, i, o => (cell fl f buf base i o).bind (cells fl f buf base todo (i + 1))

/-- The calls for the fields of one record; a null pointer is left out (src/core/sis_dynamic.h:398, src/core/sis_db.c:177-181,
src/core/sis_utils.c:182-186, 344-352). -/
def line (fl : Fl) (buf : Bytes) (base : Nat) : List (Option Field) → Bytes → Option Bytes
  | [], o => some o
  | none :: fs, o => line fl buf base fs o
  | some f :: fs, o => (cells fl f buf base f.count 0 o).bind (line fl buf base fs)

/-- The lines of the records from `r` on (src/core/sis_db.c:175-184, src/core/sis_utils.c:180-190, 342-355). -/
def lines (fl : Fl) (fs : List (Option Field)) (size : Nat) (buf : Bytes) : Nat → Nat → Bytes → Option Bytes
  | 0, _, o => some o
  | todo + 1, r, o => (line fl buf (r * size) fs o).bind fun o => lines fl fs size buf todo (r + 1) (makeEnd o)

/-- The names of the elements of a field (src/core/sis_db.c:155-167, src/core/sis_utils.c:322-334). -/
def nameCells (f : Field) : List Bytes :=
  if f.count > 1 then (List.range f.count).map (Rec.numbered f.fname) else [f.fname]

/-- `sis_csv_make_str` for a list of names, each of them a C string (src/core/sis_db.c:161, 166). -/
def names : List Bytes → Bytes → Option Bytes
  | [], o => some o
  | n :: ns, o => (makeStr o (n ++ [0]) n.length).bind (names ns)

/-- The line of names (src/core/sis_db.c:150-170, src/core/sis_utils.c:317-337): a null pointer for a name that is not a
field is used. -/
def head : List (Option Field) → Bytes → Option Bytes
  | [], o => some (makeEnd o)
  | none :: _, _ => none
  | some f :: fs, o => (names (nameCells f) o).bind (head fs)

/-- `sis_sdb_to_csv_sds` (src/core/sis_utils.c:172-192): all fields, without their names. -/
def toCsv (fl : Fl) (db : Db) (buf : Bytes) : Option Bytes := do
  let count ← Rec.recCount db buf
  let fs ← Rec.fieldsOf db
  lines fl (fs.map some) db.size buf count 0 []

/-- `sis_db_struct_to_csv_sds` (src/core/sis_db.c:146-186) with the names of the fields. -/
def structToCsv (fl : Fl) (db : Db) (buf : Bytes) : Option Bytes := do
  let fs ← Rec.fieldsOf db
  let o ← head (fs.map some) []
  let count ← Rec.recCount db buf
  lines fl (fs.map some) db.size buf count 0 o

/-- `sis_sdb_fields_to_csv_sds` (src/core/sis_utils.c:308-357) with the names of the fields. -/
def fieldsToCsv (fl : Fl) (db : Db) (ns : List Bytes) (buf : Bytes) : Option Bytes := do
  let fs ← Rec.pick db ns
  let o ← head fs []
  let count ← Rec.recCount db buf
  lines fl fs db.size buf count 0 o

/-! ### Reading files -/

/-- The loop of `sis_memory_get_line_sign` (src/core/sis_memory.c:482-497) at byte `len` of the bytes that are left, `todo` of
them behind it. -/
def signFrom (buf : Bytes) (off : Nat) : Nat → Nat → Option Nat
  | todo, len =>
    match buf[off + len]? with
    | none => none
    | some c =>
      if c = 10 then some (len + 1)
      else
        match todo with
        | 0 => some 0
        | todo + 1 => signFrom buf off todo (len + 1)

/-- `sis_memory_get_line_sign` (src/core/sis_memory.c:475-503): the length of the first line with its end, 0 if there is
none. -/
def lineSign (m : Mem) : Option Nat :=
  if m.offset = m.size then some 0 else signFrom m.buf m.offset (m.size - 1 - m.offset) 0

/-- The lines that are taken out of a buffer (the inner loops of src/core/sis_csv.c:23-52 and 282-339).  Each takes at least
one byte, so that the steps given are enough. -/
def takeLines : Nat → Mem → Option (List Bytes × Mem)
  | 0, _ => none
  | k + 1, m => do
    let n ← lineSign m
    if n = 0 then some ([], m)
    else
      let l ← Mem.load m.buf m.offset n
      let (ls, m) ← takeLines k (m.move n)
      some (l :: ls, m)

/-- The outer loops (src/core/sis_csv.c:14-53, 276-340): what `sis_file_read` returns, one after the other, goes through the
buffer until it returns nothing; all lines.  What is left in the buffer at the end is dropped. -/
def readLines (junk : UInt8) : List Bytes → Mem → Option (List Bytes)
  | [], _ => some []
  | bs :: rest, m =>
    if bs = [] then some []
    else do
      let m ← m.read junk bs
      let (ls, m) ← takeLines (m.getSize + 1) m
      let more ← readLines junk rest m
      some (ls ++ more)

/-- The pieces of a line between separators; what is behind the last one only if there is something (the loop of
`sis_string_list_load`, src/core/sis_list.c:2171-2214). -/
def pieces (sign : UInt8) : Bytes → Bytes → List Bytes
  | acc, [] => if acc = [] then [] else [acc.reverse]
  | acc, c :: s => if c = sign then acc.reverse :: pieces sign [] s else pieces sign (c :: acc) s

/-- `sis_string_list_load` with one byte as separator (src/core/sis_list.c:2153-2220): the pieces are copied as C strings and
trimmed. -/
def loadList (sign : UInt8) (l : Bytes) : List Bytes := (pieces sign [] l).map fun p => Sdb.trim (Json.cstrOf p)

/-- `s_sis_file_csv` (src/core/sis_csv.h:20-26): the columns of the names, and all lines. -/
structure File where
  head : List (Bytes × Nat)
  list : List (List Bytes)
deriving DecidableEq, Repr

/-- One line (src/core/sis_csv.c:27-46). -/
def addLine (sign : UInt8) (o : File) (l : Bytes) : File :=
  let str := loadList sign l
  if 0 < str.length then
    ⟨if o.head.length = 0 then str.zipIdx.foldl (fun h e => (Dyn.setN h e.1 e.2).1) o.head else o.head, o.list ++ [str]⟩
  else o

/-- `sis_file_csv_open` with `_sis_file_csv_parse` (src/core/sis_csv.c:5-82) for a file that can be opened. -/
def openCsv (junk c : UInt8) (reads : List Bytes) : Option File :=
  (readLines junk reads (Mem.create junk)).map fun ls => ls.foldl (addLine (if c = 0 then 44 else c)) ⟨[], []⟩

/-- `sis_file_csv_getsize` (src/core/sis_csv.c:94-101). -/
def size (o : File) : Int := (o.list.length : Int) - 1

/-- `sis_pointer_list_get` (src/core/sis_list.c:1697-1706). -/
def at? {α : Type} (l : List α) (i : Int) : Option α := if 0 ≤ i then l[i.toNat]? else none

/-- `sis_file_csv_fget_str` (src/core/sis_csv.c:120-128); the inner `none` is NULL. -/
def fgetStr (o : File) (idx field : Int) : Option (Option Bytes) :=
  if idx = 2 ^ 31 - 1 then none
  else
    match at? o.list (idx + 1) with
    | none => some none
    | some r => some (at? r field)

/-- `sis_file_csv_get_str` (src/core/sis_csv.c:150-159). -/
def getStr (o : File) (idx : Int) (name : Bytes) : Option (Option Bytes) :=
  fgetStr o idx (match Dyn.getN o.head name with
    | none => -1
    | some i => i)

/-- `sis_file_csv_fget_int` (src/core/sis_csv.c:102-110). -/
def fgetInt (o : File) (idx field dflt : Int) : Option Int :=
  (fgetStr o idx field).map fun s => (s.map Num.atoll).getD dflt

/-- `sis_file_csv_get_int` (src/core/sis_csv.c:129-138). -/
def getInt (o : File) (idx : Int) (name : Bytes) (dflt : Int) : Option Int :=
  (getStr o idx name).map fun s => (s.map Num.atoll).getD dflt

/-- `sis_file_csv_get_head` (src/core/sis_csv.c:160-168). -/
def getHead (o : File) (i : Int) : Option Bytes := (at? o.list 0).bind fun r => at? r i

/-! ### Reading line by line -/

/-- `sis_str_substr_nums` (src/core/sis_str.c:412-432). -/
def nums (s : Bytes) (c : UInt8) : Nat := s.count c + if s ≠ [] ∧ s.getLast? ≠ some c then 1 else 0

/-- The loop that finds the columns of a line (src/core/sis_csv.c:305-331): `left` columns are still to come, the one that
was begun has `acc`. -/
def cut (sign : UInt8) : Nat → Bytes → Bytes → List Bytes
  | 0, _, _ => []
  | left + 1, acc, [] => (if left = 0 then acc else []) :: List.replicate left []
  | left + 1, acc, c :: s => if c = sign then acc :: cut sign left [] s else cut sign (left + 1) (acc ++ [c]) s

/-- `sis_file_csv_read_sub` (src/core/sis_csv.c:254-354) for a file that can be opened: the columns of each line, in the order
of the calls to the subscriber. -/
def readSub (junk c : UInt8) (reads : List Bytes) : Option (List (List Bytes)) :=
  let sign := if c = 0 then 44 else c
  (readLines junk reads (Mem.create junk)).map fun ls => ls.map fun l => cut sign (nums l sign) [] l

/-- `SIS_CSV_GET_INT` (src/core/sis_csv.h:59-62): the column and a zero are put into 64 bytes. -/
def colInt (c : Bytes) : Option Int := if 64 ≤ c.length then none else some (Num.atoll (Sdb.trim (Json.cstrOf c)))

/-- `SIS_CSV_GET_STRING` (src/core/sis_csv.h:69-72) for a buffer of `n` bytes. -/
def colStr (c : Bytes) (n : Nat) : Option Bytes := if n = 0 then none else some (Json.cstrOf (c.take (n - 1)))

end Sis.Csv
