import Verif.Strs.Json
import Verif.Sdb.Block
/-
Model of the text in which a database keeps its tables: `sis_sdbinfo_to_json` (src/core/sis_utils.c:67-118) and
`sis_disk_ctrl_write_sdict` (src/core/disk/sis_disk.io.c:411-443) make it, `sis_disk_reader_set_sdict`
(src/core/disk/sis_disk_ctrl.c:333-367) and `sis_dynamic_db_create` (src/core/sis_dynamic.c:114-219) read it.

A name is a C string.  The outcome `none` is undefined behaviour: a field that was freed, a table without a name in the
text, the overflow of the `int` with the size of a record.
-/
namespace Sis.Sdb
open Sis Sis.Num
open Sis.Json (Node Ty)
open Sis.Dyn (Db Field St Def)

/-- The letter of a type (src/core/sis_dynamic.h:77-91). -/
def styleCh : St → UInt8
  | .int => 73
  | .uint => 85
  | .char => 67
  | .float => 70
  | .price => 80
  | .wsec => 87
  | .msec => 84
  | .tsec => 83
  | .minu => 77
  | .date => 68

/-- The words and letters of the types in the order `_sis_dynamic_get_style` tries them (src/core/sis_dynamic.c:12-54). -/
def styleWords : List (String × String × St) :=
  [("int", "I", .int), ("wsec", "W", .wsec), ("msec", "T", .msec), ("second", "S", .tsec), ("minute", "M", .minu),
   ("date", "D", .date), ("uint", "U", .uint), ("float", "F", .float), ("char", "C", .char), ("price", "P", .price)]

/-- `_sis_dynamic_get_style` (src/core/sis_dynamic.c:12-54). -/
def styleOf : Option Bytes → Option St
  | none => none
  | some s => (styleWords.find? fun w => caseEq s w.1.toUTF8.toList || caseEq s w.2.1.toUTF8.toList).map (·.2.2)

/-- A number as an element of an array: `sis_json_array_add_uint` (src/core/sis_json.c:911-916). -/
def numNode (i v : Nat) : Node := .mk .int (some (llutoa i 32)) (some (llutoa v 32)) []

/-- A text as an element of an array: `sis_json_array_add_string` (src/core/sis_json.c:935-940). -/
def strNode (i : Nat) (v : Bytes) : Node := .mk .string (some (llutoa i 32)) (some v) []

/-- The flags of a field (src/core/sis_utils.c:88-96). -/
def flagsOf (f : Field) : Bytes := (if f.mindex then [73] else []) ++ (if f.solely then [79] else [])

/-- The elements of a field (src/core/sis_utils.c:82-115). -/
def fieldElems (f : Field) : List Node :=
  [strNode 0 [styleCh f.style], numNode 1 f.len] ++
    if flagsOf f ≠ [] then [numNode 2 f.count, numNode 3 f.dot, strNode 4 (flagsOf f)]
    else if f.dot > 0 then [numNode 2 f.count, numNode 3 f.dot]
    else if f.count > 0 then [numNode 2 f.count]
    else []

/-- A field (src/core/sis_utils.c:77-116). -/
def fieldNode (f : Field) : Node := .mk .array (some f.fname) none (fieldElems f)

/-- All of them there (the loops of src/core/sis_dynamic.c:131-200). -/
def every {α : Type} : List (Option α) → Option (List α)
  | [] => some []
  | none :: _ => none
  | some a :: l => (every l).map (a :: ·)

/-- `sis_sdbinfo_to_json` (src/core/sis_utils.c:67-118) and its name in the document (src/core/disk/sis_disk.io.c:422-426). -/
def tabNode (t : Tab) : Option Node :=
  (every (t.db.fields.map fun e => Dyn.unit t.db e.2)).map fun fs =>
    .mk .object (some t.name) none [.mk .object (some "fields".toUTF8.toList) none (fs.map fieldNode)]

/-- The text `sis_disk_ctrl_write_sdict` makes of tables (src/core/disk/sis_disk.io.c:411-443), with `sis_json_to_sds`
(src/core/sis_utils.c:539-560). -/
def tabText (ts : List Tab) : Option Bytes :=
  (every (ts.map tabNode)).bind fun ns => Json.outputZip (.mk .object none none ns)

/-- A number kept in an `int` of 32 bits (`sis_json_get_int` into `int`, src/core/sis_dynamic.c:131-200). -/
def int32 (v : Int) : Int := (v + 2 ^ 31) % 2 ^ 32 - 2 ^ 31

/-- `strchr` for a letter or its other case in the flags of a field (src/core/sis_dynamic.c:177-178). -/
def flagged (flag : Option Bytes) (a b : UInt8) : Bool :=
  match flag with
  | none => false
  | some s => s.contains a || s.contains b

/-- What `sis_dynamic_db_create` reads of one field (src/core/sis_dynamic.c:131-178). -/
def defOf (n : Node) : Def where
  name := n.key
  style := styleOf (Json.getStr n "0".toUTF8.toList)
  len := int32 (Json.getInt n "1".toUTF8.toList 4)
  count := int32 (Json.getInt n "2".toUTF8.toList 1)
  main := flagged (Json.getStr n "4".toUTF8.toList) 73 105
  dot := int32 (Json.getInt n "3".toUTF8.toList 0)
  solely := flagged (Json.getStr n "4".toUTF8.toList) 79 111

/-- `sis_dynamic_db_create` (src/core/sis_dynamic.c:114-219) of a document; the inner `none` is NULL. -/
def dbOf (n : Node) : Option (Option Db) :=
  match (Json.cmpChild n.child "fields".toUTF8.toList).bind (n.child[·]?) with
  | none => some none
  | some fs => Dyn.create (fs.child.map defOf)

/-- The tables of a document, in order: the loop of `sis_disk_reader_set_sdict` (src/core/disk/sis_disk_ctrl.c:344-364). -/
def tabsOf : List Node → Option (List Tab)
  | [] => some []
  | n :: ns =>
    match dbOf n with
    | none => none
    | some none => tabsOf ns
    | some (some db) =>
      match n.key with
      | none => none
      | some k => (tabsOf ns).map (⟨k, db⟩ :: ·)

/-- The tables of a text (src/core/disk/sis_disk_ctrl.c:339-364). -/
def textTabs (s : Bytes) : Option (List Tab) :=
  match Json.load s with
  | none => none
  | some none => some []
  | some (some n) => tabsOf n.child

end Sis.Sdb
