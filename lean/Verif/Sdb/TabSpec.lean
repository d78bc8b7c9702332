import Verif.Sdb.TabText
import Verif.Sdb.WriterSpec
/- What is asked of tables to be kept in a database. -/
namespace Sis.Sdb
open Sis
open Sis.Dyn (Db Def)

/-- A field as a user defines it: with a name of at most 31 bytes without control characters, quotes and backslashes, a known
type, a length and a number of elements from 1 to 65535, and at most 255 digits. -/
structure FieldOk (d : Def) : Prop where
  name : ∃ n, d.name = some n ∧ n ≠ [] ∧ n.length ≤ 31 ∧ ∀ c ∈ n, 32 ≤ c ∧ c ≠ 34 ∧ c ≠ 92
  proper : Dyn.Proper d
  dot : 0 ≤ d.dot ∧ d.dot ≤ 255

/-- A table made of such fields, no two with the same name. -/
def MadeOf (ds : List Def) (db : Db) : Prop :=
  (∀ d ∈ ds, FieldOk d) ∧ ds.Pairwise (fun d e => d.name.map fold ≠ e.name.map fold) ∧ Dyn.create ds = some (some db)

/-- A table of less than 64 KB a record, with a time of 1, 2, 4 or 8 bytes if it has one. -/
def Usual (db : Db) : Prop :=
  ∃ ds, MadeOf ds db ∧ db.size < 2 ^ 16 ∧ ∀ d ∈ ds, Dyn.Timed d → d.len = 1 ∨ d.len = 2 ∨ d.len = 4 ∨ d.len = 8

/-- The program with its own way to write tables as a text and to read them. -/
structure Real (lib : Lib) : Prop where
  text : ∀ ts b, tabText ts = some b → lib.text ts = b
  parse : ∀ s ts, textTabs s = some ts → lib.parse s = ts

end Sis.Sdb
