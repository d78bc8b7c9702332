import Verif.Sic.Sic
import Verif.Sno.SnoSpec
import Verif.Zip.IncrSpec
import Mathlib.Data.List.Forall2
/- What a user expects of a file that keeps records compressed, apart from the functions that write and read it. -/
namespace Sis.Sic
open Sis
open Sis.Sdb (Lib Tab fold KeyName TabName records)
open Sis.Sno (Rec Act spell addName)
open Sis.Dyn (Db)

/-- The call of the writer: keys are given in a text with commas. -/
def cmd : Act → Cmd
  | .keys ks => .keys (List.intercalate [44] ks)
  | .tabs ts => .tabs ts
  | .start => .start
  | .put k s d => .put k s d
  | .stop => .stop

/-- The content of a file: the keys and the tables with their definition, as they were first named, the records in the order in
which they were written, and those that were written since the last start if there was no stop. -/
structure Abs where
  keys : List Bytes := []
  tabs : List (Bytes × Db) := []
  recs : List Rec := []
  now : Option (List Rec) := none

/-- A table is added if there is none of its name. -/
def addTable (ts : List (Bytes × Db)) (t : Tab) : List (Bytes × Db) :=
  if ts.any (fun n => fold n.1 == fold t.name) then ts else ts ++ [(t.name, t.db)]

/-- The records a write brings: those of the table, if it is known and the bytes are whole records. -/
def Abs.brings (a : Abs) (k s d : Bytes) : List Rec :=
  match a.tabs.find? (fun t => fold t.1 == fold s) with
  | none => []
  | some (s, db) => if d.length % db.size = 0 then (records db.size (d.length / db.size) d).map fun r => ⟨spell (addName a.keys k) k, s, r⟩ else []

/-- What an action makes of the content. -/
def Abs.act (a : Abs) : Act → Abs
  | .keys ks => { a with keys := ks.foldl addName a.keys }
  | .tabs ts => { a with tabs := ts.foldl addTable a.tabs }
  | .start => { a with now := some [] }
  | .put k s d =>
    { a with
      keys := if a.tabs.any (fun t => fold t.1 == fold s) then addName a.keys k else a.keys
      recs := a.recs ++ a.brings k s d
      now := a.now.map (· ++ a.brings k s d) }
  | .stop => { a with now := none }

def Abs.acts (a : Abs) (as : List Act) : Abs := as.foldl Abs.act a

/-- The last record of a key and a table. -/
def lastOf (rs : List Rec) (k s : Bytes) : Option Bytes := ((rs.filter fun r => r.key == k && r.tab == s).getLast?).map (·.data)

/-- Records can be written one behind the other: each can be the first of its key and table and can follow the one before, see
`Zip.Opens` and `Zip.Follows`. -/
def Runs (tabs : List (Bytes × Db)) (rs : List Rec) : Prop :=
  ∀ (pre : List Rec) (r : Rec) (post : List Rec), rs = pre ++ r :: post → ∀ db, (r.tab, db) ∈ tabs →
    Zip.Opens db r.data ∧ ∀ x, lastOf pre r.key r.tab = some x → Zip.Follows db x r.data

/-- Tables whose records are not too long for a block: at most 16120 bytes, and not too many short fields. -/
def Short (db : Db) : Prop := db.size + 264 ≤ 16384 ∧ Zip.bitsOf db ≤ 8 * db.size + 1958

/-- What may be done: names are usual ones; keys and tables are given while writing is not started, a table once or with the same
definition; records are written between start and stop. -/
def Allowed (P : Db → Prop) (a : Abs) : Act → Prop
  | .keys ks => a.now = none ∧ ∀ k ∈ ks, KeyName k ∧ (0 : UInt8) ∉ k
  | .tabs ts => a.now = none ∧ (∀ t ∈ ts, TabName t.name ∧ (44 : UInt8) ∉ t.name ∧ P t.db ∧ Zip.Plain t.db ∧ Short t.db ∧
        ∀ o ∈ a.tabs, fold o.1 = fold t.name → o.2 = t.db) ∧
      ts.Pairwise fun x y => fold x.name ≠ fold y.name
  | .start => a.now = none ∧ a.tabs ≠ []
  | .put k s d => KeyName k ∧ (0 : UInt8) ∉ k ∧ d ≠ [] ∧ ∃ now, a.now = some now ∧ Runs a.tabs (now ++ a.brings k s d)
  | .stop => a.now ≠ none

/-- The file is not too large: 2 GB for the records, 2 GB for the index, no size field of which is read in two pieces of 16 MB. -/
structure Moderate (f : Bytes × Bytes) : Prop where
  body : f.1.length + 64 < 2 ^ 31
  idx : Disk.Readable f.2

/-- A writer is opened on a file, used and closed after the last stop: every call is allowed, nothing undefined happens, and the file is not
too large. -/
structure Session (lib : Lib) (v : Time.Env) (P : Db → Prop) (limit : Nat) (old : Option (Bytes × Bytes)) (a : Abs) (as : List Act) (new : Bytes × Bytes) : Prop where
  ok : ∀ (pre : List Act) (x : Act) (post : List Act), as = pre ++ x :: post → Allowed P (a.acts pre) x
  run : session lib v limit old (as.map cmd) = some new
  stopped : (a.acts as).now = none
  size : Moderate new

/-- A file used in sessions from its beginning: the file and the content it should have. -/
inductive Hist (lib : Lib) (v : Time.Env) (P : Db → Prop) (limit : Nat) : Option (Bytes × Bytes) → Abs → Prop
  | new : Hist lib v P limit none {}
  | session {old : Option (Bytes × Bytes)} {a : Abs} (h : Hist lib v P limit old a) {as : List Act} {new : Bytes × Bytes}
      (s : Session lib v P limit old a as new) : Hist lib v P limit (some new) (a.acts as)

/-- What is read for the records of a file: the same keys and tables in the same order, and in each field the same number or text. -/
def Copies (tabs : List (Bytes × Db)) (all recs : List Rec) : Prop :=
  List.Forall₂ (fun x r => x.key = r.key ∧ x.tab = r.tab ∧ x.data.length = r.data.length ∧ ∀ db, (r.tab, db) ∈ tabs → Zip.SameRec db x.data r.data) all recs

/-- What a subscriber hears of a sequence of records: the records in order; it is told that it broke off if it ended the
subscription with one of them, after which it hears less than 131072 more; and if it did not it heard all of them. -/
structure Hears (quit : List Rec → Bool) (all got : List Rec) (broke : Bool) : Prop where
  pre : got <+: all
  told : broke = true ↔ ∃ p, p <+: got ∧ quit p = true
  soon : ∀ p, p <+: got → quit p = true → got.length < p.length + 131072
  all : broke = false → got = all

/-- Whether a record is one of those a list of keys and a list of tables ask for: both by the first bytes of their name. -/
def Wants (keys sdbs : Bytes) (r : Rec) : Prop :=
  Sub.Half true (Sub.low keys) (Sub.low r.key) ∧ Sub.Half true (Sub.low sdbs) (Sub.low r.tab)

/-- There is memory for the last record of all keys and tables. -/
def Room (a : Abs) : Prop := max 1 a.keys.length * (a.tabs.map fun t => t.2.size + 1).sum < 2 ^ 32

end Sis.Sic
