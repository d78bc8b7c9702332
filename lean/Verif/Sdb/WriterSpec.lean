import Verif.Sdb.Writer
import Verif.Disk.SmoothSpec
import Verif.Dyn.DynSpec
/- What a user expects of a database on disk, apart from the functions that write and read it. -/
namespace Sis.Sdb
open Sis
open Sis.Dyn (Db)

/-- A name as it is compared: without regard to case. -/
def fold (n : Bytes) : Bytes := n.map lower

/-- A key without commas, dots and blanks at its ends. -/
structure KeyName (k : Bytes) : Prop where
  ne : k ≠ []
  comma : (44 : UInt8) ∉ k
  dot : (46 : UInt8) ∉ k
  first : ∀ c, k.head? = some c → 32 < c
  last : ∀ c, k.getLast? = some c → 32 < c
  len : k.length ≤ 127
  keys : fold k ≠ "_keys_".toUTF8.toList
  tabs : fold k ≠ "_sdbs_".toUTF8.toList

/-- A name of a table, without control characters, quotes and backslashes. -/
structure TabName (s : Bytes) : Prop where
  ne : s ≠ []
  len : s.length ≤ 126
  plain : ∀ c ∈ s, 32 ≤ c ∧ c ≠ 34 ∧ c ≠ 92

/-- What is compressed takes at least a byte and can be restored. -/
def Restores (lib : Lib) : Prop := ∀ x z, lib.compress x = some z → z ≠ [] ∧ lib.uncompress z = some x

/-- The text made of tables is read as these tables; every table takes at least a byte. -/
def Readable (lib : Lib) (P : Db → Prop) : Prop :=
  ∀ ts, ts ≠ [] → (∀ t ∈ ts, TabName t.name ∧ P t.db) → lib.parse (lib.text ts) = ts ∧ 16 ≤ (lib.text ts).length ∧ ts.length ≤ (lib.text ts).length

/-- The field with the time of a record. -/
def timeField (db : Db) : Option Dyn.Field := db.time.bind (Dyn.unit db)

/-- The tables in use: each has a size and no time or one of a known unit in a field of usual width, and tables with the same
fields are alike. -/
structure Tables (P : Db → Prop) : Prop where
  size : ∀ db, P db → 0 < db.size ∧ db.size < 2 ^ 16
  time : ∀ db, P db → db.time.isSome = true → ∃ f, timeField db = some f ∧ (Dyn.unitOf f.style).isSome = true ∧
    (f.len = 1 ∨ f.len = 2 ∨ f.len = 4 ∨ f.len = 8) ∧ f.offset + f.len ≤ db.size
  same : ∀ a b, P a → P b → a.fields.map (fun e => Dyn.unit a e.2) = b.fields.map (fun e => Dyn.unit b e.2) →
    a.size = b.size ∧ a.time.map (Dyn.unit a) = b.time.map (Dyn.unit b)

/-- The records of a block. -/
def records (size : Nat) : Nat → Bytes → List Bytes
  | 0, _ => []
  | n + 1, d => d.take size :: records size n (d.drop size)

def recordsOf (db : Db) (d : Bytes) : List Bytes := records db.size (d.length / db.size) d

/-- The time of a record. -/
def timeOf (f : Dyn.Field) (r : Bytes) : Nat := leVal ((r.drop f.offset).take f.len)

/-- The day of a time, by the conversion C54 is about. -/
def dayOf (v : Time.Env) (f : Dyn.Field) (t : Nat) : Option Nat := (Dyn.unitOf f.style).bind fun st => Time.convert v st .date t

/-- Where a record belongs: days to the file of their year, other times to the file of their day. -/
def placeOf (v : Time.Env) (f : Dyn.Field) (r : Bytes) : Option Uid :=
  (dayOf v f (timeOf f r)).map fun day => if f.style = .date then .year (day / 10000) else .date day

/-- The period of a record: the year of a day, the day of another time. -/
def periodOf (v : Time.Env) (f : Dyn.Field) (r : Bytes) : Option Nat := (dayOf v f (timeOf f r)).map fun day => if f.style = .date then day / 10000 else day

/-- What a user does with a database. -/
inductive Act
  | keys (ks : List Bytes)
  | tabs (ts : List Tab)
  | one (k d : Bytes)
  | mul (k : Bytes) (l : List Bytes)
  | rows (k s d : Bytes)

/-- The call of the writer: keys are given in a text with commas. -/
def Act.cmd : Act → Cmd
  | .keys ks => .keys (List.intercalate [44] ks)
  | .tabs ts => .tabs ts
  | .one k d => .one k d
  | .mul k l => .mul k l
  | .rows k s d => .rows k s d

/-- The value of a key. -/
inductive Val
  | one (d : Bytes)
  | mul (l : List Bytes)

/-- The content of a database: declared keys, tables, all definitions a table ever had, values of keys, for every key, table and file the blocks of
records with the times of their first and last one, and the periods for which a key, or a key and a table, has data (0 for
data without time).  Names are folded. -/
structure Abs where
  keys : Bytes → Prop := fun _ => False
  defs : Bytes → Option Db := fun _ => none
  was : Bytes → Db → Prop := fun _ _ => False
  vals : Bytes → Option Val := fun _ => none
  rows : Bytes → Bytes → Uid → Option (List (Nat × Nat × Bytes)) := fun _ _ _ => none
  marks : Bytes → Option Bytes → Nat → Prop := fun _ _ _ => False

/-- Whether a new block from `a` to `b` replaces an old one from `c` to `d`: an end of one is the other end of the other, or
they have more than an instant in common. -/
def replaces (a b c d : Nat) : Bool := a == d || c == b || decide (max a c < min b d)

/-- A new block added to the ones of a file. -/
def addBlock (l : List (Nat × Nat × Bytes)) (a b : Nat) (d : Bytes) : List (Nat × Nat × Bytes) :=
  l.filter (fun o => !replaces a b o.1 o.2.1) ++ [(a, b, d)]

/-- The blocks of one file when records are written that have times: the ones that belong to the file are a new block. -/
def addRecords (v : Time.Env) (f : Dyn.Field) (rs : List Bytes) (u : Uid) (old : Option (List (Nat × Nat × Bytes))) : Option (List (Nat × Nat × Bytes)) :=
  let mine := rs.filter fun r => placeOf v f r == some u
  match mine.head?, mine.getLast? with
  | some x, some y => some (addBlock (old.getD []) (timeOf f x) (timeOf f y) mine.flatten)
  | _, _ => old

/-- What an action makes of the content. -/
def Abs.act (v : Time.Env) (a : Abs) : Act → Abs
  | .keys ks => { a with keys := fun n => a.keys n ∨ n ∈ ks.map fold }
  | .tabs ts =>
    { a with
      defs := fun n => ((ts.find? fun t => fold t.name == n).map (·.db)).or (a.defs n)
      was := fun n db => a.was n db ∨ ∃ t ∈ ts, fold t.name = n ∧ t.db = db }
  | .one k d =>
    { a with
      keys := fun n => a.keys n ∨ n = fold k
      vals := fun n => if n = fold k then some (.one d) else a.vals n
      marks := fun n t p => a.marks n t p ∨ (n = fold k ∧ t = none ∧ p = 0) }
  | .mul k l =>
    { a with
      keys := fun n => a.keys n ∨ n = fold k
      vals := fun n => if n = fold k then some (.mul l) else a.vals n
      marks := fun n t p => a.marks n t p ∨ (n = fold k ∧ t = none ∧ p = 0) }
  | .rows k s d =>
    match a.defs (fold s) with
    | none => a
    | some db =>
      { a with
        rows := fun k' s' u =>
          if k' = fold k ∧ s' = fold s then
            match timeField db with
            | none => if u = .nots then some [(0, 0, d)] else a.rows k' s' u
            | some f => addRecords v f (recordsOf db d) u (a.rows k' s' u)
          else a.rows k' s' u
        marks := fun n t p => a.marks n t p ∨ (n = fold k ∧ t = some (fold s) ∧
          match timeField db with
          | none => p = 0
          | some f => ∃ r ∈ recordsOf db d, periodOf v f r = some p) }

def Abs.acts (v : Time.Env) (a : Abs) (as : List Act) : Abs := as.foldl (Abs.act v) a

/-- A block of whole records in the order of their times, with usual times and days in the years 1 to 9999.  If they are not
all of one period the times fit into 31 bits. -/
structure BlockOk (v : Time.Env) (db : Db) (d : Bytes) : Prop where
  ne : d ≠ []
  whole : d.length % db.size = 0
  len : d.length < 2 ^ 31
  time : ∀ f, timeField db = some f → ∀ r ∈ recordsOf db d, 0 < timeOf f r ∧ timeOf f r < 2 ^ 53 ∧ ∃ day, dayOf v f (timeOf f r) = some day ∧ 10000 ≤ day ∧ day < 10 ^ 8
  order : ∀ f, timeField db = some f → (recordsOf db d).Pairwise fun x y => timeOf f x ≤ timeOf f y ∧
    ∀ m n, dayOf v f (timeOf f x) = some m → dayOf v f (timeOf f y) = some n → m ≤ n
  fits : ∀ f, timeField db = some f → (∀ r ∈ recordsOf db d, timeOf f r < 2 ^ 31) ∨ ∀ r ∈ recordsOf db d, ∀ r' ∈ recordsOf db d, placeOf v f r = placeOf v f r'

/-- What may be done in a database with some content.  Records are written for keys that were declared. -/
def Allowed (v : Time.Env) (P : Db → Prop) (a : Abs) : Act → Prop
  | .keys ks => ∀ k ∈ ks, KeyName k
  | .tabs ts => (∀ t ∈ ts, TabName t.name ∧ P t.db) ∧ ts.Pairwise fun x y => fold x.name ≠ fold y.name
  | .one k d => KeyName k ∧ d.length < 2 ^ 31
  | .mul k l => KeyName k ∧ l.length < 2 ^ 31 ∧ ∀ d ∈ l, d.length < 2 ^ 31
  | .rows k s d => KeyName k ∧ a.keys (fold k) ∧ TabName s ∧ ∀ db, a.defs (fold s) = some db → BlockOk v db d

/-- The files are not too large: 2 GB for main file and indexes, 4 GB for data files.  Main file and indexes are read in pieces of
16 MB, none of which ends inside the size field of a block. -/
structure Moderate (d : Disk) : Prop where
  main : ∀ b, d.main = some b → Disk.Readable b
  units : ∀ u f, d.unit u = some f → f.1.length < 2 ^ 32 ∧ Disk.Readable f.2

/-- A writer is opened on a disk with some content, used and closed: every call is allowed, nothing undefined happens, and the
files are not too large. -/
structure Session (lib : Lib) (v : Time.Env) (P : Db → Prop) (d : Disk) (a : Abs) (as : List Act) (d' : Disk) : Prop where
  ok : ∀ (pre : List Act) (x : Act) (post : List Act), as = pre ++ x :: post → Allowed v P (a.acts v pre) x
  run : session lib v d (as.map Act.cmd) = some d'
  size : Moderate d'

/-- A database used in sessions from its beginning: the disk and the content it should have. -/
inductive Hist (lib : Lib) (v : Time.Env) (P : Db → Prop) : Disk → Abs → Prop
  | new : Hist lib v P {} {}
  | session {d : Disk} {a : Abs} (h : Hist lib v P d a) {as : List Act} {d' : Disk} (s : Session lib v P d a as d') : Hist lib v P d' (a.acts v as)

/-- The calls that give a key a value. -/
def Act.gives (k : Bytes) : Act → Prop
  | .one n _ => fold n = fold k
  | .mul n _ => fold n = fold k
  | _ => False

/-- The calls that write records for a key and a table. -/
def Act.adds (k t : Bytes) : Act → Prop
  | .rows n s _ => fold n = fold k ∧ fold s = fold t
  | _ => False

/-- The bytes of blocks one behind the other. -/
def allBytes (l : List (Nat × Nat × Bytes)) : Bytes := l.flatMap fun b => b.2.2

end Sis.Sdb
