import Verif.Io.Io
import Verif.Rec.RecSpec
import Verif.Fmap.Spec
import Verif.Csv.CsvSpec
/-
What the commands of a database in memory are meant to do, independent of how they do it: a table is a list of columns, a series
a list of rows of values, a query the rows of some times.
-/
namespace Sis.Io
open Sis
open Sis.Dyn (Field St)
open Sis.Rec (Fl Val Suits item obj arr rowText rowsText answer PlainText)
open Sis.Fmap (Sorted)

/-! ### Tables -/

/-- A column as a client defines it: name, type, length in bytes, digits behind the point, and whether it is the index. -/
structure Col where
  name : Bytes
  style : St
  len : Nat
  digits : Nat := 0
  index : Bool := false
deriving DecidableEq, Repr

/-- The letter of a type. -/
def letter : St → UInt8
  | .int => 'I'.toNat.toUInt8
  | .uint => 'U'.toNat.toUInt8
  | .char => 'C'.toNat.toUInt8
  | .float => 'F'.toNat.toUInt8
  | .price => 'P'.toNat.toUInt8
  | .wsec => 'W'.toNat.toUInt8
  | .msec => 'T'.toNat.toUInt8
  | .tsec => 'S'.toNat.toUInt8
  | .minu => 'M'.toNat.toUInt8
  | .date => 'D'.toNat.toUInt8

/-- How a column is written: `["F",8,1,2,""]`, type, length, number of elements, digits and flags. -/
def colText (c : Col) : Bytes :=
  arr [item (.text [letter c.style]), item (.num c.len), item (.num 1), item (.num c.digits), item (.text (if c.index then [73] else []))]

/-- How a table is written: `{"fields":{"time":["T",8,1,0,""],...}}`. -/
def tableText (cols : List Col) : Bytes := obj [("fields".toUTF8.toList, obj (cols.map fun c => (c.name, colText c)))]

/-- The fields of the records, from byte `off` on: one behind the other, prices with three digits if nothing is said. -/
def layout : Nat → List Col → List Field
  | _, [] => []
  | off, c :: cs =>
    ⟨c.name, c.style, c.len, 1, off, if c.style = .price ∧ c.digits = 0 then 3 else c.digits, c.index, false⟩ :: layout (off + c.len) cs

/-- A type of times by which a table is ordered without saying so. -/
def TimeStyle (s : St) : Prop := s = .tsec ∨ s = .msec ∨ s = .minu ∨ s = .date

/-- A column that can be used: a plain name of at most 31 bytes, at most 65535 bytes, at most 255 digits. -/
structure ColOk (c : Col) : Prop where
  name : c.name ≠ [] ∧ c.name.length ≤ 31 ∧ PlainText c.name
  len : 1 ≤ c.len ∧ c.len ≤ 65535
  digits : c.digits ≤ 255

/-- The columns of a table: no two with the same name, where upper and lower case are the same, and at most 65536 bytes in all. -/
structure ColsOk (cols : List Col) : Prop where
  each : ∀ c ∈ cols, ColOk c
  names : cols.Pairwise fun c d => c.name.map lower ≠ d.name.map lower
  size : (cols.map Col.len).sum ≤ 65536

/-- Column `j` gives the time of a row: it is the first one of a type of times; or there is none of these, and it is the last one
marked as the index. -/
def TimeAt (cols : List Col) (j : Nat) : Prop :=
  ∃ c, cols[j]? = some c ∧
    ((TimeStyle c.style ∧ ∀ i d, cols[i]? = some d → TimeStyle d.style → j ≤ i) ∨
     (c.index = true ∧ (∀ d ∈ cols, ¬ TimeStyle d.style) ∧ ∀ i d, cols[i]? = some d → d.index = true → i ≤ j))

/-! ### Rows -/

/-- The time of a row: the number in column `j`. -/
def timeOf (j : Nat) (vs : List Val) : Nat :=
  match vs[j]? with
  | some (.num n) => n.toNat
  | _ => 0

/-- A value a column keeps as it is: a number in range, a plain text that is not too long, and the text of a floating point number
that is what the number kept is shown as. -/
def Exact (fl : Fl) (f : Field) (v : Val) : Prop :=
  Suits fl f v ∧
  match v with
  | .num n => -2 ^ 63 < n
  | .text s => s.length ≤ f.len
  | .raw t => fl.toText f (leBytes f.len (fl.ofText f t)) = t

/-- A row for the columns: one value each, which the column keeps as it is, and a time that is not negative. -/
structure RowOk (fl : Fl) (cols : List Col) (j : Nat) (vs : List Val) : Prop where
  length : vs.length = cols.length
  exact : ∀ (i : Nat) f v, (layout 0 cols)[i]? = some f → vs[i]? = some v → Exact fl f v
  time : ∃ n : Int, 0 ≤ n ∧ vs[j]? = some (.num n)

/-- The key is one of the table: something without a point, a point, and the name of the table, where upper and lower case are the
same. -/
def KeyOf (tname key : Bytes) : Prop :=
  ∃ p t, key = p ++ 46 :: t ∧ (∀ c ∈ p, c ≠ 46) ∧ t ≠ [] ∧ t.map lower = tname.map lower

/-! ### Queries -/

/-- What is asked for: the latest rows; the rows from a time to a time, where a negative start counts rows from the end, a stop of 0
is the start and a negative one the end, and with `prev` also the last one before if there is none at the start; the rows of a
time; the row so many rows before a time. -/
inductive Cond
  | latest
  | range (a b : Int) (prev : Bool)
  | at (t : Nat)
  | back (t k : Nat)

/-- How the condition is written: `"range":{"start":1,"stop":2}` and so on. -/
def Cond.members : Cond → List (Bytes × Bytes)
  | .latest => []
  | .range a b false => [("range".toUTF8.toList, Rec.objText [("start".toUTF8.toList, .num a), ("stop".toUTF8.toList, .num b)])]
  | .range a b true => [("range".toUTF8.toList,
      Rec.objText [("start".toUTF8.toList, .num a), ("stop".toUTF8.toList, .num b), ("ifprev".toUTF8.toList, .num 1)])]
  | .at t => [("where".toUTF8.toList, Rec.objText [("start".toUTF8.toList, .num t)])]
  | .back t k => [("where".toUTF8.toList, Rec.objText [("start".toUTF8.toList, .num t), ("offset".toUTF8.toList, .num (-k))])]

/-- A query with further members: `{"range":{...},"format":"csv"}`. -/
def askText (q : Cond) (more : List (Bytes × Val)) : Bytes := obj (q.members ++ more.map fun m => (m.1, item m.2))

/-- The numbers of a condition fit 64 bits with a sign, and with `prev` the range is one. -/
def Cond.Ok (ts : List Val → Nat) (l : List (List Val)) : Cond → Prop
  | .latest => True
  | .range a b p => -2 ^ 63 ≤ a ∧ a < 2 ^ 63 ∧ -2 ^ 63 ≤ b ∧ b < 2 ^ 63 ∧ (p = true → Fmap.startTs ts l a ≤ Fmap.stopTs ts l a b)
  | .at t => t < 2 ^ 63
  | .back t k => t < 2 ^ 63 ∧ 0 < k ∧ k < 2 ^ 31

/-- The rows of a series a condition stands for. -/
def Cond.found (ts : List Val → Nat) (l : List (List Val)) : Cond → List (List Val)
  | .latest => Fmap.rangeSpec ts l (-1) 0 false
  | .range a b p => Fmap.rangeSpec ts l a b p
  | .at t => Fmap.recordsAt ts l t
  | .back t k => if k ≤ (Fmap.recordsBefore ts l t).length then ((Fmap.recordsBefore ts l t).reverse[k - 1]?).toList else []

/-- The answer with rows: nothing, one row, or an array of rows, under the name of the key. -/
def told (key : Bytes) : List (List Val) → Reply
  | [] => .null
  | [vs] => .chars (answer (some key) (rowText vs))
  | rows => .chars (answer (some key) (rowsText rows))

/-! ### Histories -/

/-- What is done: rows are sent to the series, one or an array of them; rows of the series are deleted, those from a time to a time
or those of a time; or a command that is about something else. -/
inductive Act
  | row (vs : List Val)
  | rows (rs : List (List Val))
  | delRange (a b : Nat)
  | delAt (t : Nat)
  | other (m : Cmd)

/-- The command of an act. -/
def Act.cmd (key : Bytes) : Act → Cmd
  | .row vs => .set key (some (rowText vs))
  | .rows rs => .set key (some (rowsText rs))
  | .delRange a b => .del key (some (askText (.range a b false) []))
  | .delAt t => .del key (some (askText (.at t) []))
  | .other m => m

/-- A command about something else: another table is defined, another key is set or deleted, or something is read. -/
def Elsewhere (tname key : Bytes) : Cmd → Prop
  | .create n _ => n.map lower ≠ tname.map lower
  | .set k _ => k.map lower ≠ key.map lower
  | .bset k _ => k.map lower ≠ key.map lower
  | .get _ _ => True
  | .del k _ => k.map lower ≠ key.map lower

/-- The rows an act leaves. -/
def Act.left (ts : List Val → Nat) (l : List (List Val)) : Act → List (List Val)
  | .row vs => l ++ [vs]
  | .rows rs => l ++ rs
  | .delRange a b => l.filter fun r => !(decide (a ≤ ts r) && decide (ts r ≤ b))
  | .delAt t => l.filter fun r => decide (ts r ≠ t)
  | .other _ => l

/-- What the act is answered, if it is about the series. -/
def Act.reply (ts : List Val → Nat) (l : List (List Val)) : Act → Option Reply
  | .row _ => some (.int 1)
  | .rows _ => some (.int 1)
  | .delRange a b => some (.int (Fmap.recordsIn ts l a b).length)
  | .delAt t => some (.int (Fmap.recordsAt ts l t).length)
  | .other _ => none

/-- What is asked of acts: the rows fit the columns, those sent to an empty series are in the order of their times, the whole is less
than 2^31 bytes, numbers fit 64 bits with a sign, and the end of a range is not 0. -/
def Act.Legal (fl : Fl) (cols : List Col) (j : Nat) (tname key : Bytes) (l : List (List Val)) : Act → Prop
  | .row vs => RowOk fl cols j vs ∧ (l.length + 1) * (cols.map Col.len).sum < 2 ^ 31
  | .rows rs => rs ≠ [] ∧ (∀ vs ∈ rs, RowOk fl cols j vs) ∧ (l.length + rs.length) * (cols.map Col.len).sum < 2 ^ 31 ∧
      (l = [] → Sorted (timeOf j) rs)
  | .delRange a b => a < 2 ^ 63 ∧ 0 < b ∧ b < 2 ^ 63
  | .delAt t => t < 2 ^ 63
  | .other m => Elsewhere tname key m

/-- The same of a history, from the rows `l` on. -/
def Legal (fl : Fl) (cols : List Col) (j : Nat) (tname key : Bytes) : List (List Val) → List Act → Prop
  | _, [] => True
  | l, a :: as => a.Legal fl cols j tname key l ∧ Legal fl cols j tname key (a.left (timeOf j) l) as

/-- The rows a history leaves, from the rows `l` on, in the order they came. -/
def left (ts : List Val → Nat) (l : List (List Val)) (as : List Act) : List (List Val) := as.foldl (Act.left ts) l

/-- Whether rows only come in the order of their times. -/
def InOrder (ts : List Val → Nat) : List (List Val) → List Act → Prop
  | l, [] => Sorted ts l
  | l, a :: as => Sorted ts l ∧ InOrder ts (a.left ts l) as

/-- The answers to a history, those to commands about something else being of no interest. -/
def replies (ts : List Val → Nat) : List (List Val) → List Act → List (Option Reply)
  | _, [] => []
  | l, a :: as => a.reply ts l :: replies ts (a.left ts l) as

/-- The answers are as expected. -/
def Answers : List Reply → List (Option Reply) → Prop
  | [], [] => True
  | r :: rs, x :: xs => (∀ y, x = some y → r = y) ∧ Answers rs xs
  | _, _ => False

/-- From the start, commands about something else, then the definition of a table, then a history of one of its keys, have all been
executed, and leave the database `c` and the answers `rs`. -/
structure Reached (e : Env) (cols : List Col) (j : Nat) (tname key : Bytes) (pre : List Cmd) (acts : List Act) (c : Cxt) (rs : List Reply) :
    Prop where
  table : ColsOk cols
  time : TimeAt cols j
  name : KeyOf tname key ∧ PlainText key
  before : ∀ m ∈ pre, Elsewhere tname key m
  legal : Legal e.fl cols j tname key [] acts
  done : run e .empty (pre ++ .create tname (some (tableText cols)) :: acts.map (Act.cmd key)) = some (c, rs)

/-- A command that sets or deletes something under the key. -/
def Writes (key : Bytes) : Cmd → Prop
  | .create _ _ => False
  | .set k _ => k.map lower = key.map lower
  | .bset k _ => k.map lower = key.map lower
  | .get _ _ => False
  | .del k _ => k.map lower = key.map lower

/-- A command about the table and the series: the table is defined, or the key is set, read or deleted. -/
def Own (tname key : Bytes) : Cmd → Prop
  | .create n _ => n.map lower = tname.map lower
  | .set k _ => k.map lower = key.map lower
  | .bset k _ => k.map lower = key.map lower
  | .get k _ => k.map lower = key.map lower
  | .del k _ => k.map lower = key.map lower

/-- An answer that says that nothing was done. -/
def Refused : Reply → Prop
  | .error => True
  | .int n => n ≤ 0
  | _ => False

/-! ### Formats -/

/-- A query in a format: `{"range":{...},"format":"csv"}`. -/
def formatText (q : Cond) (fmt : String) : Bytes := askText q [("format".toUTF8.toList, .text fmt.toUTF8.toList)]

/-- A query of some columns in a format: `{"range":{...},"fields":"time,val","format":"csv"}`. -/
def fieldsText (q : Cond) (ns : List Bytes) (fmt : String) : Bytes :=
  askText q [("fields".toUTF8.toList, .text (Csv.join 44 ns)), ("format".toUTF8.toList, .text fmt.toUTF8.toList)]

/-- The name stands for column `i`: upper and lower case are the same.  It is one that can be sent: plain, without commas, without
blanks at its ends, and does not begin with a star. -/
structure Asked (cols : List Col) (n : Bytes) (i : Nat) : Prop where
  same : ∃ c, cols[i]? = some c ∧ n.map lower = c.name.map lower
  plain : PlainText n ∧ ∀ c ∈ n, c ≠ 44
  ends : (∀ c, n.head? = some c → 32 < c ∧ c ≠ 42) ∧ ∀ c, n.getLast? = some c → 32 < c

/-- The values of a row in some columns. -/
def picked (is : List Nat) (vs : List Val) : List Val := is.filterMap (vs[·]?)

/-- The names of some columns. -/
def names (cols : List Col) (is : List Nat) : List Bytes := (is.filterMap (cols[·]?)).map Col.name

/-- Values that can be shown as a line: floating point numbers of at most 14 bytes, and something in the first column. -/
def LineOk (vs : List Val) : Prop := (∀ t, .raw t ∈ vs → t.length ≤ 14) ∧ ∀ v, vs.head? = some v → Csv.shown v ≠ []

end Sis.Io
