import Verif.Io.Save
import Verif.Io.IoSpec
import Verif.Sdb.WriterSpec
/-
What is said about a server that is saved and started again: it is given commands, saved, started again on its files and asked.
-/
namespace Sis.Io
open Sis

/-- A query of a key with a condition: `{"range":{"start":1,"stop":2}}`. -/
def queryOf (key : Bytes) (q : Cond) : Bytes × Option Bytes := (key, some (askText q []))

/-- The answers to queries behind commands, without a save. -/
def answers (e : Env) (ms : List Cmd) (qs : List (Bytes × Option Bytes)) : Option (List Reply) :=
  (run e .empty (ms ++ qs.map fun q => .get q.1 q.2)).map fun p => p.2.drop ms.length

/-- The answers to queries behind commands, a save into an empty directory and a start on the files. -/
def answersBack (e : Env) (lib : Sdb.Lib) (v : Time.Env) (ms : List Cmd) (qs : List (Bytes × Option Bytes)) : Option (List Reply) :=
  (run e .empty ms).bind fun p => (save lib v p.1 p.1.sers {}).bind fun d => (restart lib d).bind fun s => getsBack e lib v d s qs

/-- The same with a second round of commands and a second save. -/
def answersAgain (e : Env) (lib : Sdb.Lib) (v : Time.Env) (ms ms' : List Cmd) (qs : List (Bytes × Option Bytes)) : Option (List Reply) :=
  (run e .empty ms).bind fun p => (save lib v p.1 p.1.sers {}).bind fun d => (run e (afterSave p.1) ms').bind fun p' =>
    (save lib v p'.1 p'.1.sers d).bind fun d => (restart lib d).bind fun s => getsBack e lib v d s qs

/-! ### Histories -/

/-- A usual time: from 3 January 1970, for days from the year 1971, to the year 5993; the last four digits of a day are a month and
a day. -/
def UsualTime : Dyn.St → Nat → Prop
  | .msec, t => 172800000 ≤ t ∧ t < 127000000000000
  | .tsec, t => 172800 ≤ t ∧ t < 127000000000
  | .minu, t => 2880 ≤ t ∧ t < 2116666666
  | .date, t => 19710000 ≤ t ∧ t < 59940000 ∧ 101 ≤ t % 10000
  | _, _ => False

/-- A table a client defines: its name, its columns, and which column gives the time. -/
structure Sheet where
  name : Bytes
  cols : List Col
  j : Nat

/-- A table that can be saved: its name is plain, without star and comma; a record has less than 64 KB; the time is of a type of
times, and columns of such types have 1, 2, 4 or 8 bytes; with times in minutes the time zone is one of whole minutes. -/
structure Sheet.Ok (v : Time.Env) (s : Sheet) : Prop where
  name : Sdb.TabName s.name
  plain : (42 : UInt8) ∉ s.name ∧ (44 : UInt8) ∉ s.name
  cols : ColsOk s.cols
  time : TimeAt s.cols s.j
  style : ∀ c, s.cols[s.j]? = some c → TimeStyle c.style ∧ (c.style = .minu → v.tz % 60 = 0)
  len : ∀ c ∈ s.cols, TimeStyle c.style → c.len = 1 ∨ c.len = 2 ∨ c.len = 4 ∨ c.len = 8
  size : (s.cols.map Col.len).sum < 2 ^ 16

/-- What clients do before the save: a table is defined, rows are sent to a key, something is asked. -/
inductive Do
  | define (s : Sheet)
  | send (key : Bytes) (rs : List (List Rec.Val))
  | ask (key : Bytes) (info : Option Bytes)

/-- The command of it. -/
def Do.cmd : Do → Cmd
  | .define s => .create s.name (some (tableText s.cols))
  | .send key rs => .set key (some (Rec.rowsText rs))
  | .ask key info => .get key info

/-- The tables defined so far. -/
def sheetsOf (pre : List Do) : List Sheet := pre.filterMap fun
  | .define s => some s
  | _ => none

/-- What was sent to a key so far, where upper and lower case are the same: for each time the rows. -/
def sent (pre : List Do) (key : Bytes) : List (List (List Rec.Val)) := pre.filterMap fun
  | .send k rs => if k.map lower = key.map lower then some rs else none
  | _ => none

/-- The day of a time in seconds or milliseconds, in days since 1970. -/
def dayAt (v : Time.Env) (st : Dyn.St) (t : Nat) : Int := (((if st = .msec then t / 1000 else t : Nat) : Int) + v.tz) / 86400

/-- The times fit into 31 bits, or are all of one day. -/
def Together (v : Time.Env) (st : Dyn.St) (ts : List Nat) : Prop := (∀ t ∈ ts, t < 2 ^ 31) ∨ ∀ t ∈ ts, ∀ t' ∈ ts, dayAt v st t = dayAt v st t'

/-- What is asked of it: tables are defined once, where upper and lower case of a name are the same.  Rows are sent to a key of a
table that is defined, made of a plain name without point, comma and star, a point and the name of the table.  There is at least one,
they fit the columns, their times are usual, those of the first time are in the order of their times, all rows of the key have less
than 2^31 bytes, and their times fit into 31 bits or are all of one day. -/
def Do.Fits (fl : Rec.Fl) (v : Time.Env) (pre : List Do) : Do → Prop
  | .define s => s.Ok v ∧ ∀ o ∈ sheetsOf pre, o.name.map lower ≠ s.name.map lower
  | .send key rs => ∃ s ∈ sheetsOf pre, (∃ p t, key = p ++ 46 :: t ∧ Sdb.KeyName p ∧ CStr p ∧ (42 : UInt8) ∉ p ∧ t.map lower = s.name.map lower) ∧
      rs ≠ [] ∧ ((sent pre key).flatten ++ rs).length * (s.cols.map Col.len).sum < 2 ^ 31 ∧ (sent pre key = [] → Fmap.Sorted (timeOf s.j) rs) ∧
      ∀ c, s.cols[s.j]? = some c → (∀ r ∈ rs, RowOk fl s.cols s.j r ∧ UsualTime c.style (timeOf s.j r)) ∧
        Together v c.style (((sent pre key).flatten ++ rs).map (timeOf s.j))
  | .ask _ _ => True

/-- Everything clients do is as asked. -/
def Fits (fl : Rec.Fl) (v : Time.Env) (prog : List Do) : Prop := ∀ pre x post, prog = pre ++ x :: post → x.Fits fl v pre

/-- A query of the rows from one time to another, with or without a format and names of columns. -/
def RangeQuery (q : Bytes × Option Bytes) : Prop :=
  ∃ (a b : Nat) (more : List (Bytes × Bytes)), 0 < a ∧ a < 2 ^ 63 ∧ 0 < b ∧ b < 2 ^ 63 ∧
    q.2 = some (askText (.range a b false) (more.map fun m => (m.1, .text m.2))) ∧
    ∀ m ∈ more, (m.1 = "format".toUTF8.toList ∨ m.1 = "fields".toUTF8.toList) ∧ Rec.PlainText m.2

end Sis.Io
