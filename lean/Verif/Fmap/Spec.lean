/-
What a user expects of a time series, stated on the plain list of records, without reference to the search code.
-/
namespace Sis.Fmap

variable {α : Type}

/-- The series is in time order. -/
def Sorted (ts : α → Nat) (l : List α) : Prop := l.Pairwise fun a b => ts a ≤ ts b

/-- The records with timestamp `t`. -/
def recordsAt (ts : α → Nat) (l : List α) (t : Nat) : List α := l.filter fun r => decide (ts r = t)

/-- The records with timestamp in `[a, b]`. -/
def recordsIn (ts : α → Nat) (l : List α) (a b : Nat) : List α := l.filter fun r => decide (a ≤ ts r) && decide (ts r ≤ b)

/-- The records before `t`. -/
def recordsBefore (ts : α → Nat) (l : List α) (t : Nat) : List α := l.filter fun r => decide (ts r < t)

/-- The start of a range as the client may write it: a timestamp, or `-k` for "the k-th record from the end" (the first
record if there are fewer). -/
def startTs (ts : α → Nat) (l : List α) (a : Int) : Nat :=
  if a < 0 then ((l.drop (l.length - a.natAbs)).head?.map ts).getD 0 else a.toNat

/-- The end of a range: a timestamp, 0 for "the same as the start", negative for "up to the last record". -/
def stopTs (ts : α → Nat) (l : List α) (a b : Int) : Nat :=
  if b < 0 then (l.getLast?.map ts).getD 0 else if b = 0 then startTs ts l a else b.toNat

/-- The records a range query should yield; with `ifprev` and no record exactly at the start also the last one before. -/
def rangeSpec (ts : α → Nat) (l : List α) (a b : Int) (ifprev : Bool) : List α :=
  let s := startTs ts l a
  let e := stopTs ts l a b
  (if ifprev ∧ recordsAt ts l s = [] then (recordsBefore ts l s).getLast?.toList else []) ++ recordsIn ts l s e

end Sis.Fmap
