import Verif.Csv.Csv
import Verif.Rec.RecSpec
/-
What CSV texts are meant to be, independent of how they are made and read: lines, each with an end, of columns with a
separator between them.
-/
namespace Sis.Csv
open Sis
open Sis.Dyn (Db Field St slot num)
open Sis.Rec (Fl Val Counts decInt)

/-- Columns with a separator between them. -/
def join (sign : UInt8) : List Bytes → Bytes
  | [] => []
  | [a] => a
  | a :: l => a ++ sign :: join sign l

/-- A text of lines with the end `eol`. -/
def textOf (sign : UInt8) (eol : Bytes) (rows : List (List Bytes)) : Bytes := rows.flatMap fun r => join sign r ++ eol

/-- The two ends of a line. -/
def Eol (eol : Bytes) : Prop := eol = [10] ∨ eol = [13, 10]

/-- How a value is written in a column. -/
def shown : Val → Bytes
  | .num v => decInt v
  | .text s => s
  | .raw t => t

/-- An element that is shown as it is: a number but for the smallest of 64 bits, a text without line ends and with nothing but
zeros behind it, a floating point number of at most 14 bytes. -/
def Shows (fl : Fl) (f : Field) (b : Bytes) : Prop :=
  (Counts f ∧ -2 ^ 63 < num f b) ∨
  (f.style = .char ∧ ∃ s k, (∀ c ∈ s, c ≠ 0 ∧ c ≠ 10) ∧ b = s ++ List.replicate k 0) ∨
  ((f.style = .float ∨ f.style = .price) ∧ (f.len = 4 ∨ f.len = 8) ∧ (fl.toText f b).length ≤ 14 ∧ (10 : UInt8) ∉ fl.toText f b)

/-- The names of the columns of the fields. -/
def heads (fs : List Field) : List Bytes := fs.flatMap fun f => (List.range f.count).map (Rec.elemName f)

/-- A column that is read as it is: neither line ends nor zeros nor separators in it, and no blanks at its ends. -/
structure Clean (sign : UInt8) (s : Bytes) : Prop where
  plain : ∀ c ∈ s, c ≠ 0 ∧ c ≠ 10 ∧ c ≠ sign
  first : ∀ c, s.head? = some c → 32 < c
  last : ∀ c, s.getLast? = some c → 32 < c

/-- The columns of a line as they are in the text: the end of the line is part of the last one. -/
def ended (eol : Bytes) : List Bytes → List Bytes
  | [] => [eol]
  | [a] => [a ++ eol]
  | a :: l => a :: ended eol l

/-- The name is that of column `j` and no later one: upper and lower case are the same. -/
def Column (hs : List Bytes) (name : Bytes) (j : Nat) : Prop :=
  (∃ h, hs[j]? = some h ∧ h.map lower = name.map lower) ∧ ∀ k h, j < k → hs[k]? = some h → h.map lower ≠ name.map lower

end Sis.Csv
