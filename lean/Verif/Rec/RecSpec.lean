import Verif.Rec.Rec
import Verif.Dyn.DynSpec
/-
What the texts of records are meant to be, independent of how they are made: numbers in decimal, texts in quotes, arrays in
brackets.
-/
namespace Sis.Rec
open Sis
open Sis.Dyn (Db Field St slot num)

/-- A number in decimal. -/
def dec (n : Nat) : Bytes :=
  if n < 10 then [UInt8.ofNat (48 + n)] else dec (n / 10) ++ [UInt8.ofNat (48 + n % 10)]
termination_by n
decreasing_by omega

/-- A whole number in decimal, with a sign if it is negative. -/
def decInt (v : Int) : Bytes := if v < 0 then 45 :: dec v.natAbs else dec v.toNat

/-- A value in a text: a whole number, a text, or the text of a floating point number. -/
inductive Val
  | num (v : Int)
  | text (s : Bytes)
  | raw (t : Bytes)
deriving DecidableEq, Repr

/-- How it is written. -/
def item : Val → Bytes
  | .num v => decInt v
  | .text s => 34 :: (s ++ [34])
  | .raw t => t

/-- Texts with commas between them. -/
def commas : List Bytes → Bytes
  | [] => []
  | [a] => a
  | a :: l => a ++ 44 :: commas l

/-- An array. -/
def arr (xs : List Bytes) : Bytes := 91 :: (commas xs ++ [93])

/-- An array of values. -/
def rowText (vs : List Val) : Bytes := arr (vs.map item)

/-- An array of arrays of values. -/
def rowsText (rows : List (List Val)) : Bytes := arr (rows.map rowText)

/-- A member of an object. -/
def memText (m : Bytes × Bytes) : Bytes := 34 :: (m.1 ++ 34 :: 58 :: m.2)

/-- An object. -/
def obj (ms : List (Bytes × Bytes)) : Bytes := 123 :: (commas (ms.map memText) ++ [125])

/-- An answer, with a name or without. -/
def answer : Option Bytes → Bytes → Bytes
  | some k, body => obj [(k, body)]
  | none, body => body

/-- The value an element of a record stands for. -/
def valOf (fl : Fl) (f : Field) (b : Bytes) : Val :=
  if f.style = .float ∨ f.style = .price then .raw (fl.toText f b)
  else if f.style = .char then .text (b.takeWhile (· ≠ 0))
  else .num (num f b)

/-- The values of record `r`, field by field and element by element. -/
def valsOf (fl : Fl) (fs : List Field) (size : Nat) (buf : Bytes) (r : Nat) : List Val :=
  fs.flatMap fun f => (List.range f.count).map fun e => valOf fl f (slot size buf r f e)

/-- A text without quotes, backslashes and control characters. -/
def PlainText (s : Bytes) : Prop := ∀ c ∈ s, 32 ≤ c ∧ c ≠ 34 ∧ c ≠ 92

/-- The text of a floating point number as `printf` gives it: digits, a point, perhaps a sign. -/
def FloatText (t : Bytes) : Prop :=
  (∃ c r, t = c :: r ∧ (c = 45 ∨ (48 ≤ c ∧ c ≤ 57))) ∧ ∀ c ∈ t, c = 45 ∨ c = 46 ∨ (48 ≤ c ∧ c ≤ 57)

/-- A value that can be written and read: a 64-bit number but for the smallest one, a plain text, the text of a floating point
number. -/
def Plain : Val → Prop
  | .num v => -2 ^ 63 < v ∧ v < 2 ^ 64
  | .text s => PlainText s
  | .raw t => FloatText t

/-- The field `f` of a table is one of whole numbers or times, of 1, 2, 4 or 8 bytes. -/
def Counts (f : Field) : Prop :=
  (f.style = .int ∨ f.style = .uint ∨ f.style = .tsec ∨ f.style = .msec ∨ f.style = .minu ∨ f.style = .date) ∧
  (f.len = 1 ∨ f.len = 2 ∨ f.len = 4 ∨ f.len = 8)

/-- A field whose values have a text: whole numbers and times, characters, and floating point numbers of 4 or 8 bytes. -/
def Texted (f : Field) : Prop := Counts f ∨ f.style = .char ∨ ((f.style = .float ∨ f.style = .price) ∧ (f.len = 4 ∨ f.len = 8))

/-- A value a field can keep: a number in its range that 64 bits with a sign hold, a plain text, the text of a floating point
number. -/
def Suits (fl : Fl) (f : Field) : Val → Prop
  | .num n => Counts f ∧ Dyn.Fits f n ∧ n < 2 ^ 63
  | .text s => f.style = .char ∧ PlainText s
  | .raw t => (f.style = .float ∨ f.style = .price) ∧ (f.len = 4 ∨ f.len = 8) ∧ FloatText t ∧ fl.ofText f t < 2 ^ (8 * f.len)

/-- The bytes of an element hold a value: the number itself, the text cut or filled with zeros to the length of the element,
the bits of the floating point number. -/
def Holds (fl : Fl) (f : Field) (b : Bytes) : Val → Prop
  | .num n => num f b = n
  | .text s => b = s.take f.len ++ List.replicate (f.len - s.length) 0
  | .raw t => leVal b = fl.ofText f t

/-- The name of element `e` of a field in an object. -/
def elemName (f : Field) (e : Nat) : Bytes := if 1 < f.count then f.fname ++ dec e else f.fname

/-- The value a list of names and values gives to a name: the first of that name, where upper and lower case are the same. -/
def look (ms : List (Bytes × Val)) (name : Bytes) : Option Val := (ms.find? fun m => m.1.map lower == name.map lower).map (·.2)

/-- The text of an object of values. -/
def objText (ms : List (Bytes × Val)) : Bytes := obj (ms.map fun m => (m.1, item m.2))

/-- An element whose text says all of it: a number 64 bits with a sign hold, but for the smallest one; a plain text with
nothing but zeros behind it; a floating point number whose text is read back as the same bits. -/
def Kept (fl : Fl) (f : Field) (b : Bytes) : Prop :=
  (Counts f ∧ -2 ^ 63 < num f b ∧ num f b < 2 ^ 63) ∨
  (f.style = .char ∧ ∃ s k, PlainText s ∧ b = s ++ List.replicate k 0) ∨
  ((f.style = .float ∨ f.style = .price) ∧ (f.len = 4 ∨ f.len = 8) ∧ FloatText (fl.toText f b) ∧ fl.ofText f (fl.toText f b) = leVal b)

/-- What a name in a query stands for: a field, of which the first element is meant; a field with a number behind a point; or
nothing. -/
inductive Means (db : Db) : Bytes → Option (Field × Nat) → Prop
  | field {n : Bytes} {f : Field} : Dyn.field db n = some f → Means db n (some (f, 0))
  | part {n : Bytes} {f : Field} {i : Nat} : Dyn.field db (n ++ 46 :: dec i) = none → Dyn.field db n = some f → i < f.count →
      (∀ c ∈ n, c ≠ 46) → n.length < 128 → Means db (n ++ 46 :: dec i) (some (f, i))
  | unknown {n : Bytes} : Dyn.field db n = none → (∀ c ∈ n, c ≠ 46) → n.length < 128 → Means db n none

/-- The fields of a table in order. -/
def FieldsAre (db : Db) (fs : List Field) : Prop := ∀ i, fs[i]? = Dyn.fieldAt db i

end Sis.Rec
