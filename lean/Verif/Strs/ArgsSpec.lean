import Verif.Base.Bytes
/-
The ways of writing an argument of a command line, from the comment of `sis_sdssplitargs` (src/core/sis_sds.c:1103-1120):
`foo bar "newline are supported\n" and "\xff\x00otherstuff"`.
-/
namespace Sis.Args
open Sis

/-- A blank between arguments: space, tab, line feed, carriage return. -/
def Blank (c : UInt8) : Prop := c = 32 ∨ c = 9 ∨ c = 10 ∨ c = 13

/-- A plain word: not empty, no blank (nor vertical tab, nor form feed at its start), no quotes. -/
def Plain (x : Bytes) : Prop :=
  x ≠ [] ∧ (∀ c ∈ x, ¬ Blank c ∧ c ≠ 34 ∧ c ≠ 39) ∧ x.head? ≠ some 11 ∧ x.head? ≠ some 12

/-- `d` is the hexadecimal digit of the value `v`, in either case. -/
inductive Digit : UInt8 → Nat → Prop
  | dec (v) : v < 10 → Digit (UInt8.ofNat (48 + v)) v
  | lower (v) : v < 6 → Digit (UInt8.ofNat (97 + v)) (10 + v)
  | upper (v) : v < 6 → Digit (UInt8.ofNat (65 + v)) (10 + v)

/-- The second is a way of writing the byte inside double quotes. -/
inductive Coded : UInt8 → Bytes → Prop
  /-- as it is, unless it is a backslash or a double quote -/
  | lit (c) : c ≠ 92 → c ≠ 34 → Coded c [c]
  /-- behind a backslash, unless that means something else -/
  | same (c) : c ∉ ([110, 114, 116, 97, 98, 120] : Bytes) → Coded c [92, c]
  | lf : Coded 10 [92, 110]
  | cr : Coded 13 [92, 114]
  | tab : Coded 9 [92, 116]
  | bell : Coded 7 [92, 97]
  | backspace : Coded 8 [92, 98]
  /-- `\x` and two digits -/
  | hex (h l v w) : Digit h v → Digit l w → Coded (UInt8.ofNat (v * 16 + w)) [92, 120, h, l]

/-- `x` in double quotes: `cs` has each byte and the way it is written. -/
def inDouble (cs : List (UInt8 × Bytes)) : Bytes := [34] ++ cs.flatMap (·.2) ++ [34]

/-- `x` in single quotes: each single quote behind a backslash, everything else as it is. -/
def inSingle (x : Bytes) : Bytes := [39] ++ x.flatMap (fun c => if c = 39 then [92, 39] else [c]) ++ [39]

/-- The second is a way of writing the first. -/
inductive Written : Bytes → Bytes → Prop
  /-- in double quotes -/
  | double (cs : List (UInt8 × Bytes)) : (∀ p ∈ cs, Coded p.1 p.2) → Written (cs.map (·.1)) (inDouble cs)
  /-- in single quotes, if it does not end with a backslash -/
  | single (x) : x.getLast? ≠ some 92 → Written x (inSingle x)
  /-- as it is, if it is a plain word -/
  | plain (x) : Plain x → Written x x

end Sis.Args
