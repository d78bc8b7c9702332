import Verif.Strs.SdsFmt
import Verif.Rec.RecSpec
/-
What a format stands for, from the comment of `sis_sdscatfmt` (src/core/sis_sds.c:663-681).
-/
namespace Sis.Sds
open Sis

/-- A piece of a format. -/
inductive Piece
  /-- a byte that is not `%` -/
  | byte (c : UInt8)
  /-- `%` and a byte that is no letter of an argument, such as `%%` -/
  | percent (c : UInt8)
  /-- an argument -/
  | arg (a : Arg)

/-- The letter of an argument. -/
def letter : Arg → UInt8
  | .text _ => 115 | .sds _ => 83 | .int _ => 105 | .long _ => 73 | .uint _ => 117 | .ulong _ => 85

/-- The format. -/
def format : List Piece → Bytes
  | [] => []
  | .byte c :: l => c :: format l
  | .percent c :: l => 37 :: c :: format l
  | .arg a :: l => 37 :: letter a :: format l

/-- The arguments. -/
def arguments : List Piece → List Arg
  | [] => []
  | .arg a :: l => a :: arguments l
  | _ :: l => arguments l

/-- The text of an argument. -/
def shown : Arg → Bytes
  | .text b => b
  | .sds b => b
  | .int v => Rec.decInt v
  | .long v => Rec.decInt v
  | .uint v => Rec.dec v
  | .ulong v => Rec.dec v

/-- What is appended. -/
def output : List Piece → Bytes
  | [] => []
  | .byte c :: l => c :: output l
  | .percent c :: l => c :: output l
  | .arg a :: l => shown a ++ output l

/-- A piece as it may be: numbers are those of their types, but the smallest `long long`. -/
def Proper : Piece → Prop
  | .byte c => c ≠ 37 ∧ c ≠ 0
  | .percent c => c ∉ ([115, 83, 105, 73, 117, 85, 0] : Bytes)
  | .arg (.text b) => 0 ∉ b
  | .arg (.sds _) => True
  | .arg (.int v) => -2 ^ 31 ≤ v ∧ v < 2 ^ 31
  | .arg (.long v) => -2 ^ 63 < v ∧ v < 2 ^ 63
  | .arg (.uint v) => v < 2 ^ 32
  | .arg (.ulong v) => v < 2 ^ 64

end Sis.Sds
