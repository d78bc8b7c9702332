import Verif.Strs.Sds
import Verif.Csv.Csv
/-
Model of `sis_sdscatfmt` (src/core/sis_sds.c:682-778), which appends a text with arguments to a string, on the memory of the string.
-/
namespace Sis.Sds
open Sis

/-- An argument with its type in C (src/core/sis_sds.c:667-680): a text, a string, `int`, `long long` and the unsigned ones. -/
inductive Arg
  | text (b : Bytes)
  | sds (b : Bytes)
  | int (v : Int)
  | long (v : Int)
  | uint (v : Nat)
  | ulong (v : Nat)

/-- `sis_sdsinclen` (src/core/sis_sds.h:140-164). -/
def incLen (s : Sds) (n : Nat) : Sds := { s with len := (s.len + n) % cap s.typ }

/-- Bytes put at `i` (src/core/sis_sds.c:715-721, 733-739, 751-757). -/
def putAt (s : Sds) (i : Nat) (b : Bytes) : Option Sds :=
  (if avail s < b.length then addLen s b.length else some s).bind fun s => (poke s i (b.map some)).map fun s => incLen s b.length

/-- The text of a number in its buffer of 21 bytes (src/core/sis_sds.c:512, 731-732, 749-750). -/
def buffered (t : Option Bytes) : Option Bytes := t.bind fun t => if t.length + 1 ≤ 21 then some t else none

/-- What the letter behind `%` and the argument stand for (src/core/sis_sds.c:710-750); `none`: an argument of another type. -/
def argText (k : UInt8) : Arg → Option Bytes
  | .text b => if k = 115 then some b else none
  | .sds b => if k = 83 then some b else none
  | .int v => if k = 105 then buffered (Csv.ll2str v) else none
  | .long v => if k = 73 then buffered (Csv.ll2str v) else none
  | .uint v => if k = 117 then buffered (some (Csv.ull2str v)) else none
  | .ulong v => if k = 85 then buffered (some (Csv.ull2str v)) else none

/-- The loop over the format (src/core/sis_sds.c:692-777); `none` also for a missing argument and for a format that ends with `%`,
behind whose end it is read on. -/
def fmtLoop : Bytes → Sds → Nat → List Arg → Option Sds
  | [], s, i, _ => poke s i [some 0]
  | [c], s, i, _ =>
    if c = 37 then none
    else
      (if avail s = 0 then addLen s 1 else some s).bind fun s =>
        (poke s i [some c]).bind fun s => fmtLoop [] (incLen s 1) (i + 1) []
  | c :: k :: f, s, i, as =>
    (if avail s = 0 then addLen s 1 else some s).bind fun s =>
      if c = 37 then
        if k ∈ ([115, 83, 105, 73, 117, 85] : Bytes) then
          match as with
          | [] => none
          | a :: as => (argText k a).bind fun b => (putAt s i b).bind fun s => fmtLoop f s (i + b.length) as
        else (poke s i [some k]).bind fun s => fmtLoop f (incLen s 1) (i + 1) as
      else (poke s i [some c]).bind fun s => fmtLoop (k :: f) (incLen s 1) (i + 1) as

/-- `sis_sdscatfmt` (src/core/sis_sds.c:682-778). -/
def catFmt (s : Sds) (fmt : Bytes) (as : List Arg) : Option Sds := fmtLoop fmt s s.len as

end Sis.Sds
