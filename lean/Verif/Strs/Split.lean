import Verif.Strs.Args
/-
Model of `sis_sdssplitlen` (src/core/sis_sds.c:930-988), which splits bytes at a separator.
-/
namespace Sis.Split
open Sis

/-- `slots *= 2` on an `int` (src/core/sis_sds.c:950-960): `none` when it overflows. -/
def moreSlots (slots elements : Nat) : Option Nat :=
  if slots < elements + 2 then (if slots * 2 < 2 ^ 31 then some (slots * 2) else none) else some slots

/-- `tokens[elements] = …; elements++` (src/core/sis_sds.c:964-967, 973-976): `none` outside of the array of `slots` elements. -/
def push (toks : List Bytes) (slots : Nat) (b : Bytes) : Option (List Bytes) :=
  if toks.length < slots then some (toks ++ [b]) else none

/-- The loop (src/core/sis_sds.c:948-978), with as many turns as `fuel`: `none` when they do not suffice. -/
def splitLoop (s sep : Bytes) : Nat → Nat → Nat → Nat → List Bytes → Option (List Bytes)
  | 0, _, _, _, _ => none
  | fuel + 1, j, start, slots, toks =>
    if (j : Int) < s.length - ((sep.length : Int) - 1) then
      (moreSlots slots toks.length).bind fun slots =>
        if (s.drop j).take sep.length = sep then
          (push toks slots ((s.drop start).take (j - start))).bind fun toks => splitLoop s sep fuel (j + sep.length) (j + sep.length) slots toks
        else splitLoop s sep fuel (j + 1) start slots toks
    else push toks slots (s.drop start)

/-- What `sis_sdssplitlen` gives: nothing, or the strings. -/
inductive Res
  | null
  | toks (l : List Bytes)
deriving DecidableEq

/-- `sis_sdssplitlen` (src/core/sis_sds.c:930-988); memory is always given. -/
def splitLen (s sep : Bytes) : Option Res :=
  if sep.length < 1 then some .null
  else if s.length = 0 then some (.toks [])
  else (splitLoop s sep (s.length + 1) 0 0 5 []).map .toks

end Sis.Split
