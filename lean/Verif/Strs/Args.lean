import Verif.Strs.Num
/-
Model of the texts of arguments of src/core/sis_sds.c: `sis_sdscatrepr`, `sis_sdsjoinsds` and `sis_sdssplitargs`.

`isprint` and `isspace` are those of the C locale; glibc takes bytes from 128 on as it takes them as unsigned.  Memory does not
run out.
-/
namespace Sis.Args
open Sis

/-- `isprint` in the C locale (used in src/core/sis_sds.c:1034). -/
def isPrint (c : UInt8) : Bool := 32 ≤ c ∧ c ≤ 126

/-- `isspace` in the C locale (used in src/core/sis_sds.c:1133, 1190, 1216). -/
def isSpace (c : UInt8) : Bool := c = 32 ∨ (9 ≤ c ∧ c ≤ 13)

/-- A digit of `%02x` (used in src/core/sis_sds.c:1037). -/
def hexDigit (n : UInt8) : UInt8 := if n < 10 then 48 + n else 87 + n

/-- What is appended for one byte (src/core/sis_sds.c:1012-1039). -/
def escape (c : UInt8) : Bytes :=
  if c = 92 ∨ c = 34 then [92, c]
  else if c = 10 then [92, 110]
  else if c = 13 then [92, 114]
  else if c = 9 then [92, 116]
  else if c = 7 then [92, 97]
  else if c = 8 then [92, 98]
  else if isPrint c then [c]
  else [92, 120, hexDigit (c / 16), hexDigit (c % 16)]

/-- `sis_sdscatrepr` (src/core/sis_sds.c:1007-1043). -/
def catRepr (s p : Bytes) : Bytes := s ++ [34] ++ p.flatMap escape ++ [34]

/-- `sis_sdsjoinsds` (src/core/sis_sds.c:1323-1335). -/
def joinSds (sep : Bytes) : List Bytes → Bytes
  | [] => []
  | [a] => a
  | a :: b :: l => a ++ sep ++ joinSds sep (b :: l)

/-- `is_hex_digit` (src/core/sis_sds.c:1047-1051). -/
def isHex (c : UInt8) : Bool := (48 ≤ c ∧ c ≤ 57) ∨ (97 ≤ c ∧ c ≤ 102) ∨ (65 ≤ c ∧ c ≤ 70)

/-- `hex_digit_to_int` (src/core/sis_sds.c:1055-1100). -/
def hexVal (c : UInt8) : UInt8 :=
  if 48 ≤ c ∧ c ≤ 57 then c - 48 else if 97 ≤ c ∧ c ≤ 102 then c - 87 else if 65 ≤ c ∧ c ≤ 70 then c - 55 else 0

/-- What a byte behind a backslash stands for (src/core/sis_sds.c:1164-1184). -/
def unescape (c : UInt8) : UInt8 :=
  if c = 110 then 10 else if c = 114 then 13 else if c = 116 then 9 else if c = 98 then 8 else if c = 97 then 7 else c

/-- `inq` and `insq` (src/core/sis_sds.c:1138-1139). -/
inductive Mode | plain | quoted | single
deriving DecidableEq

/-- A closing quote must be followed by a space or nothing (src/core/sis_sds.c:1188-1193, 1214-1219). -/
def closed (acc r : Bytes) : Option (Bytes × Bytes) :=
  match r with
  | [] => some (acc, [])
  | c :: _ => if isSpace c then some (acc, r) else none

/-- The loop over the bytes of one argument (src/core/sis_sds.c:1144-1254): the argument, and what is behind it; `none` for
quotes that are not closed or not followed by a space.  The end of the list is the zero at the end of the line. -/
def token : Mode → Bytes → Bytes → Option (Bytes × Bytes)
  | .quoted, _, [] => none
  | .quoted, acc, [c] => if c = 34 then closed acc [] else token .quoted (acc ++ [c]) []
  | .quoted, acc, [c, x] =>
    if c = 92 then token .quoted (acc ++ [unescape x]) []
    else if c = 34 then closed acc [x]
    else token .quoted (acc ++ [c]) [x]
  | .quoted, acc, [c, x, a] =>
    if c = 92 then token .quoted (acc ++ [unescape x]) [a]
    else if c = 34 then closed acc [x, a]
    else token .quoted (acc ++ [c]) [x, a]
  | .quoted, acc, c :: x :: a :: b :: r =>
    if c = 92 ∧ x = 120 ∧ isHex a ∧ isHex b then token .quoted (acc ++ [hexVal a * 16 + hexVal b]) r
    else if c = 92 then token .quoted (acc ++ [unescape x]) (a :: b :: r)
    else if c = 34 then closed acc (x :: a :: b :: r)
    else token .quoted (acc ++ [c]) (x :: a :: b :: r)
  | .single, _, [] => none
  | .single, acc, [c] => if c = 39 then closed acc [] else token .single (acc ++ [c]) []
  | .single, acc, c :: x :: s =>
    if c = 92 ∧ x = 39 then token .single (acc ++ [39]) s
    else if c = 39 then closed acc (x :: s)
    else token .single (acc ++ [c]) (x :: s)
  | .plain, acc, [] => some (acc, [])
  | .plain, acc, c :: s =>
    if c = 32 ∨ c = 10 ∨ c = 13 ∨ c = 9 then some (acc, s)
    else if c = 34 then token .quoted acc s
    else if c = 39 then token .single acc s
    else token .plain (acc ++ [c]) s
termination_by structural _ _ s => s

/-- The loop over the arguments (src/core/sis_sds.c:1129-1267); each takes at least one byte, so that `n` steps are enough. -/
def args : Nat → Bytes → Option (List Bytes)
  | 0, _ => none
  | n + 1, s =>
    match s.dropWhile isSpace with
    | [] => some []
    | c :: r => (token .plain [] (c :: r)).bind fun t => (args n t.2).map fun l => t.1 :: l

/-- `sis_sdssplitargs` (src/core/sis_sds.c:1122-1277) of a line without a zero in it; `none` is NULL. -/
def splitArgs (s : Bytes) : Option (List Bytes) := args (s.length + 1) s

end Sis.Args
