import Verif.Strs.Sds
/-
Model of the calls of src/core/sis_sds.c that compare strings and change them byte by byte, on the memory of the strings.

`tolower` and `toupper` are those of the C locale; glibc leaves bytes from 128 on as they are, although they are negative.
-/
namespace Sis.Sds
open Sis

/-- The loop over the bytes of a string (src/core/sis_sds.c:875-876, 884-885, 1292-1302), `n` bytes from `j` on. -/
def mapLoop (f : UInt8 → Option UInt8) : Nat → Nat → Sds → Option Sds
  | 0, _, s => some s
  | n + 1, j, s =>
    match s.mem[j]? with
    | some (some c) => (f c).bind fun d => (poke s j [some d]).bind fun s => mapLoop f n (j + 1) s
    | _ => none

/-- `sis_sdstolower` (src/core/sis_sds.c:871-877). -/
def toLower (s : Sds) : Option Sds := mapLoop (fun c => some (if 65 ≤ c ∧ c ≤ 90 then c + 32 else c)) s.len 0 s

/-- `sis_sdstoupper` (src/core/sis_sds.c:880-886). -/
def toUpper (s : Sds) : Option Sds := mapLoop (fun c => some (if 97 ≤ c ∧ c ≤ 122 then c - 32 else c)) s.len 0 s

/-- The inner loop of `sis_sdsmapchars` (src/core/sis_sds.c:1294-1301), `n` bytes of `frm` from `i` on. -/
def mapChar (frm to : Bytes) (c : UInt8) : Nat → Nat → Option UInt8
  | 0, _ => some c
  | n + 1, i => frm[i]?.bind fun x => if c = x then to[i]? else mapChar frm to c n (i + 1)

/-- `sis_sdsmapchars` (src/core/sis_sds.c:1288-1304). -/
def mapChars (s : Sds) (frm to : Bytes) (setlen : Nat) : Option Sds := mapLoop (fun c => mapChar frm to c setlen 0) s.len 0 s

/-- `memcmp` of the C library; of its result only the sign is known. -/
def memcmp : List (Option UInt8) → List (Option UInt8) → Option Int
  | [], [] => some 0
  | some a :: l, some b :: m => if a < b then some (-1) else if b < a then some 1 else memcmp l m
  | _, _ => none

/-- `sis_sdscmp` (src/core/sis_sds.c:899-911). -/
def cmp (s t : Sds) : Option Int :=
  let n := if s.len < t.len then s.len else t.len
  (peek s n).bind fun a => (peek t n).bind fun b => (memcmp a b).map fun c =>
    if c = 0 then (if s.len > t.len then 1 else if s.len < t.len then -1 else 0) else c

end Sis.Sds
