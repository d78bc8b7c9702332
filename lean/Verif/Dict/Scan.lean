import Verif.Dict.Dict
/-
Model of going through a dictionary by a cursor, `sis_dict_scan` (src/core/sis_dict.c:1001-1087), and of `sis_dict_resize`.

The callback takes the entries and does not change the dictionary; no callback for chains is given.  A cursor is an unsigned
number of 64 bits.
-/
namespace Sis.Dict

variable {K V : Type}

/-- `sis_dict_resize` (src/core/sis_dict.c:272-281); resizing is always enabled. -/
def resize (d : Dict K V) : Dict K V × Bool := if d.ridx.isSome then (d, false) else expand d (max d.h0.used 4)

/-- One pass of the loop of `_dict_reverse` (src/core/sis_dict.c:910-913): `s` bits are exchanged with their neighbours. -/
def reverseStep (mv : BitVec 64 × BitVec 64) (s : Nat) : BitVec 64 × BitVec 64 :=
  let mask := mv.1 ^^^ (mv.1 <<< s)
  (mask, ((mv.2 >>> s) &&& mask) ||| ((mv.2 <<< s) &&& ~~~mask))

/-- `_dict_reverse` (src/core/sis_dict.c:907-915). -/
def reverse (v : BitVec 64) : BitVec 64 := ([32, 16, 8, 4, 2, 1].foldl reverseStep (~~~0, v)).2

/-- `sizemask` (src/core/sis_dict.h:39-44), 0 for no table. -/
def HT.mask (t : HT K V) : BitVec 64 := BitVec.ofNat 64 (t.table.length - 1)

/-- The chain at the cursor; `none`: outside the table (src/core/sis_dict.c:1023, 1054, 1066). -/
def HT.at (t : HT K V) (v : BitVec 64) : Option (List (K × V)) := t.table[(v &&& t.mask).toNat]?

/-- The cursor moved on (src/core/sis_dict.c:1032-1037, 1074-1077). -/
def bump (m v : BitVec 64) : BitVec 64 := reverse (reverse (v ||| ~~~m) + 1)

/-- The loop over the larger table (src/core/sis_dict.c:1063-1080), `n` bounding the passes. -/
def scanBig (m0 : BitVec 64) (t : HT K V) : Nat → BitVec 64 → Option (BitVec 64 × List (K × V))
  | 0, _ => none
  | n + 1, v =>
    (t.at v).bind fun c =>
      let v := bump t.mask v
      if v &&& (m0 ^^^ t.mask) ≠ 0 then (scanBig m0 t n v).map fun r => (r.1, c ++ r.2) else some (v, c)

/-- `sis_dict_scan` (src/core/sis_dict.c:1001-1087): the new cursor and the entries handed to the callback. -/
def scan (d : Dict K V) (v : BitVec 64) : Option (BitVec 64 × List (K × V)) :=
  if size d = 0 then some (0, [])
  else if d.ridx.isNone then (d.h0.at v).map fun c => (bump d.h0.mask v, c)
  else
    let t0 := if d.h0.table.length > d.h1.table.length then d.h1 else d.h0
    let t1 := if d.h0.table.length > d.h1.table.length then d.h0 else d.h1
    (t0.at v).bind fun c => (scanBig t0.mask t1 t1.table.length v).map fun r => (r.1, c ++ r.2)

end Sis.Dict
