import Verif.Strs.Json
/-
Model of `sis_shacalc` (src/core/sis_sha1.c): the digest of a text in Base64, as it is used for the handshake of websockets.
-/
namespace Sis.Sha
open Sis Json

/-- The array `w[80]` (src/core/sis_sha1.c:89). -/
abbrev Words := Nat → UInt32

/-- `unsigned int result[5]`, and the five words of `_inner_hash` (src/core/sis_sha1.c:31-35 and 87). -/
structure Five where
  a : UInt32
  b : UInt32
  c : UInt32
  d : UInt32
  e : UInt32
deriving DecidableEq, Repr

/-- `_rol` (src/core/sis_sha1.c:15-18). -/
def rol (value steps : UInt32) : UInt32 := (value <<< steps) ||| (value >>> (32 - steps))

/-- An assignment `w[i] = v` (src/core/sis_sha1.c:53). -/
def set (w : Words) (i : Nat) (v : UInt32) : Words := fun j => if j = i then v else w j

/-- `_clear_w_buffer` (src/core/sis_sha1.c:20-27): the first sixteen words. -/
def clear (w : Words) : Words := fun j => if j < 16 then 0 else w j

/-- The new word (src/core/sis_sha1.c:53, 59, 65 and 71). -/
def expand (w : Words) (round : Nat) : Words :=
  set w round (rol (w (round - 3) ^^^ w (round - 8) ^^^ w (round - 14) ^^^ w (round - 16)) 1)

/-- `sha1macro` (src/core/sis_sha1.c:37-45). -/
def mix (func val : UInt32) (w : Words) (round : Nat) (x : Five) : Five :=
  ⟨rol x.a 5 + func + x.e + val + w round, x.a, rol x.b 30, x.c, x.d⟩

/-- `n` rounds of one of the loops of `_inner_hash` (src/core/sis_sha1.c:46-74). -/
def rounds (ext : Bool) (func : UInt32 → UInt32 → UInt32 → UInt32) (val : UInt32) : Nat → Nat → Words × Five → Words × Five
  | 0, _, x => x
  | n + 1, round, x =>
    let w := if ext then expand x.1 round else x.1
    rounds ext func val n (round + 1) (w, mix (func x.2.b x.2.c x.2.d) val w round x.2)

/-- `_inner_hash` (src/core/sis_sha1.c:29-81). -/
def inner (r : Five) (w : Words) : Words × Five :=
  let f1 := fun b c d : UInt32 => (b &&& c) ||| (~~~b &&& d)
  let f2 := fun b c d : UInt32 => b ^^^ c ^^^ d
  let f3 := fun b c d : UInt32 => (b &&& c) ||| (b &&& d) ||| (c &&& d)
  let x := rounds false f1 0x5a827999 16 0 (w, r)
  let x := rounds true f1 0x5a827999 4 16 x
  let x := rounds true f2 0x6ed9eba1 20 20 x
  let x := rounds true f3 0x8f1bbcdc 20 40 x
  let x := rounds true f2 0xca62c1d6 20 60 x
  (x.1, ⟨r.a + x.2.a, r.b + x.2.b, r.c + x.2.c, r.d + x.2.d, r.e + x.2.e⟩)

/-- A byte of the text; it is only asked for places within it (src/core/sis_sha1.c:99-102 and 111). -/
def at' (s : Bytes) (i : Nat) : UInt32 := (s.getD i 0).toUInt32

/-- Sixteen words of a full block (src/core/sis_sha1.c:96-103). -/
def load (s : Bytes) (cur : Nat) : Nat → Words → Words
  | 0, w => w
  | n + 1, w =>
    let w := load s cur n w
    set w n (at' s (cur + 4 * n + 3) ||| (at' s (cur + 4 * n + 2) <<< 8) ||| (at' s (cur + 4 * n + 1) <<< 16) ||| (at' s (cur + 4 * n) <<< 24))

/-- The full blocks (src/core/sis_sha1.c:90-105), `n` of them at most. -/
def blocks (s : Bytes) : Nat → Nat → Words × Five → Nat × Words × Five
  | 0, cur, x => (cur, x)
  | n + 1, cur, x => if cur + 64 ≤ s.length then blocks s n (cur + 64) (inner x.2 (load s cur 16 x.1)) else (cur, x)

/-- `w[k >> 2] |= v << ((3 - (k & 3)) << 3)` (src/core/sis_sha1.c:111 and 113; the latter shifts an int into its sign, which the compiler allows). -/
def orByte (w : Words) (k : Nat) (v : UInt32) : Words := set w (k / 4) (w (k / 4) ||| (v <<< UInt32.ofNat ((3 - k % 4) * 8)))

/-- The bytes behind the full blocks (src/core/sis_sha1.c:106-112). -/
def tail (s : Bytes) (cur : Nat) : Nat → Words → Words
  | 0, w => w
  | n + 1, w => orByte (tail s cur n w) n (at' s (cur + n))

/-- The five words of a text (src/core/sis_sha1.c:83-120). -/
def result (junk : Words) (s : Bytes) : Five :=
  let n := s.length
  let (cur, w, r) := blocks s n 0 (junk, ⟨0x67452301, 0xefcdab89, 0x98badcfe, 0x10325476, 0xc3d2e1f0⟩)
  let rem := n - cur
  let w := orByte (tail s cur rem (clear w)) rem 0x80
  let (w, r) := if 56 ≤ rem then (clear (inner r w).1, (inner r w).2) else (w, r)
  (inner r (set w 15 (UInt32.ofNat (n * 8)))).2

/-- `result[k]` (src/core/sis_sha1.c:124). -/
def word (r : Five) : Nat → UInt32
  | 0 => r.a
  | 1 => r.b
  | 2 => r.c
  | 3 => r.d
  | _ => r.e

/-- The bytes `hash[20]` (src/core/sis_sha1.c:121-125). -/
def hashByte (r : Five) (k : Nat) : UInt8 := ((word r (k / 4) >>> UInt32.ofNat ((3 - k % 4) * 8)) &&& 0xff).toUInt8

/-- `_encoding_table` (src/core/sis_sha1.c:3-12). -/
def table : Bytes := "ABCDEFGHIJKLMNOPQRSTUVWXYZabcdefghijklmnopqrstuvwxyz0123456789+/".toUTF8.toList

/-- `_encoding_table[(triple >> k) & 0x3F]` (src/core/sis_sha1.c:133-136). -/
def sign (triple k : UInt32) : UInt8 := table.getD ((triple >>> k) &&& 0x3f).toNat 0

/-- The loop over the bytes (src/core/sis_sha1.c:126-137): three of them make four signs; what is missing is 0. -/
def encode : Bytes → Bytes
  | [] => []
  | a :: [] =>
    let t : UInt32 := (a.toUInt32 <<< 16) + ((0 : UInt32) <<< 8) + 0
    [sign t 18, sign t 12, sign t 6, sign t 0]
  | a :: b :: [] =>
    let t : UInt32 := (a.toUInt32 <<< 16) + (b.toUInt32 <<< 8) + 0
    [sign t 18, sign t 12, sign t 6, sign t 0]
  | a :: b :: c :: rest =>
    let t : UInt32 := (a.toUInt32 <<< 16) + (b.toUInt32 <<< 8) + c.toUInt32
    [sign t 18, sign t 12, sign t 6, sign t 0] ++ encode rest

/-- `sis_shacalc` (src/core/sis_sha1.c:83-141): the 28 signs that it writes; the last one is replaced by `=`.  `none`: the length in
bits does not fit into an int (line 119).  `junk`: the array before it is written. -/
def shacalc (junk : Words) (src : Bytes) : Option Bytes :=
  let s := cstrOf src
  if 2 ^ 28 ≤ s.length then none
  else some ((encode ((List.range 20).map (hashByte (result junk s)))).set 27 61)

end Sis.Sha
