import Verif.Base.Bytes
/-
Specification: SHA-1 as in FIPS 180-4 (sections 2.2, 4.1.1, 4.2.1, 5.1.1, 5.2.1, 5.3.1 and 6.1.2) and Base64 as in RFC 4648 (section 4).
-/
namespace Sis.ShaSpec
open Sis

/-- ROTL^n (section 2.2.2). -/
def rotl (n : UInt32) (x : UInt32) : UInt32 := (x <<< n) ||| (x >>> (32 - n))

def ch (x y z : UInt32) : UInt32 := (x &&& y) ^^^ (~~~x &&& z)
def parity (x y z : UInt32) : UInt32 := x ^^^ y ^^^ z
def maj (x y z : UInt32) : UInt32 := (x &&& y) ^^^ (x &&& z) ^^^ (y &&& z)

/-- The functions (section 4.1.1). -/
def f (t : Nat) : UInt32 → UInt32 → UInt32 → UInt32 :=
  if t < 20 then ch else if t < 40 then parity else if t < 60 then maj else parity

/-- The constants (section 4.2.1). -/
def K (t : Nat) : UInt32 :=
  if t < 20 then 0x5a827999 else if t < 40 then 0x6ed9eba1 else if t < 60 then 0x8f1bbcdc else 0xca62c1d6

/-- The message schedule of a block of sixteen words: the first `16 + n` words (section 6.1.2, step 1). -/
def schedule (block : List UInt32) : Nat → List UInt32
  | 0 => block
  | n + 1 =>
    let W := schedule block n
    W ++ [rotl 1 (W.getD (n + 13) 0 ^^^ W.getD (n + 8) 0 ^^^ W.getD (n + 2) 0 ^^^ W.getD n 0)]

/-- The five words. -/
structure Hash where
  a : UInt32
  b : UInt32
  c : UInt32
  d : UInt32
  e : UInt32
deriving DecidableEq, Repr

/-- Round `t` (section 6.1.2, step 3). -/
def round (W : List UInt32) (h : Hash) (t : Nat) : Hash :=
  ⟨rotl 5 h.a + f t h.b h.c h.d + h.e + K t + W.getD t 0, h.a, rotl 30 h.b, h.c, h.d⟩

/-- One block (section 6.1.2). -/
def compress (h : Hash) (block : List UInt32) : Hash :=
  let x := (List.range 80).foldl (round (schedule block 64)) h
  ⟨x.a + h.a, x.b + h.b, x.c + h.c, x.d + h.d, x.e + h.e⟩

/-- A number in `k` bytes, the highest first. -/
def be : Nat → Nat → Bytes
  | 0, _ => []
  | k + 1, n => be k (n / 256) ++ [UInt8.ofNat (n % 256)]

/-- The padded message (section 5.1.1): a one, zeros up to 448 bits modulo 512, and the length in bits in 64 bits. -/
def padded (m : Bytes) : Bytes := m ++ [0x80] ++ List.replicate ((119 - m.length % 64) % 64) 0 ++ be 8 (8 * m.length)

/-- Words of four bytes, the highest first. -/
def words : Bytes → List UInt32
  | a :: b :: c :: d :: r => UInt32.ofNat (((a.toNat * 256 + b.toNat) * 256 + c.toNat) * 256 + d.toNat) :: words r
  | _ => []

/-- Blocks of sixteen words (section 5.2.1). -/
def blocks : Nat → List UInt32 → List (List UInt32)
  | 0, _ => []
  | n + 1, ws => ws.take 16 :: blocks n (ws.drop 16)

/-- The bytes of a word. -/
def bytesOf (x : UInt32) : Bytes := be 4 x.toNat

/-- SHA-1 (section 6.1). -/
def sha1 (m : Bytes) : Bytes :=
  let h := (blocks ((padded m).length / 64) (words (padded m))).foldl compress
    ⟨0x67452301, 0xefcdab89, 0x98badcfe, 0x10325476, 0xc3d2e1f0⟩
  bytesOf h.a ++ bytesOf h.b ++ bytesOf h.c ++ bytesOf h.d ++ bytesOf h.e

/-- The alphabet (RFC 4648, table 1). -/
def alphabet : Bytes := "ABCDEFGHIJKLMNOPQRSTUVWXYZabcdefghijklmnopqrstuvwxyz0123456789+/".toUTF8.toList

def letter (n : Nat) : UInt8 := alphabet.getD n 0

/-- Base64 (RFC 4648, section 4). -/
def base64 : Bytes → Bytes
  | [] => []
  | [a] => [letter (a.toNat / 4), letter (a.toNat % 4 * 16), 61, 61]
  | [a, b] => [letter (a.toNat / 4), letter (a.toNat % 4 * 16 + b.toNat / 16), letter (b.toNat % 16 * 4), 61]
  | a :: b :: c :: r =>
    [letter (a.toNat / 4), letter (a.toNat % 4 * 16 + b.toNat / 16), letter (b.toNat % 16 * 4 + c.toNat / 64), letter (c.toNat % 64)] ++
      base64 r

end Sis.ShaSpec
