import Verif.Bits.Codec
import Verif.Dyn.Dynamic
/-
Model of the incremental compression of records (src/core/zip/sis_incrzip.c, src/core/zip/sis_incrzip.h), on top of the bit
stream and its number and text codes (Verif/Bits) and of table definitions (Verif/Dyn).

Reading or writing outside of a buffer, the use of a NULL or freed pointer and sizes at which an `int` or a `uint32` overflows
are the outcome `none`.  Left out: floating point fields (also `none`) and log messages.  Memory that was not written before is a
parameter: a program must work for any content of it.
-/
namespace Sis.Zip
open Sis Sis.BitS

/-- `s_sis_incrzip_dbinfo` (src/core/zip/sis_incrzip.h:36-40). -/
structure Tab where
  db : Dyn.Db
  offset : Nat
  fnums : Nat
deriving DecidableEq, Repr

/-- `s_sis_incrzip_class` (src/core/zip/sis_incrzip.h:50-74).  `s` and `max` are the linked bit stream, whose buffer is `zip_memory`
while compressing stepwise. -/
structure Z where
  status : Nat
  tabs : List Tab
  sum : Nat
  maxdb : Nat
  keys : Nat
  s : BitS
  max : Nat
  mem : Bytes
  init : Nat
  zsize : Nat
  bags : Nat
  bagsize : Nat
  unz : Bytes
deriving DecidableEq, Repr

/-- `sis_incrzip_class_create` (src/core/zip/sis_incrzip.c:8-17). -/
def create : Z := ⟨0, [], 0, 0, 1, ⟨[], 0⟩, 0, [], 0, 0, 0, 0, []⟩

/-- `sis_incrzip_class_clear` (src/core/zip/sis_incrzip.c:49-73). -/
def clear (z : Z) : Z := { z with zsize := 0, bags := 0, bagsize := 0, s := ⟨[], 0⟩, max := 0, mem := [], tabs := [], sum := 0, maxdb := 0, keys := 1, status := 0 }

/-- `sis_incrzip_set_key` (src/core/zip/sis_incrzip.c:74-79). -/
def setKey (z : Z) (maxkeys : Int) : Int × Z :=
  let k := if maxkeys < 1 then 1 else maxkeys.toNat
  (k, { z with keys := k, status := z.status ||| 1 })

/-- `sis_incrzip_set_sdb` (src/core/zip/sis_incrzip.c:80-91). -/
def setSdb (z : Z) (db : Dyn.Db) : Option (Int × Z) :=
  if z.sum + db.size + 1 < 2 ^ 32 then
    some (z.tabs.length, { z with tabs := z.tabs ++ [⟨db, z.sum, db.fields.length % 2 ^ 16⟩], sum := z.sum + db.size + 1, maxdb := Nat.max z.maxdb db.size, status := z.status ||| 2 })
  else none

/-- `sis_incrzip_getsize` (src/core/zip/sis_incrzip.c:93-96) with `sis_bits_stream_getbytes` (src/core/zip/sis_bits.h:108-111). -/
def getSize (z : Z) : Nat := (z.s.pos + 7) / 8 + z.bagsize

/-- `sis_bits_stream_moveto` (src/core/zip/sis_bits.h:114-119), for a position that is not negative. -/
def moveTo (s : BitS) (max p : Nat) : BitS := ⟨s.buf, if p > max then max else p⟩

/-- `sis_incrzip_set_bags` (src/core/zip/sis_incrzip.c:98-125): the stream and the bytes of the number. -/
def setBags (s : BitS) (max bags : Nat) : Option (BitS × Nat) :=
  let off := (8 - s.pos % 8) % 8
  let s1 := if off ≠ 0 then moveTo s max (s.pos + off) else s
  if bags ≤ 250 ∧ bags > 0 then (putAll s1 [(bags, 8)]).map fun s2 => (moveTo s2 max s.pos, 1)
  else if bags ≤ 0xFFFF then (putAll s1 [(bags, 16), (251, 8)]).map fun s2 => (moveTo s2 max s.pos, 3)
  else (putAll s1 [(bags, 32), (252, 8)]).map fun s2 => (moveTo s2 max s.pos, 5)

/-- `_sis_incrzip_get_curmem` (src/core/zip/sis_incrzip.c:126-133), for a key that is not negative: where the flag and the last record
of a key and a table are; `none` is NULL. -/
def curMem (z : Z) (k : Nat) (t : Tab) : Option Nat := if k < z.keys then some (k * z.sum + t.offset) else none

/-- One pass of the loop of `_sis_incrzip_compress_one` (src/core/zip/sis_incrzip.c:243-288): the calls that write element `j` of the
record at `sb`, given the one before at `mb`. -/
def elemCalls (f : Dyn.Field) (mem : Bytes) (mb : Nat) (src : Bytes) (sb j : Nat) : Option (List (Nat × Nat)) :=
  match f.style with
  | .int => (Dyn.getInt f src sb j).bind fun a => (Dyn.getInt f mem mb j).map fun b => incrIntCalls a b
  | .tsec | .msec | .minu | .date | .uint | .price =>
    (Dyn.getUint f src sb j).bind fun a => (Dyn.getUint f mem mb j).map fun b => incrIntCalls (ofPat64 a) (ofPat64 b)
  | .float => none
  | .char =>
    (Dyn.elem src (sb + f.offset + j * f.len) f.len).bind fun a =>
    (Dyn.elem mem (mb + f.offset + j * f.len) f.len).bind fun b => incrCharsCalls a (some b)
  | .wsec => some []

/-- The loop over the fields of a record (src/core/zip/sis_incrzip.c:306-310).  Nothing that is read is written in it. -/
def recCalls (t : Tab) (mem : Bytes) (mb : Nat) (src : Bytes) (sb : Nat) : Option (List (Nat × Nat)) :=
  Dyn.collect ((List.range t.fnums).map fun i => (Dyn.fieldAt t.db i).bind fun f =>
    Dyn.collect ((List.range f.count).map fun j => elemCalls f mem mb src sb j))

/-- The loop over the records of `_incrzip_compress` (src/core/zip/sis_incrzip.c:304-314): `n` records from record `k` on; `b` is where
the flag of the key and table is. -/
def encRecs (t : Tab) (b : Nat) (src : Bytes) : Nat → Nat → Bytes → BitS → Option (Bytes × BitS)
  | 0, _, mem, s => some (mem, s)
  | n + 1, k, mem, s =>
    (recCalls t mem (b + 1) src (k * t.db.size)).bind fun cs =>
    (putAll s cs).bind fun s =>
    (Dyn.elem src (k * t.db.size) t.db.size).bind fun r =>
    (Dyn.put mem (b + 1) (0, r)).bind fun mem =>
    (Dyn.put mem b (0, [1])).bind fun mem => encRecs t b src n (k + 1) mem s

/-- The calls for the head of a bag (src/core/zip/sis_incrzip.c:293-302). -/
def headCalls (init flag k s n : Nat) : List (Nat × Nat) :=
  (if init = 1 ∨ init = 0 then [(init, 1)] else []) ++ ((if flag = 0 then 0 else 1, 1) :: (uintCalls k ++ uintCalls s ++ uintCalls n))

/-- `_incrzip_compress` (src/core/zip/sis_incrzip.c:290-317). -/
def bag (z : Z) (b k sidx n : Nat) (t : Tab) (src : Bytes) : Option Z :=
  z.mem[b]?.bind fun flag =>
  (putAll z.s (headCalls z.init flag.toNat k sidx n)).bind fun s =>
  (encRecs t b src n 0 z.mem s).bind fun (mem, s) =>
  (setBags s z.max (z.bags + 1)).map fun (s, w) =>
  { z with s := s, mem := mem, init := if z.init = 1 ∨ z.init = 0 then 2 else z.init, bags := z.bags + 1, bagsize := w }

/-- `sis_memory_set_maxsize` (src/core/sis_memory.c:411-432) on an empty memory whose buffer is `m`; `fresh` is what `malloc` returns. -/
def setMax (m fresh : Bytes) (len : Nat) : Option Bytes :=
  if len > m.length then if fresh.length = len + 256 then some fresh else none else some m

/-- `sis_incrzip_compress` (src/core/zip/sis_incrzip.c:318-356) into a memory that is there: what it returns and the bytes. -/
def compress (z : Z) (src m fresh : Bytes) : Option (Int × Bytes × Z) :=
  match z.tabs[0]? with
  | none => some (-2, [], z)
  | some t =>
    let z := { z with bagsize := 0, bags := 0, mem := List.replicate (z.keys * z.sum) 0 }
    if z.keys * z.sum ≥ 2 ^ 32 then none
    else match curMem z 0 t with
    | none => some (-3, [], z)
    | some b =>
      if src.length % t.db.size ≠ 0 then some (-4, [], z)
      else if (src.length + 256) * 8 ≥ 2 ^ 31 then none
      else
        (setMax m fresh (src.length + 256)).bind fun buf =>
        (bag { z with s := ⟨buf, 0⟩, max := (src.length + 256) * 8, init := 1 } b 0 0 (src.length / t.db.size) t src).bind fun z =>
        if getSize z ≤ buf.length then
          some (z.bags, z.s.buf.take (getSize z), { z with s := ⟨[], 0⟩, max := 0, mem := [] })
        else none

/-- `sis_incrzip_compress_start` (src/core/zip/sis_incrzip.c:137-159) with a function to call. -/
def start (z : Z) (maxsize : Int) : Option (Int × Z) :=
  if z.status ≠ 3 then some (-1, z)
  else
    let zsize := if maxsize < 16384 then 16384 else maxsize.toNat
    if (zsize + z.maxdb + 256) * 8 ≥ 2 ^ 31 ∨ z.keys * z.sum ≥ 2 ^ 32 then none
    else some (0, { z with zsize := zsize, mem := List.replicate (z.keys * z.sum) 0, s := ⟨List.replicate (zsize + z.maxdb + 256) 0, 0⟩, max := zsize * 8, init := 1, status := 7 })

/-- The block handed to the function given to `sis_incrzip_compress_start`: the first `n` bytes of the buffer (src/core/zip/sis_incrzip.c:137-232). -/
def block (z : Z) (n : Nat) : Option Bytes := if n ≤ z.s.buf.length then some (z.s.buf.take n) else none

/-- `_incrzip_compress_next` (src/core/zip/sis_incrzip.c:181-186). -/
def next (z : Z) : Z := { z with bagsize := 0, bags := 0, s := ⟨z.s.buf, 0⟩, max := z.zsize * 8 }

/-- `sis_incrzip_compress_addkey` (src/core/zip/sis_incrzip.c:160-178) for a number that is not negative. -/
def addKey (z : Z) (n : Nat) : Option (Int × Z) :=
  if (z.keys + n) * z.sum ≥ 2 ^ 32 ∨ z.keys + n ≥ 2 ^ 31 then none
  else if z.status = 7 then some ((z.keys + n : Nat), { z with mem := z.mem.take (z.keys * z.sum) ++ List.replicate (n * z.sum) 0, keys := z.keys + n })
  else if z.status = 3 then some ((z.keys + n : Nat), { z with keys := z.keys + n })
  else some ((z.keys : Nat), z)

/-- `sis_incrzip_compress_restart` (src/core/zip/sis_incrzip.c:188-212): the blocks handed on. -/
def restart (z : Z) (init : Bool) : Option (List Bytes × Z) :=
  if z.status ≠ 7 then some ([], z)
  else
    let r := if getSize z > 0 then (block z (getSize z)).map fun b => ([b], if init then next z else { next z with init := 0 }) else some ([], z)
    r.map fun (bs, z) => (bs, if init then { z with init := 1, mem := List.replicate (z.keys * z.sum) 0 } else z)

/-- `sis_incrzip_compress_stop` (src/core/zip/sis_incrzip.c:214-232). -/
def stop (z : Z) : Option (List Bytes × Z) :=
  if z.status ≠ 7 then some ([], z)
  else
    let r := if getSize z > 0 then (block z (getSize z)).map fun b => [b] else some []
    r.map fun bs => (bs, { z with s := ⟨[], 0⟩, max := 0, mem := [], status := 0 })

/-- `sis_incrzip_compress_step` (src/core/zip/sis_incrzip.c:359-401): what it returns and the blocks handed on.  A key that is
negative and below the number of keys points outside of the memory. -/
def step (z : Z) (k sidx : Int) (src : Bytes) : Option (Int × List Bytes × Z) :=
  if z.status ≠ 7 then some (-1, [], z)
  else match (if sidx < 0 then none else z.tabs[sidx.toNat]?) with
  | none => some (-2, [], z)
  | some t =>
    if k < 0 then none
    else match curMem z k.toNat t with
    | none => some (-3, [], z)
    | some b =>
      if src.length % t.db.size ≠ 0 then some (-4, [], z)
      else
        let count := src.length / t.db.size
        let newsize := src.length + count * 8 + 256
        if newsize ≥ 2 ^ 31 then none
        else if newsize > z.zsize then some (-5, [], z)
        else
          let r := if getSize z + newsize > z.zsize then (block z (getSize z)).map fun b => ([b], { next z with init := 0 }) else some ([], z)
          r.bind fun (bs, z) => (bag z b k.toNat sidx.toNat count t src).map fun z => (z.bags, bs, z)

/-- `sis_incrzip_isinit` (src/core/zip/sis_incrzip.c:234-241). -/
def isInit (b : Bytes) : Bool := match b[0]? with
  | none => false
  | some x => decide (x.toNat &&& 0x80 ≠ 0)

/-- `sis_incrzip_get_bags` (src/core/zip/sis_incrzip.c:408-431) on a block; the number is an `int`. -/
def getBags (blk : Bytes) : Option Int :=
  let max := 8 * blk.length
  (get ⟨blk, max - 8⟩ 8).bind fun (c, _) =>
  if c ≤ 250 then some c
  else if c = 251 then (get ⟨blk, max - 24⟩ 16).map fun (n, _) => (n : Int)
  else (get ⟨blk, max - 40⟩ 32).map fun (n, _) => Dyn.signed 4 n

/-- The number before, of an element of a signed field (src/core/zip/sis_incrzip.c:475). -/
def agoInt (f : Dyn.Field) (mem : Option (Bytes × Nat)) (j : Nat) : Option Int := match mem with
  | none => some 0
  | some (m, mb) => Dyn.getInt f m mb j

/-- The number before, of an element of an unsigned field (src/core/zip/sis_incrzip.c:487). -/
def agoUint (f : Dyn.Field) (mem : Option (Bytes × Nat)) (j : Nat) : Option Nat := match mem with
  | none => some 0
  | some (m, mb) => Dyn.getUint f m mb j

/-- The text of an element (src/core/zip/sis_incrzip.c:500-510). -/
def decChars (f : Dyn.Field) (mem : Option (Bytes × Nat)) (j : Nat) (cur : Bytes) (s : BitS) : Option ((Nat × Bytes) × BitS) := match mem with
  | none => getChars s cur
  | some (m, mb) => (Dyn.elem m (mb + f.offset + j * f.len) f.len).bind fun ago => getIncrChars s cur ago

/-- One pass of the loop of `_sis_incrzip_uncompress_one` (src/core/zip/sis_incrzip.c:464-517): element `j` of a field of the record at
`ob`, given the one before. -/
def decElem (f : Dyn.Field) (mem : Option (Bytes × Nat)) (ob j : Nat) (out : Bytes) (s : BitS) : Option (Bytes × BitS) :=
  match f.style with
  | .int =>
    (agoInt f mem j).bind fun ago =>
    (getIncrInt s ago).bind fun (v, s) => (Dyn.puts out ob (Dyn.setNum f 0 (Time.u64 v) j)).map fun out => (out, s)
  | .tsec | .msec | .minu | .date | .uint | .price =>
    (agoUint f mem j).bind fun ago =>
    (getIncrInt s (ofPat64 ago)).bind fun (v, s) => (Dyn.puts out ob (Dyn.setNum f 0 (Time.u64 v) j)).map fun out => (out, s)
  | .float => none
  | .char =>
    (Dyn.elem out (ob + f.offset + j * f.len) f.len).bind fun cur =>
    (decChars f mem j cur s).bind fun ((_, e), s) =>
    (Dyn.put out ob (f.offset + j * f.len, e)).map fun out => (out, s)
  | .wsec => some (out, s)

/-- The loop over the `n` elements of a field from element `j` on (src/core/zip/sis_incrzip.c:468). -/
def decElems (f : Dyn.Field) (mem : Option (Bytes × Nat)) (ob : Nat) : Nat → Nat → Bytes → BitS → Option (Bytes × BitS)
  | 0, _, out, s => some (out, s)
  | n + 1, j, out, s => (decElem f mem ob j out s).bind fun (out, s) => decElems f mem ob n (j + 1) out s

/-- The loop over the fields of a record (src/core/zip/sis_incrzip.c:561-565, 623-628): `n` fields from field `i` on. -/
def decRec (t : Tab) (mem : Option (Bytes × Nat)) (ob : Nat) : Nat → Nat → Bytes → BitS → Option (Bytes × BitS)
  | 0, _, out, s => some (out, s)
  | n + 1, i, out, s => (Dyn.fieldAt t.db i).bind fun f => (decElems f mem ob f.count 0 out s).bind fun (out, s) => decRec t mem ob n (i + 1) out s

/-- The loop over the records of `sis_incrzip_uncompress` (src/core/zip/sis_incrzip.c:559-568): `n` records from record `k` on. -/
def decAll (t : Tab) : Nat → Nat → Option Bytes → Bytes → BitS → Option (Bytes × BitS)
  | 0, _, _, out, s => some (out, s)
  | n + 1, k, prev, out, s =>
    (decRec t (prev.map fun m => (m, 0)) (k * t.db.size) t.fnums 0 out s).bind fun (out, s) =>
    (Dyn.elem out (k * t.db.size) t.db.size).bind fun r => decAll t n (k + 1) (some r) out s

/-- `sis_incrzip_uncompress` (src/core/zip/sis_incrzip.c:518-573) into a memory that is there: what it returns and the records. -/
def uncompress (z : Z) (blk m fresh : Bytes) : Option (Int × Bytes) :=
  match z.tabs[0]? with
  | none => some (-2, [])
  | some t =>
    if blk.length * 8 ≥ 2 ^ 31 then none
    else (getBags blk).bind fun bags =>
    if bags ≠ 1 then some (0, [])
    else (get ⟨blk, 0⟩ 1).bind fun (init, s) =>
    if init ≠ 1 then some (0, [])
    else (get s 1).bind fun (zip, s) =>
    if zip ≠ 0 then some (0, [])
    else (getUint s).bind fun (_, s) => (getUint s).bind fun (_, s) => (getUint s).bind fun (count, s) =>
    if count ≥ 2 ^ 31 ∨ t.db.size * count ≥ 2 ^ 32 then none
    else (setMax m fresh (t.db.size * count)).bind fun out =>
    (decAll t count 0 none out s).map fun (out, _) => (count, out.take (t.db.size * count))

/-- `sis_incrzip_uncompress_start` (src/core/zip/sis_incrzip.c:432-448) with a function to call; `fresh` is what `malloc` returns. -/
def unStart (z : Z) (fresh : Bytes) : Option (Int × Z) :=
  if z.status ≠ 3 then some (-1, z)
  else if z.keys * z.sum ≥ 2 ^ 32 ∨ z.keys ≥ 2 ^ 31 ∨ fresh.length ≠ z.maxdb then none
  else some (0, { z with mem := List.replicate (z.keys * z.sum) 0, unz := fresh, status := 11 })

/-- A record handed to the function given to `sis_incrzip_uncompress_start`: key, table and bytes (src/core/zip/sis_incrzip.c:432-448, 518-573). -/
abbrev Rec := Nat × Nat × Bytes

/-- The loop over the records of a bag of `sis_incrzip_uncompress_step` (src/core/zip/sis_incrzip.c:621-642); the state is the memory, the
buffer of the record and the stream. -/
def unRecs (t : Tab) (b k sidx zip : Nat) : Nat → Bytes → Bytes → BitS → Option ((List Rec × Bytes × Bytes) × BitS)
  | 0, mem, unz, s => some (([], mem, unz), s)
  | n + 1, mem, unz, s =>
    (decRec t (if zip = 0 then none else some (mem, b + 1)) 0 t.fnums 0 unz s).bind fun (unz, s) =>
    mem[b]?.bind fun flag =>
    if zip = 1 ∧ flag = 0 then unRecs t b k sidx zip n mem unz s
    else
      (Dyn.elem unz 0 t.db.size).bind fun r =>
      (Dyn.put mem (b + 1) (0, r)).bind fun mem =>
      (Dyn.put mem b (0, [1])).bind fun mem =>
      (unRecs t b k sidx zip n mem unz s).map fun ((rs, mem, unz), s) => (((k, sidx, r) :: rs, mem, unz), s)

/-- One bag of `sis_incrzip_uncompress_step` (src/core/zip/sis_incrzip.c:595-644).  A table or a key that is not there is a NULL pointer
that is used as soon as there is a record.  Keys and counts from 2^31 on are negative numbers. -/
def unBag (tabs : List Tab) (keys sum : Nat) (mem unz : Bytes) (s : BitS) : Option ((List Rec × Bytes × Bytes) × BitS) :=
  (get s 1).bind fun (zip, s) =>
  (getUint s).bind fun (k, s) => (getUint s).bind fun (sidx, s) => (getUint s).bind fun (count, s) =>
  if count ≥ 2 ^ 31 ∨ count = 0 then some (([], mem, unz), s)
  else match (if sidx ≥ 2 ^ 31 then none else tabs[sidx]?) with
  | none => none
  | some t => if k < keys then unRecs t (k * sum + t.offset) k sidx zip count mem unz s else none

/-- The loop of `sis_incrzip_uncompress_step` (src/core/zip/sis_incrzip.c:595-644). -/
def unBags (tabs : List Tab) (keys sum : Nat) : Nat → Bytes → Bytes → BitS → Option ((List Rec × Bytes × Bytes) × BitS)
  | 0, mem, unz, s => some (([], mem, unz), s)
  | n + 1, mem, unz, s =>
    (unBag tabs keys sum mem unz s).bind fun ((rs, mem, unz), s) =>
    (unBags tabs keys sum n mem unz s).map fun ((rs', mem, unz), s) => ((rs ++ rs', mem, unz), s)

/-- `sis_incrzip_uncompress_step` (src/core/zip/sis_incrzip.c:576-646): what it returns and the records handed on. -/
def unStep (z : Z) (blk : Bytes) : Option (Int × List Rec × Z) :=
  if z.status ≠ 11 then some (-1, [], z)
  else if blk.length * 8 ≥ 2 ^ 31 then none
  else (getBags blk).bind fun bags =>
  if bags < 1 then some (0, [], { z with s := ⟨blk, 0⟩ })
  else (get ⟨blk, 0⟩ 1).bind fun (_, s) =>
  (unBags z.tabs z.keys z.sum bags.toNat z.mem z.unz s).map fun ((rs, mem, unz), s) => (bags, rs, { z with mem := mem, unz := unz, s := s })

end Sis.Zip
