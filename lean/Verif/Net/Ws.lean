import Verif.Bits.Codec
/-
Model of the WebSocket framing of `src/core/net/sis_net.ws.c` and of the loop that feeds received bytes to it
(`src/core/net/sis_net.c`).

The header bits go through the bit stream of `Verif.Bits.Stream`.  A memory block is the list of its unread bytes
(`Verif.Memory.Queue`: moving its read cursor drops bytes, jumping back restores them).  `none` is an access outside the bytes
written or received, or a signed overflow.
-/
namespace Sis.Ws

/-- WS_MAX_HEAD_LEN (src/core/net/sis_net.ws.h:17). -/
def headLen : Nat := 16

/-- WS_MAX_SEND_BUFF (src/core/net/sis_net.ws.h:18). -/
def maxSend : Nat := 16 * 1024 - headLen

/-- The header of a frame as `sis_bits_stream_put` calls (src/core/net/sis_net.ws.c:121-160). -/
def headCalls (fin op size : Nat) : List (Nat × Nat) :=
  [(fin, 1), (0, 3), (op, 4), (0, 1)] ++
    (if size < 126 then [(size, 7)]
    else if size ≤ 0xFFFF then [(126, 7), (size, 16)]
    else [(127, 7), (size, 64)])

/-- `sis_bits_stream_put_buffer` (src/core/zip/sis_bits.h:251-258) as `sis_bits_stream_put` calls. -/
def bufferCalls (bs : Bytes) : List (Nat × Nat) := bs.map fun c => (BitS.charPat c, 8)

/-- The loop of `sis_net_pack_ws_message` (src/core/net/sis_net.ws.c:113-182): `n` frames to go, `i` the number of the frame,
`inp` what is left of the message, `info` the tail (no byte or one), `blk` the output block from its write position on.  The
bytes written. -/
def packLoop (isstr : Bool) (info : Bytes) (count : Nat) : Nat → Nat → Bytes → Bytes → Option Bytes
  | 0, _, _, _ => some []
  | n + 1, i, inp, blk => do
    let size := if inp.length > maxSend then maxSend else inp.length
    let last := decide (i + 1 = count)
    let full := if last then size + info.length else size
    let op := if count > 0 ∧ i > 0 then 0 else if isstr then 1 else 2
    let calls := headCalls (if last then 1 else 0) op full ++
      (if last then bufferCalls (inp.take size) ++ bufferCalls info else bufferCalls (inp.take full))
    let s ← BitS.putAll ⟨blk, 0⟩ calls
    let cursor := (s.pos + 7) / 8
    let rest ← packLoop isstr info count n (i + 1) (inp.drop full) (s.buf.drop cursor)
    some (s.buf.take cursor ++ rest)

/-- `sis_net_pack_ws_message` (src/core/net/sis_net.ws.c:89-193): the output block has room for the message and the headers; `junk`
is what it holds before. -/
def packMessage (junk : Nat → UInt8) (isstr : Bool) (inp info : Bytes) : Option Bytes :=
  let total := inp.length + info.length
  let count := total / maxSend + (if total % maxSend ≠ 0 then 1 else 0)
  packLoop isstr info count count 0 inp ((List.range (total + count * headLen)).map junk)

/-- The bit `bytes` of `s_sis_net_tail` (src/core/net/sis_net.msg.h:70-76). -/
def isBytes (tail : UInt8) : Bool := tail &&& 1 ≠ 0

/-- `sis_net_pack_ws` (src/core/net/sis_net.ws.c:402-414). -/
def pack (junk : Nat → UInt8) (tail : UInt8) (inp : Bytes) : Option Bytes :=
  if isBytes tail then packMessage junk false inp [tail] else packMessage junk true inp []

/-- `s_sis_ws_header` (src/core/net/sis_net.ws.h:24-31). -/
structure Head where
  fin : Nat
  op : Nat
  len : Nat
  mask : Nat
  key : Bytes
deriving DecidableEq

/-- A number converted to a C `int`: the low 32 bits with the highest one as sign (src/core/net/sis_net.ws.c:227-246). -/
def int32 (n : Nat) : Int := if n % 2 ^ 32 < 2 ^ 31 then (n % 2 ^ 32 : Nat) else (n % 2 ^ 32 : Nat) - 2 ^ 32

/-- `sis_bits_stream_moveto` (src/core/zip/sis_bits.h:114-119): the size of the stream is kept in bits as `uint32`
(src/core/zip/sis_bits.h:77-85). -/
def moveTo (s : BitS) (bitpos : Int) : BitS :=
  ⟨s.buf, if bitpos < 0 then 0 else if bitpos > int32 (s.buf.length * 8) then s.buf.length * 8 % 2 ^ 32 else bitpos.toNat⟩

/-- `sis_bits_stream_move_bytes` (src/core/zip/sis_bits.h:122-125); `none` when the product does not fit a C `int`. -/
def moveBytes (s : BitS) (n : Nat) : Option BitS :=
  if -(2 ^ 31) ≤ int32 n * 8 ∧ int32 n * 8 < 2 ^ 31 then
    some (moveTo s (int32 (((s.pos : Int) + int32 n * 8) % 2 ^ 32).toNat))
  else none

/-- The start of a frame header (src/core/net/sis_net.ws.c:205-226 and 295-316): fin, opcode, mask and the short length. -/
def readStart (count : Nat) (h : Head) (s : BitS) : Option (Head × Nat × BitS) := do
  let (fin, s) ← BitS.get s 1
  let (_, s) ← BitS.get s 3
  let (op, s) ← BitS.get s 4
  let (mask, s) ← BitS.get s 1
  let (signlen, s) ← BitS.get s 7
  some ({ h with fin := fin, op := if count = 0 then op else h.op, mask := mask }, signlen, s)

/-- The longer lengths (src/core/net/sis_net.ws.c:227-246 and 317-336): the inner `none` leaves the loop. -/
def readLen (signlen : Nat) (s : BitS) (rest : Bytes) : Option (Option (Nat × BitS × Bytes)) :=
  if signlen = 126 then
    if rest.length < 2 then some none
    else do
      let (n, s) ← BitS.get s 16
      some (some (n, s, rest.drop 2))
  else if signlen = 127 then
    if rest.length < 8 then some none
    else do
      let (n, s) ← BitS.get s 64
      some (some (n, s, rest.drop 8))
  else some (some (signlen, s, rest))

/-- The mask key as `sis_net_unpack_ws_check` skips it (src/core/net/sis_net.ws.c:249-257). -/
def skipKey (mask : Nat) (s : BitS) (rest : Bytes) : Option (Option (BitS × Bytes)) :=
  if mask = 1 then
    if rest.length < 4 then some none
    else do
      let (_, s) ← BitS.get s 32
      some (some (s, rest.drop 4))
  else some (some (s, rest))

/-- The mask key as `sis_net_unpack_ws_message` reads it (src/core/net/sis_net.ws.c:338-349). -/
def readKey (h : Head) (s : BitS) (rest : Bytes) : Option (Option (Head × BitS × Bytes)) :=
  if h.mask = 1 then
    if rest.length < 4 then some none
    else do
      let (a, s) ← BitS.get s 8
      let (b, s) ← BitS.get s 8
      let (c, s) ← BitS.get s 8
      let (d, s) ← BitS.get s 8
      some (some ({ h with key := [UInt8.ofNat a, UInt8.ofNat b, UInt8.ofNat c, UInt8.ofNat d] }, s, rest.drop 4))
  else some (some (h, s, rest))

/-- The loop of `sis_net_unpack_ws_check` (src/core/net/sis_net.ws.c:203-272), `n` bounding its passes: whether a whole message is
there. -/
def checkLoop : Nat → Nat → Head → BitS → Bytes → Option (Head × Bool)
  | 0, _, h, _, _ => some (h, false)
  | n + 1, count, h, s, rest =>
    if rest.length < 2 then some (h, false)
    else do
      let (h, signlen, s) ← readStart count h s
      match ← readLen signlen s (rest.drop 2) with
      | none => some (h, false)
      | some (len, s, rest) =>
        let h := { h with len := len }
        match ← skipKey h.mask s rest with
        | none => some (h, false)
        | some (s, rest) =>
          if rest.length < h.len then some (h, false)
          else do
            let s ← moveBytes s h.len
            if h.fin = 1 then some (h, true)
            else checkLoop n (count + 1) h s (rest.drop h.len)

/-- `sis_net_unpack_ws_check` (src/core/net/sis_net.ws.c:195-282). -/
def check (h : Head) (inp : Bytes) : Option (Head × Bool) := checkLoop (inp.length + 1) 0 h ⟨inp, 0⟩ inp

/-- Undoing the mask, from position `i` on (src/core/net/sis_net.ws.c:357-364); `none`: no key. -/
def unmask (key : Bytes) : Nat → Bytes → Option Bytes
  | _, [] => some []
  | i, b :: bs => do
    let k ← key[i % 4]?
    let bs ← unmask key (i + 1) bs
    some ((b ^^^ k) :: bs)

/-- The payload of a frame as it is added to the output (src/core/net/sis_net.ws.c:355-364). -/
def frameData (h : Head) (bs : Bytes) : Option Bytes := if h.mask = 1 then unmask h.key 0 bs else some bs

/-- The loop of `sis_net_unpack_ws_message` (src/core/net/sis_net.ws.c:293-384): the header, the output and what is left of the
input, when a whole message is there. -/
def messageLoop : Nat → Nat → Head → BitS → Bytes → Bytes → Option (Head × Option (Bytes × Bytes))
  | 0, _, h, _, _, _ => some (h, none)
  | n + 1, count, h, s, rest, out =>
    if rest.length < 2 then some (h, none)
    else do
      let (h, signlen, s) ← readStart count h s
      match ← readLen signlen s (rest.drop 2) with
      | none => some (h, none)
      | some (len, s, rest) =>
        let h := { h with len := len }
        match ← readKey h s rest with
        | none => some (h, none)
        | some (h, s, rest) =>
          if rest.length < h.len then some (h, none)
          else do
            let d ← frameData h (rest.take h.len)
            let s ← moveBytes s h.len
            if h.fin = 1 then some (h, some (out ++ d, rest.drop h.len))
            else messageLoop n (count + 1) h s (rest.drop h.len) (out ++ d)

/-- `sis_net_unpack_ws_message` (src/core/net/sis_net.ws.c:284-400). -/
def message (h : Head) (inp : Bytes) : Option (Head × Option (Bytes × Bytes)) :=
  messageLoop (inp.length + 1) 0 h ⟨inp, 0⟩ inp []

/-- What `sis_net_unpack_ws` reports: 0, -1 or 1 with the tail, the message and the input left (src/core/net/sis_net.ws.c:416-463). -/
inductive Res
  | wait
  | bad (rest : Bytes)
  | msg (tail : UInt8) (data rest : Bytes)
deriving DecidableEq

/-- `sis_net_unpack_ws` (src/core/net/sis_net.ws.c:416-463).  `none` also is the copy of the tail from before the beginning of an
empty output. -/
def unpack (inp : Bytes) : Option Res := do
  let (h, ok) ← check ⟨0, 0, 0, 0, []⟩ inp
  if !ok then some .wait
  else
    match ← message h inp with
    | (_, none) => some .wait
    | (h, some (out, rest)) =>
      if h.op = 1 then some (.msg 0 out rest)
      else if h.op = 2 then do
        let tail ← out.getLast?
        some (.msg tail out.dropLast rest)
      else some (.bad rest)

/-- A connection: the bytes received and not yet used, and whether it still works (`_make_read_data`, src/core/net/sis_net.c:674-732). -/
structure Conn where
  mem : Bytes
  working : Bool
deriving DecidableEq

/-- The inner loop of `_make_read_data` after one piece of input was added (src/core/net/sis_net.c:686-722), `n` bounding its
passes: unpacking (src/core/net/sis_net.c:932-950) until the input is used up.  The messages unpacked. -/
def drain : Nat → Conn → Option (Conn × List (UInt8 × Bytes))
  | 0, c => some (c, [])
  | n + 1, c => do
    match ← unpack c.mem with
    | .wait => some (c, [])
    | .bad rest => some (⟨rest, false⟩, [])
    | .msg t d rest =>
      let (c, ms) ← drain n ⟨rest, c.working⟩
      some (c, (t, d) :: ms)

/-- `_make_read_data` (src/core/net/sis_net.c:674-732) on the pieces of input in the order they arrived: each is added to the
bytes left over (src/core/net/sis_net.c:690) while the connection works. -/
def receive : Conn → List Bytes → Option (Conn × List (UInt8 × Bytes))
  | c, [] => some (c, [])
  | c, p :: ps =>
    if c.working then do
      let (c, ms) ← drain (c.mem.length + p.length + 1) ⟨c.mem ++ p, true⟩
      let (c, ms') ← receive c ps
      some (c, ms ++ ms')
    else some (c, [])

end Sis.Ws
