import Verif.Net.Sha
import Verif.Net.Ws
/-
Model of the handshake of websockets: src/core/net/sis_net.ws.c:1-87 and src/core/net/sis_net.c:295-470.

A block of memory is its whole buffer, so that what stands behind the bytes received, and is looked at by `strstr`, is part of the
state; `malloc` gives memory with any content.  `none` is a read outside a buffer or of a text without an end.
-/
namespace Sis.Hand
open Sis Json

/-- `__ws_define_ask` (src/core/net/sis_net.ws.c:5). -/
def askText : Bytes :=
  "GET / HTTP/1.1\r\nUpgrade: websocket\r\nConnection: Upgrade\r\nSec-WebSocket-Version: 13\r\nSec-WebSocket-Key: ".toUTF8.toList

/-- `__ws_define_ans` (src/core/net/sis_net.ws.c:4). -/
def ansText : Bytes :=
  "HTTP/1.1 101 Switching Protocols\r\nUpgrade: websocket\r\nConnection: Upgrade\r\nSec-WebSocket-Accept: ".toUTF8.toList

/-- The end of `__ws_define_hash` (src/core/net/sis_net.ws.c:3), behind the 24 places for the key. -/
def guid : Bytes := "258EAFA5-E914-47DA-95CA-C5AB0DC85B11".toUTF8.toList

/-- `__ws_define_eof` (src/core/net/sis_net.ws.c:6). -/
def eof : Bytes := "\r\n\r\n".toUTF8.toList

/-- `__ws_define_key` (src/core/net/sis_net.ws.c:7). -/
def keyName : Bytes := "Sec-WebSocket-Key".toUTF8.toList

/-- `s_sis_memory` (src/core/sis_memory.h): the buffer with all `maxsize` bytes of it. -/
structure Mem where
  buf : Bytes
  size : Nat
  offset : Nat
deriving DecidableEq

/-- `malloc` of `n` bytes with the content `junk` (src/core/sis_memory.c:8 and 122). -/
def fresh (junk : Nat → UInt8) (n : Nat) : Bytes := (List.range n).map junk

/-- `sis_memory_create` (src/core/sis_memory.c:5-13). -/
def create (junk : Nat → UInt8) : Mem := ⟨fresh junk 255, 0, 0⟩

/-- `sis_memory_grow` (src/core/sis_memory.c:114-135). -/
def grow (junk : Nat → UInt8) (m : Mem) (n : Nat) : Mem :=
  if n ≤ m.buf.length then m
  else
    let newsize := n + min (1024 * 1024 * 16) ((n + m.buf.length) / 2)
    let cur := m.size - m.offset
    ⟨(m.buf.drop m.offset).take cur ++ (fresh junk newsize).drop cur, cur, 0⟩

/-- `sis_memory_cat` (src/core/sis_memory.c:136-145). -/
def cat (junk : Nat → UInt8) (m : Mem) (inp : Bytes) : Mem :=
  if 0 < inp.length then
    let m := grow junk m (inp.length + m.size)
    ⟨m.buf.take m.size ++ inp ++ m.buf.drop (m.size + inp.length), m.size + inp.length, m.offset⟩
  else m

/-- `sis_memory` (src/core/sis_memory.c:106-113): the bytes that the pointer leads to, to the end of the buffer. -/
def ptr (m : Mem) : Bytes := m.buf.drop m.offset

/-- `sis_memory_move` (src/core/sis_memory.c:505-515). -/
def move (m : Mem) (n : Nat) : Mem := if m.offset + n ≤ m.size then { m with offset := m.offset + n } else { m with offset := m.size }

/-- The bytes received and not yet used (src/core/sis_memory.c:391-394). -/
def unread (m : Mem) : Bytes := (m.buf.drop m.offset).take (m.size - m.offset)

/-- `sis_strsub` (src/core/sis_str.c:295-303): `strstr` from position `i`; the inner `none` is -1. -/
def strsub (small : Bytes) : Nat → Bytes → Option (Option Nat)
  | _, [] => none
  | i, b :: bs => if small.isPrefixOf (b :: bs) then some (some i) else if b = 0 then some none else strsub small (i + 1) bs

/-- `sis_net_ws_head_complete` (src/core/net/sis_net.ws.c:36-45). -/
def headComplete (m : Mem) : Option (Option Nat) := (strsub eof 0 (ptr m)).map fun r => r.map (· + 4)

/-- `while(*ptr==' '||*ptr==':')` (src/core/net/sis_net.ws.c:55-58). -/
def skip : Bytes → Option Bytes
  | [] => none
  | b :: bs => if b = 32 ∨ b = 58 then skip bs else some (b :: bs)

/-- The loop over the signs of the key (src/core/net/sis_net.ws.c:59-70): at most `n` of them. -/
def signs : Nat → Bytes → Option Bytes
  | 0, _ => some []
  | _ + 1, [] => none
  | n + 1, b :: bs => if b = 13 ∨ b = 10 then some [] else (signs n bs).map (b :: ·)

/-- `sis_net_ws_get_key` (src/core/net/sis_net.ws.c:47-77); the inner `none`: -1 or -2.  `stack` are the eight bytes of `key[32]` behind
the signs, which are never written: `sis_strcpy` (src/os/linux/os_str.h:23-41) looks for the end of the text there.  `dest` is what
the 32 bytes for the key held before. -/
def getKey (stack dest : Bytes) (m : Mem) : Option (Option Bytes) :=
  match strsub keyName 0 (ptr m) with
  | none => none
  | some none => some none
  | some (some i) =>
    (skip ((ptr m).drop (i + keyName.length))).bind fun q =>
      (signs 24 q).bind fun k =>
        if k.length < 24 then some none
        else if 0 ∈ k ++ stack then
          let t := (cstrOf (k ++ stack)).take 24
          some (some (t ++ [0] ++ dest.drop (t.length + 1)))
        else none

/-- `sis_net_ws_get_ans` (src/core/net/sis_net.ws.c:21-34). -/
def getAns (w : Sha.Words) (key : Bytes) : Option Bytes := (Sha.shacalc w (key.take 24 ++ guid)).map fun d => ansText ++ d.take 28 ++ eof

/-- What memory holds that nothing was written to: the new buffer when the received bytes grow, the two buffers of the copied head, the
rest of the two keys on the stack and the array of the digest (src/core/sis_memory.c:8 and 122, src/core/net/sis_net.ws.c:59,
src/core/net/sis_net.c:322, src/core/sis_sha1.c:89). -/
structure Env where
  grown : Nat → UInt8
  ans : Nat → UInt8
  ansGrown : Nat → UInt8
  stack : Bytes
  dest : Bytes
  w : Sha.Words

/-- What `sis_ws_recv_hand_ask` returns: 0, -1 or 1 with what it sends (src/core/net/sis_net.c:312-343). -/
inductive Asked
  | wait
  | bad (m : Mem)
  | good (m : Mem) (answer : Bytes)
deriving DecidableEq

/-- The head copied out of the memory (src/core/net/sis_net.c:319-320 and 353-354); `none`: it is longer than the buffer. -/
def copyHead (e : Env) (m : Mem) (size : Nat) : Option Mem :=
  if size ≤ (ptr m).length then some (cat e.ansGrown (create e.ans) ((ptr m).take size)) else none

/-- `sis_ws_recv_hand_ask` (src/core/net/sis_net.c:312-343). -/
def recvAsk (e : Env) (m : Mem) : Option Asked :=
  match headComplete m with
  | none => none
  | some none => some .wait
  | some (some size) =>
    (copyHead e m size).bind fun ans =>
      match getKey e.stack e.dest ans with
      | none => none
      | some none => some (.bad (move m size))
      | some (some k) => (getAns e.w k).map fun a => .good (move m size) a

/-- A connection of the server or of the client (src/core/net/sis_net.c:161-171): `handing` waits for the handshake; `working` has
ended it; `gone` is told nothing any more. -/
inductive Conn
  | handing (m : Mem)
  | working (c : Ws.Conn)
  | gone
deriving DecidableEq

/-- What others see of a connection: what is sent, that the callback for a new connection is called, that the socket is closed, and
the messages that come out (src/core/net/sis_net.c:331-338, 395-399 and 699-705). -/
inductive Out
  | sent (b : Bytes)
  | connected
  | closed
  | msg (tail : UInt8) (data : Bytes)
deriving DecidableEq

/-- A piece that comes to a connection that works (src/core/net/sis_net.c:381-387 and 440-445) and what the reading thread makes of it
(src/core/net/sis_net.c:676-731, as in `Verif.Net.Ws`). -/
def work (c : Ws.Conn) (p : Bytes) : Option (Conn × List Out) :=
  if c.working then
    (Ws.receive c [p]).map fun x => (if x.1.working then .working x.1 else .gone, x.2.map fun y => .msg y.1 y.2)
  else some (.gone, [])

/-- `cb_server_connected` (src/core/net/sis_net.c:487-520): a new connection; `junk` is the content of its memory. -/
def serverNew (junk : Nat → UInt8) : Conn := .handing (create junk)

/-- `cb_server_recv_after` (src/core/net/sis_net.c:371-415). -/
def serverRecv (e : Env) (p : Bytes) : Conn → Option (Conn × List Out)
  | .gone => some (.gone, [])
  | .working c => work c p
  | .handing m =>
    (recvAsk e (cat e.grown m p)).map fun
      | .wait => (.handing (cat e.grown m p), [])
      | .bad _ => (.gone, [])
      | .good m' a => (.working ⟨unread m', true⟩, [.sent a, .connected])

/-- Pieces in the order in which they come: `cb_server_recv_after` for each (src/core/net/sis_net.c:371-415). -/
def server (c : Conn) : List (Env × Bytes) → Option (Conn × List Out)
  | [] => some (c, [])
  | (e, p) :: ps => (serverRecv e p c).bind fun x => (server x.1 ps).map fun y => (y.1, x.2 ++ y.2)

/-- `sis_net_ws_get_ask` (src/core/net/sis_net.ws.c:9-18): `id` are the 24 signs that `sis_str_get_id` (src/core/sis_str.c:705-732)
makes. -/
def getAsk (id : Bytes) : Bytes := askText ++ id.take 24 ++ eof

/-- `sis_ws_match_hand_ans` (src/core/net/sis_net.c:346-363) with `sis_net_ws_chk_ans` (src/core/net/sis_net.ws.c:79-87): the inner
`none`: 0; otherwise what is left and whether the answer is taken. -/
def matchAns (e : Env) (m : Mem) : Option (Option (Mem × Bool)) :=
  match headComplete m with
  | none => none
  | some none => some none
  | some (some size) =>
    (copyHead e m size).bind fun ans => (strsub "101".toUTF8.toList 0 (ptr ans)).map fun r => some (move m size, r.isSome)

/-- `cb_client_connected` (src/core/net/sis_net.c:541-581) of a new client: the question is sent. -/
def clientNew (junk : Nat → UInt8) (id : Bytes) : Conn × List Out := (.handing (create junk), [.sent (getAsk id)])

/-- `cb_client_recv_after` (src/core/net/sis_net.c:430-472).  After a wrong answer the socket is closed and the connection goes. -/
def clientRecv (e : Env) (p : Bytes) : Conn → Option (Conn × List Out)
  | .gone => some (.gone, [])
  | .working c => work c p
  | .handing m =>
    (matchAns e (cat e.grown m p)).map fun
      | none => (.handing (cat e.grown m p), [])
      | some (m', true) => (.working ⟨unread m', true⟩, [.connected])
      | some (_, false) => (.gone, [.closed])

end Sis.Hand
