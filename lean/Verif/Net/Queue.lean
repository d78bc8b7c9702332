import Verif.Base.Bytes
/-
Model of the queues between the network threads (src/core/net/sis_net.node.c:11-674): `s_sis_net_mems`, which carries
received packets to the worker thread and encoded packets to the sending thread, and `s_sis_net_nodes`.

Every operation that takes the lock is one step.  `sis_net_mems_read` only tries the lock, so its step carries whether
the lock was free.  The write list is kept cut at `wnode`: `wpre` are the nodes in front of it, `wpost` those behind;
`whead` and `wtail` are the ends of that list.  Writing outside a node's memory, reading past the data of a node,
following a null `rhead` and a size counter going below zero are the outcome `none`.  Allocation never fails.  Counters
of type `int` do not overflow.
-/
namespace Sis.Nq
open Sis

/-- `SIS_NET_MEMSIZE` (src/core/net/sis_net.node.h:16). -/
def memSize : Nat := 16777216

/-- `s_sis_net_mem_node` (src/core/net/sis_net.node.h:22-29); `data` are the `size` bytes written so far. -/
structure Node where
  max : Nat
  data : Bytes := []
  rpos : Nat := 0
  nums : Nat := 0
deriving DecidableEq, Repr

/-- `sis_net_mem_node_create` (src/core/net/sis_net.node.c:11-18). -/
def Node.create (n : Nat) : Node := { max := n + 1 }

/-- `sis_net_mem_node_clear` (src/core/net/sis_net.node.c:25-30). -/
def Node.clear (nd : Node) : Node := { nd with data := [], rpos := 0, nums := 0 }

/-- `sis_net_mem_node_renew` (src/core/net/sis_net.node.c:31-44). -/
def Node.renew (nd : Node) (n : Nat) : Node := if n > nd.max then { nd with max := n + 1 } else nd

/-- `s_sis_net_mems` (src/core/net/sis_net.node.h:31-47). -/
structure Mems where
  wpre : List Node
  wnode : Node
  wpost : List Node
  wnums : Nat
  wuses : Nat := 0
  wsize : Nat := 0
  r : List Node := []
  rnums : Nat := 0
  rsize : Nat := 0
  nouses : Nat
deriving DecidableEq, Repr

/-- `sis_net_mems_create` (src/core/net/sis_net.node.c:49-60). -/
def create : Mems := { wpre := [], wnode := Node.create memSize, wpost := [], wnums := 1, nouses := 64 }

/-- `_net_mems_move_write` (src/core/net/sis_net.node.c:88-100): `wnode` goes back to the head. -/
def moveWrite (s : Mems) : Mems :=
  match s.wpre with
  | [] => { s with wnode := s.wnode.clear, wpost := s.wpost.map Node.clear, wsize := 0, wuses := 0 }
  | a :: p => { s with wpre := [], wnode := a.clear, wpost := (p ++ s.wnode :: s.wpost).map Node.clear,
                       wsize := 0, wuses := 0 }

/-- The number of nodes of the read list that go back to the write list (src/core/net/sis_net.node.c:121-150). -/
def keep (s : Mems) : Nat :=
  let nouse : Int := s.rnums + ((s.wnums : Int) - s.wuses)
  if nouse > s.nouses then min (nouse - s.nouses).toNat s.r.length else s.r.length

/-- `_net_mems_move_read` (src/core/net/sis_net.node.c:107-156). -/
def moveRead (s : Mems) : Mems :=
  { s with wpost := s.wpost ++ (s.r.map Node.clear).take (keep s), wnums := s.wnums + keep s,
           r := [], rnums := 0, rsize := 0 }

/-- `sis_net_mems_clear` (src/core/net/sis_net.node.c:157-163). -/
def clear (s : Mems) : Mems := moveRead (moveWrite s)

/-- The walk of `_net_mems_reset_node` over the nodes from `wnode` on (src/core/net/sis_net.node.c:168-184): the nodes
passed, the node chosen and those behind it. -/
def findNode (n : Nat) : List Node → Option (List Node × Node × List Node)
  | [] => none
  | nd :: rest =>
    if n + nd.data.length > nd.max then
      if nd.data.length = 0 then some ([], nd.renew n, rest)
      else (findNode n rest).map fun (p, c, q) => (nd :: p, c, q)
    else some ([], nd, rest)

/-- `_net_mems_reset_node` (src/core/net/sis_net.node.c:166-196): the new node gets the standard size, whatever the
size of the data. -/
def resetNode (s : Mems) (n : Nat) : Mems :=
  match findNode n (s.wnode :: s.wpost) with
  | some (p, c, q) => { s with wpre := s.wpre ++ p, wnode := c, wpost := q }
  | none => { s with wpre := s.wpre ++ s.wnode :: s.wpost, wnode := Node.create memSize, wpost := [],
                     wnums := s.wnums + 1 }

/-- The common part of `sis_net_mems_push`, `_push_sign`, `_push_kv` and `_cat` (src/core/net/sis_net.node.c:204-308):
choose a node and copy `d` behind its data. -/
def write (s : Mems) (d : Bytes) (nums : Nat → Nat) : Option Mems :=
  let s := resetNode s d.length
  if s.wnode.data.length + d.length > s.wnode.max then none
  else some { s with wuses := if s.wnode.data.length = 0 then s.wuses + 1 else s.wuses
                     wnode := { s.wnode with data := s.wnode.data ++ d, nums := nums s.wnode.nums }
                     wsize := s.wsize + d.length }

/-- `sis_net_mems_push` (src/core/net/sis_net.node.c:204-223): the size as an `int` and the data. -/
def push (s : Mems) (d : Bytes) : Option Mems := write s (leBytes 4 d.length ++ d) (· + 1)

/-- `sis_net_mems_push_sign` (src/core/net/sis_net.node.c:225-257) with a non-null pointer. -/
def pushSign (s : Mems) (sign : UInt8) (d : Bytes) : Option Mems :=
  write s (leBytes 4 (d.length + 1) ++ (sign :: d)) (· + 1)

/-- `sis_net_mems_push_kv` (src/core/net/sis_net.node.c:259-284) with a non-null pointer; the numbers are given as the
unsigned values of their 32 bits. -/
def pushKv (s : Mems) (kidx sidx : Nat) (d : Bytes) : Option Mems :=
  write s (leBytes 4 (d.length + 8) ++ (leBytes 4 kidx ++ (leBytes 4 sidx ++ d))) (· + 1)

/-- `sis_net_mems_cat` (src/core/net/sis_net.node.c:286-308): the bare data. -/
def cat (s : Mems) (d : Bytes) : Option Mems := write s d (fun _ => 1)

/-- The end of `sis_net_mems_pop` (src/core/net/sis_net.node.c:353-371): take the next message of the head node. -/
def popHead (s : Mems) (nd : Node) (rest : List Node) : Option (Mems × Option Bytes) :=
  if nd.rpos < nd.data.length then
    match takeBytes 4 (nd.data.drop nd.rpos) with
    | none => none
    | some (h, t) =>
      if leVal h < 2147483648 then
        match takeBytes (leVal h) t with
        | none => none
        | some (m, _) =>
          if s.rsize < leVal h + 4 then none
          else some ({ s with r := { nd with rpos := nd.rpos + (leVal h + 4) } :: rest
                              rsize := s.rsize - (leVal h + 4) }, some m)
      else none
  else some ({ s with r := nd :: rest }, none)

/-- `sis_net_mems_pop` (src/core/net/sis_net.node.c:335-371): a used up head goes to the end of the read list. -/
def pop (s : Mems) : Option (Mems × Option Bytes) :=
  match s.r with
  | [] => none
  | nd :: rest =>
    if nd.rpos ≥ nd.data.length then
      match rest with
      | [] => some ({ s with r := [nd.clear] }, none)
      | b :: q => popHead s b (q ++ [nd.clear])
    else popHead s nd rest

/-- The head of the write list (`wnums` and its list, src/core/net/sis_net.node.h:31-47). -/
def whead (s : Mems) : Node := s.wpre.headD s.wnode

/-- One pass of the loop in `sis_net_mems_read` (src/core/net/sis_net.node.c:400-434). -/
def takeOne (s : Mems) : Option Mems :=
  if s.wsize < (whead s).data.length then none
  else
    let s' := { s with wnums := s.wnums - 1, wuses := s.wuses - 1, wsize := s.wsize - (whead s).data.length
                       rnums := s.rnums + 1, rsize := s.rsize + (whead s).data.length, r := s.r ++ [whead s] }
    match s.wpre, s.wpost with
    | _ :: p, _ => some { s' with wpre := p }
    | [], b :: q => some { s' with wnode := b, wpost := q }
    | [], [] => some { s' with wnode := Node.create memSize, wnums := 1 }

/-- The loop (src/core/net/sis_net.node.c:399-434); every pass lowers `wuses`, the counter is its first value. -/
def readLoop (lim : Int) : Nat → Mems → Option Mems
  | 0, s => some s
  | k + 1, s =>
    if (whead s).data.length > 0 ∧ s.wuses > 0 ∧ (s.rnums : Int) < lim then (takeOne s).bind (readLoop lim k)
    else some s

/-- `sis_net_mems_read` (src/core/net/sis_net.node.c:373-441); `free` says whether the lock was free. -/
def read (s : Mems) (n : Int) (free : Bool) : Option (Mems × Nat) :=
  if s.rsize > 0 then some (s, (s.r.takeWhile fun nd => decide (nd.rpos < nd.data.length)).length)
  else if free then
    let s := moveRead s
    (readLoop (if n = 0 then (s.wuses : Int) else n) s.wuses s).map fun s => (s, s.rnums)
  else some (s, 0)

/-- `sis_net_mems_free_read` (src/core/net/sis_net.node.c:442-449). -/
def freeRead (s : Mems) : Mems × Nat := (moveRead s, s.rnums)

/-- `sis_net_mems_size` (src/core/net/sis_net.node.c:482-488). -/
def size (s : Mems) : Nat := s.rsize + s.wsize

/-- What the sender hands to the socket: the memory of every node of the read list
(src/core/net/sis_net.uv.c:843-852). -/
def sendBufs (s : Mems) : Bytes := s.r.flatMap Node.data

/-! ### Histories of the packet queue -/

/-- The calls of a queue of packets (src/core/net/sis_net.node.c:11-488). -/
inductive Ev
  | push (d : Bytes)
  | pushSign (sign : UInt8) (d : Bytes)
  | pushKv (kidx sidx : Nat) (d : Bytes)
  | read (n : Nat) (free : Bool)
  | pop
  | freeRead
  | clear
  | size
deriving DecidableEq, Repr

/-- What they return (src/core/net/sis_net.node.c:204-488). -/
inductive Out
  | unit
  | num (n : Nat)
  | msg (m : Option Bytes)
deriving DecidableEq, Repr

/-- One call (src/core/net/sis_net.node.c:204-488). -/
def step (s : Mems) : Ev → Option (Mems × Out)
  | .push d => (push s d).map fun s => (s, .unit)
  | .pushSign g d => (pushSign s g d).map fun s => (s, .unit)
  | .pushKv k i d => (pushKv s k i d).map fun s => (s, .unit)
  | .read n f => (read s n f).map fun (s, c) => (s, .num c)
  | .pop => (pop s).map fun (s, m) => (s, .msg m)
  | .freeRead => let (s, c) := freeRead s; some (s, .num c)
  | .clear => some (clear s, .unit)
  | .size => some (s, .num (size s))

/-- A sequence of calls (src/core/net/sis_net.node.c:204-488). -/
def run (s : Mems) : List Ev → Option (Mems × List (Ev × Out))
  | [] => some (s, [])
  | e :: es => (step s e).bind fun (s, o) => (run s es).map fun (s, h) => (s, (e, o) :: h)

/-! ### Histories of the byte queue in front of a socket -/

/-- The calls of a queue of bytes (src/core/net/sis_net.node.c:286-449). -/
inductive CEv
  | cat (d : Bytes)
  | read (n : Nat) (free : Bool)
  | send
  | freeRead
  | clear
  | size
deriving DecidableEq, Repr

/-- What they return (src/core/net/sis_net.node.c:286-449). -/
inductive COut
  | unit
  | num (n : Nat)
  | bytes (d : Bytes)
deriving DecidableEq, Repr

/-- One call (src/core/net/sis_net.node.c:286-449). -/
def cstep (s : Mems) : CEv → Option (Mems × COut)
  | .cat d => (cat s d).map fun s => (s, .unit)
  | .read n f => (read s n f).map fun (s, c) => (s, .num c)
  | .send => some (s, .bytes (sendBufs s))
  | .freeRead => let (s, c) := freeRead s; some (s, .num c)
  | .clear => some (clear s, .unit)
  | .size => some (s, .num (size s))

/-- A sequence of calls (src/core/net/sis_net.node.c:286-449). -/
def crun (s : Mems) : List CEv → Option (Mems × List (CEv × COut))
  | [] => some (s, [])
  | e :: es => (cstep s e).bind fun (s, o) => (crun s es).map fun (s, h) => (s, (e, o) :: h)

/-! ### The queue of shared objects -/

/-- `s_sis_net_nodes` (src/core/net/sis_net.node.h:84-97); an object is its identity and its size. -/
structure Objs where
  w : List (Nat × Nat) := []
  r : List (Nat × Nat) := []
  wnums : Nat := 0
  rnums : Nat := 0
  size : Nat := 0
deriving DecidableEq, Repr

/-- `sis_net_nodes_push` (src/core/net/sis_net.node.c:571-595). -/
def Objs.push (s : Objs) (o : Nat × Nat) : Objs :=
  { s with w := s.w ++ [o], wnums := s.wnums + 1, size := s.size + o.2 }

/-- The loop of `sis_net_nodes_read` (src/core/net/sis_net.node.c:615-646): at least one pass when there is a node. -/
def Objs.loop (n : Nat) : List (Nat × Nat) → Objs → Objs
  | [], s => s
  | o :: rest, s =>
    let s := { s with rnums := s.rnums + 1, wnums := s.wnums - 1, r := s.r ++ [o], w := rest }
    if s.rnums ≥ n then s else Objs.loop n rest s

/-- `sis_net_nodes_read` (src/core/net/sis_net.node.c:596-652). -/
def Objs.read (s : Objs) (n : Nat) (free : Bool) : Objs × Nat :=
  if s.rnums > 0 then (s, s.rnums)
  else if free then
    let s := if n = 0 then { s with r := s.w, rnums := s.wnums, w := [], wnums := 0 } else Objs.loop n s.w s
    (s, s.rnums)
  else (s, 0)

/-- `_net_nodes_free_read` (src/core/net/sis_net.node.c:518-538). -/
def Objs.freeRead (s : Objs) : Option (Objs × Nat) :=
  if s.size < (s.r.map Prod.snd).sum then none
  else some ({ s with r := [], rnums := 0, size := s.size - (s.r.map Prod.snd).sum }, s.r.length)

end Sis.Nq
