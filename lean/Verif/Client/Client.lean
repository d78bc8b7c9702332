import Verif.Server.SubTheorems
import Verif.Net.MsgTheorems
import Verif.Csv.MakeLemmas
/-
Model of the client (`workers/sisdb_client/sisdb_client.c`): the events of its life in the order in which they happen, and what it
sends, answers and tells its callbacks at each of them.

Simplifications: every event is one step (asking in small steps: `Micro` below).  The connection loses nothing while it lasts, and
its number is always 0 (src/core/net/sis_net.uv.c:1105-1108 and 1179-1182).  The table of open questions is a list
(`Verif.Dict.DictTheorems`); the order in which subscriptions are sent again is that of the list, in the code that of the hash
table.  Callbacks do not call the client.  The end of the whole server (`SIS_SERVER_EXIT`) is left out.
-/
namespace Sis.Cli
open Sis Msg Json

/-- The arguments of a question (workers/sisdb_client/sisdb_client.c:411-420, 505-513): command, key and value (a NULL pointer is `none`; the
value has its length with it), whether it is sent as bytes, whether the call waits for the answer, and, if not, whether a callback
is given. -/
structure Query where
  cmd : Option Bytes
  key : Option Bytes
  val : Option Bytes
  bytes : Bool
  wait : Bool
  cb : Bool
deriving DecidableEq, Repr

/-- `s_sisdb_client_ask` (workers/sisdb_client/sisdb_client.h:11-24).  `id` says which question it is (the how-manieth that was
taken), `back` whether the call that waits for it has come back. -/
structure Ask where
  id : Nat
  sno : Nat
  sub : Bool
  q : Query
  back : Bool
deriving DecidableEq, Repr

/-- SIS_CLI_STATUS_* (workers/sisdb_client/sisdb_client.h:26-30). -/
inductive Status
  | init | auth | work | exit
deriving DecidableEq, Repr

/-- `s_sisdb_client_cxt` (workers/sisdb_client/sisdb_client.h:32-50); `count` counts the questions. -/
structure St where
  status : Status
  user : Bytes
  pass : Bytes
  next : Nat
  count : Nat
  asks : List Ask
deriving DecidableEq, Repr

/-- What happens to a client (workers/sisdb_client/sisdb_client.c:135-289, 332-350, 402-545). -/
inductive Ev
  | connected
  | disconnect
  | recv (m : Msg)
  | ask (q : Query)
  | unsub (name : Bytes)
  | close
deriving DecidableEq, Repr

/-- What can be seen: a message is sent; a question is refused or taken; the callback of a question is called, or its answer written
into the message of the call that waits; that call comes back; an answer is written into the message of a call that has come back
already; the user is told about the connection (workers/sisdb_client/sisdb_client.c:114-289, 376-385, 402-443). -/
inductive Out
  | send (m : Msg)
  | refused
  | taken (id : Nat)
  | call (id : Nat) (tag : Int) (key val : Option Bytes)
  | back (id : Nat) (ok : Bool)
  | stale (id : Nat)
  | up
  | down
deriving DecidableEq, Repr

/-- `sis_strcpy` into 32 bytes (src/os/linux/os_str.h:23-41). -/
def cut32 (s : Bytes) : Bytes := (cstrOf s).take 31

/-- `sisdb_client_init` (workers/sisdb_client/sisdb_client.c:73-105). -/
def start (user pass : Bytes) : St := ⟨.init, cut32 user, cut32 pass, 0, 0, []⟩

/-- `context->auth` (workers/sisdb_client/sisdb_client.c:93-96). -/
def St.auth (s : St) : Bool := decide (0 < s.user.length) && decide (0 < s.pass.length)

/-- The key of a question in the table (`sis_llutoa`, workers/sisdb_client/sisdb_client.c:300-302). -/
def serial (n : Nat) : Bytes := Num.llutoa n 32

/-- The command behind the service (`sis_str_divide`, src/core/sis_str.c:177-208) and whether it subscribes
(workers/sisdb_client/sisdb_client.c:50-58); the parts are copied into arrays of 128 bytes without checking. -/
def isSub (cmd : Option Bytes) : Option Bool :=
  match cmd with
  | none => some false
  | some c =>
    if (Sub.before (cstrOf c)).length < 128 ∧ (Sub.after (cstrOf c)).length < 128 then
      some (Sub.subcmp true (Sub.after (cstrOf c)) (some (str "sub,zsub,hsub")))
    else none

/-- The text of `SIS_NET_SET_BUF` (src/core/net/sis_net.msg.c:246): an empty one is none. -/
def buf (v : Option Bytes) : Option Bytes := v.bind fun v => if v = [] then none else some v

/-- The service of `sis_net_message_set_scmd` (src/core/net/sis_net.msg.c:315-338, src/core/sis_str.c:209-236): what is before the
first point, if there is one. -/
def service (c : Bytes) : Option Bytes := if c.contains 46 then Sub.part (Sub.before c) else none

/-- The command of `sis_net_message_set_scmd` (src/core/net/sis_net.msg.c:315-338). -/
def command (c : Bytes) : Option Bytes := if c.contains 46 then Sub.part (Sub.after c) else Sub.part c

/-- `sisdb_client_send_ask` (workers/sisdb_client/sisdb_client.c:114-133). -/
def message (a : Ask) : Msg :=
  let sv := (a.q.cmd.map cstrOf).bind service
  let cm := (a.q.cmd.map cstrOf).bind command
  let ky := a.q.key.map cstrOf
  { name := Csv.ll2str a.sno, bytes := a.q.bytes, service := sv, cmd := cm, subject := ky, info := buf a.q.val,
    sw := { service := sv.isSome, cmd := cm.isSome, subject := ky.isSome, info := (buf a.q.val).isSome } }

/-- The login (workers/sisdb_client/sisdb_client.c:233-240). -/
def login (s : St) : Msg :=
  { cmd := some (str "auth"), sw := { cmd := true, info := true },
    info := some ((str "{\"username\":\"" ++ s.user ++ str "\",\"password\":\"" ++ s.pass ++ str "\"}").take 127) }

/-- `sisdb_client_ask_get` (workers/sisdb_client/sisdb_client.c:324-330); a message without name finds none
(`sis_strcasecmp`, src/core/sis_str.c:48-67). -/
def find (s : St) (name : Option Bytes) : Option Ask :=
  name.bind fun n => s.asks.find? fun a => caseEq n (serial a.sno)

/-- What the callback is told (workers/sisdb_client/sisdb_client.c:146-182): the key as a C string, the value with its length. -/
def told (m : Msg) : Int × Option Bytes × Option Bytes :=
  if m.tag = 103 ∨ m.tag = 104 ∨ m.tag = 105 then (m.tag, none, m.info)
  else if m.tag = 0 then (0, m.subject.map cstrOf, m.info)
  else if m.tag = -3 then (-3, none, none)
  else (-2, m.subject.map cstrOf, m.info)

/-- The call of the callback; that of a waiting call fills its message (workers/sisdb_client/sisdb_client.c:376-385), and the call
comes back (lines 427-442). -/
def reply (a : Ask) (m : Msg) : List Out :=
  let t := told m
  if a.q.wait then
    if a.back then [.stale a.id]
    else [.call a.id t.1 t.2.1 (buf t.2.2), .back a.id (decide (0 ≤ t.1))]
  else if a.q.cb then [.call a.id t.1 t.2.1 t.2.2]
  else []

/-- `sisdb_client_ask_del` (workers/sisdb_client/sisdb_client.c:306-322). -/
def drop (s : St) (sno : Nat) : St := { s with asks := s.asks.filter fun a => !decide (a.sno = sno) }

/-- The answer to a question: a subscription stays (workers/sisdb_client/sisdb_client.c:144-188). -/
def answer (s : St) (a : Ask) (m : Msg) : St × List Out :=
  if a.sub then ({ s with asks := s.asks.map fun b => if b.sno = a.sno then { b with back := b.back || b.q.wait } else b }, reply a m)
  else (drop s a.sno, reply a m)

/-- `_cb_recv` (workers/sisdb_client/sisdb_client.c:135-217). -/
def recv (s : St) (m : Msg) : St × List Out :=
  match s.status with
  | .work =>
    match find s m.name with
    | some a => if m.sw.tag then answer s a m else (s, [])
    | none => (s, [])
  | .auth =>
    if m.sw.tag ∧ m.tag = 0 then
      ({ s with status := .work }, (s.asks.filter Ask.sub).map fun a => .send (message a))
    else (s, [])
  | _ => (s, [])

/-- `_cb_connected` (workers/sisdb_client/sisdb_client.c:219-251). -/
def connect (s : St) : St × List Out :=
  match s.status with
  | .work | .exit => (s, [.up])
  | _ => if s.auth then ({ s with status := .auth }, [.send (login s), .up]) else ({ s with status := .work }, [.up])

/-- `sisdb_client_ask_cmd` (workers/sisdb_client/sisdb_client.c:290-304): the number of a question; the counter has 32 bits. -/
def number (s : St) : Nat := s.next % 0xFFFFFF

/-- A new question; one with the same number is destroyed (`sis_safe_map_set`, src/core/sis_map.lock.c:58-64, `sis_dict_replace`,
src/core/sis_dict.c:443-464). -/
def put (s : St) (sub : Bool) (q : Query) : St × Ask :=
  let a : Ask := ⟨s.count, number s, sub, q, false⟩
  ({ drop s (number s) with next := (s.next + 1) % 4294967296, count := s.count + 1, asks := (drop s (number s)).asks ++ [a] }, a)

/-- The methods that ask (workers/sisdb_client/sisdb_client.c:402-545): only a client that works takes a question. -/
def ask (s : St) (q : Query) : Option (St × List Out) :=
  match s.status with
  | .work => (isSub q.cmd).map fun b => ((put s b q).1, [.taken s.count, .send (message (put s b q).2)])
  | _ => some (s, [.refused])

/-- `sisdb_client_ask_unsub` (workers/sisdb_client/sisdb_client.c:332-350) for the question that `sisdb_client_ask_get` finds: the
message names neither the question nor the service. -/
def unsub (s : St) (name : Bytes) : St × List Out :=
  match find s (some name) with
  | some a =>
    if a.sub then
      (drop s a.sno, [.send { cmd := some (str "unsub"), subject := a.q.key.map cstrOf, info := buf a.q.val,
                              sw := { cmd := true, subject := a.q.key.isSome, info := (buf a.q.val).isSome } }])
    else (s, [])
  | none => (s, [])

/-- One event (workers/sisdb_client/sisdb_client.c:135-289, 332-350, 402-545); `none`: undefined behaviour. -/
def step (s : St) : Ev → Option (St × List Out)
  | .connected => some (connect s)
  | .disconnect => some ({ s with status := .init }, [.down])
  | .recv m => some (recv s m)
  | .ask q => ask s q
  | .unsub n => some (unsub s n)
  | .close => some ({ s with status := .exit }, [])

/-- A life: the events one after the other, and what is seen at each (workers/sisdb_client/sisdb_client.c:135-545). -/
def run : St → List Ev → Option (St × List (List Out))
  | s, [] => some (s, [])
  | s, e :: es => (step s e).bind fun x => (run x.1 es).map fun y => (y.1, x.2 :: y.2)

/-- `cmd_sisdb_client_status` (workers/sisdb_client/sisdb_client.c:396-401). -/
def works (s : St) : Bool := decide (s.status = .work)

/-! ### Asking in small steps -/

/-- The steps of a thread that asks: the counter is read, written back, the question put into the table, its format set and the
message sent (workers/sisdb_client/sisdb_client.c:299-303, 420-424). -/
inductive Micro
  | read (t : Nat)
  | write (t : Nat)
  | enter (t : Nat) (q : Query)
  | fin (t : Nat)
deriving DecidableEq, Repr

/-- What a thread holds: the counter it read, and its question (workers/sisdb_client/sisdb_client.c:299-303). -/
structure Local where
  seen : Nat
  ask : Option Ask
deriving DecidableEq, Repr

/-- One small step of a client that works (workers/sisdb_client/sisdb_client.c:290-304, 411-424); `none`: undefined behaviour (a
question is written to that is not in the table any more has been freed), or the thread is not so far. -/
def micro (x : St × (Nat → Local)) : Micro → Option (St × (Nat → Local))
  | .read t => some (x.1, fun u => if u = t then ⟨x.1.next, none⟩ else x.2 u)
  | .write t => some ({ x.1 with next := ((x.2 t).seen + 1) % 4294967296 }, x.2)
  | .enter t q =>
    (isSub q.cmd).map fun b =>
      let n := (x.2 t).seen % 0xFFFFFF
      let a : Ask := ⟨x.1.count, n, b, q, false⟩
      ({ drop x.1 n with count := x.1.count + 1, asks := (drop x.1 n).asks ++ [a] },
        fun u => if u = t then ⟨(x.2 t).seen, some a⟩ else x.2 u)
  | .fin t =>
    (x.2 t).ask.bind fun a => if x.1.asks.any fun b => decide (b.id = a.id) then some x else none

/-- Small steps in the order of a schedule (workers/sisdb_client/sisdb_client.c:290-304, 411-424). -/
def micros (x : St × (Nat → Local)) : List Micro → Option (St × (Nat → Local))
  | [] => some x
  | m :: ms => (micro x m).bind fun y => micros y ms

end Sis.Cli
