import Verif.Server.SubTheorems
import Verif.Net.MsgTheorems
/-
Model of the data set in memory (`workers/memdb/memdb.c`) behind the dispatcher of the server
(`cb_reader_recv`, workers/sisdb_server/sisdb_server.c:411-485): requests for this service, with the access level of their sender, in
the order in which the reader thread handles them, and every message that is sent.

Simplifications: the table of texts is an association list (`Verif.Dict.DictTheorems`); a `set` without subject adds an entry for
the empty subject in front (in the code at a place that depends on the hash table).  The name of a notification (that of the
subscribing request) is left out.  The subscriptions are those of `Verif.Server.Sub`.
-/
namespace Sis.Memdb
open Sis Msg Json

/-- A request: the connection, the access level that `sisdb_server_get_access` finds for it, the message
(workers/sisdb_server/sisdb_server.c:397-409). -/
structure Req where
  cid : Int
  level : Int
  m : Msg

/-- `s_memdb_cxt` (workers/memdb/memdb.h:16-29): the texts by subject, the subscriptions, and whether `cb_net_message` is set. -/
structure W where
  keys : List (Bytes × Bytes)
  subs : Sub.St
  linked : Bool

/-- `memdb_methods` (workers/memdb/memdb.c:9-17). -/
inductive Cmd
  | init | get | set | sub | hsub | pub | unsub
deriving DecidableEq

/-- `memdb_methods` with their names (workers/memdb/memdb.c:9-17). -/
def methods : List (Bytes × Cmd) :=
  [(str "init", .init), (str "get", .get), (str "set", .set), (str "sub", .sub), (str "hsub", .hsub), (str "pub", .pub),
    (str "unsub", .unsub)]

/-- `sis_worker_get_method` (src/worker.c:543-552): names are compared without case; NULL is no name. -/
def method (cmd : Option Bytes) : Option Cmd :=
  cmd.bind fun c => (methods.find? fun e => caseEq c e.1).map Prod.snd

/-- The access flags of every method (workers/memdb/memdb.c:9-17). -/
def access : Nat := 0

/-- The worker after the `init` of the server (`sisdb_server_open_works`, workers/sisdb_server/sisdb_server.c:604-627). -/
def start : W := ⟨[], Sub.start, true⟩

/-- `sis_map_pointer_get` (src/core/sis_map.c:274-286). -/
def lookup : List (Bytes × Bytes) → Bytes → Option Bytes
  | [], _ => none
  | e :: r, k => if caseEq k e.1 then some e.2 else lookup r k

/-- `sis_map_pointer_set` (src/core/sis_map.c:300-304) with `sis_dict_replace` (src/core/sis_dict.c:443-464): the key of an entry
stays. -/
def put : List (Bytes × Bytes) → Bytes → Bytes → List (Bytes × Bytes)
  | [], k, v => [(cstrOf k, v)]
  | e :: r, k, v => if caseEq k e.1 then (e.1, v) :: r else e :: put r k v

/-- `SIS_NET_SET_BUF` (src/core/net/sis_net.msg.c:246): an empty text is no text. -/
def setBuf (m : Msg) (v : Bytes) : Msg :=
  if v = [] then { m with sw := { m.sw with info := false }, info := none }
  else { m with sw := { m.sw with info := true }, info := some v }

/-- The tag of a reply (src/core/net/sis_net.msg.c:462-493). -/
def setTag (m : Msg) (t : Int) : Msg := { m with bytes := false, tag := t, sw := { m.sw with tag := true } }

/-- `sis_net_msg_tag_int` (src/core/net/sis_net.msg.c:468-476). -/
def tagInt (m : Msg) (n : Int) : Msg :=
  { setTag m 1 with sw := { (setTag m 1).sw with info := true }, info := some (toString n).toUTF8.toList }

/-- `sis_net_msg_tag_error` (src/core/net/sis_net.msg.c:477-487). -/
def tagError (m : Msg) (t : Bytes) : Msg := setBuf (setTag m (-2)) t

/-- `sisdb_server_reply_ok` (workers/sisdb_server/sisdb_server.c:271-281): the tag is set only if there is none. -/
def replyOk (m : Msg) : Msg := if m.sw.tag then m else { m with tag := 0, sw := { m.sw with tag := true } }

/-- `sisdb_server_reply_no_method` (workers/sisdb_server/sisdb_server.c:304-314). -/
def noMethod (m : Msg) : Msg :=
  tagError m (str "no find method " ++ match m.cmd with | some c => [91] ++ cstrOf c ++ [93, 46] | none => [])

/-- `_make_notice_send` (workers/sisdb_server/sisdb_sub.c:206-221): nothing without a callback. -/
def notice (linked : Bool) (m : Msg) (cids : List Int) : List (Int × Msg) :=
  if linked then cids.map fun c => (c, { relay m none m.service m.cmd m.subject with bytes := true }) else []

/-- The methods of the worker (workers/memdb/memdb.c:89-189) and the reply of the server
(workers/sisdb_server/sisdb_server.c:335-394; no reply for `pub`).  `none`: undefined behaviour in the subscriptions. -/
def exec (w : W) (cid : Int) (m : Msg) : Cmd → Option (W × List (Int × Msg))
  | .init => some (⟨[], Sub.start, false⟩, [(cid, replyOk m)])
  | .get =>
    match m.subject.bind (lookup w.keys) with
    | none => some (w, [(cid, replyOk (setTag m (-3)))])
    | some v => some (w, [(cid, replyOk (setBuf { m with bytes := false } v))])
  | .set =>
    match m.info with
    | none => some (w, [(cid, replyOk (tagError m (str "no data.")))])
    | some v =>
      match m.subject with
      | some k => some ({ w with keys := put w.keys k (cstrOf v) }, [(cid, replyOk (setTag m 0))])
      | none => some ({ w with keys := ([], cstrOf v) :: w.keys }, [(cid, replyOk (setTag m 0))])
  | .sub => (Sub.sub w.subs cid (m.subject.getD []) false).map fun (s, o) => ({ w with subs := s }, [(cid, replyOk (tagInt m o))])
  | .hsub => (Sub.sub w.subs cid (m.subject.getD []) true).map fun (s, o) => ({ w with subs := s }, [(cid, replyOk (tagInt m o))])
  | .pub => (Sub.pub w.subs (m.subject.getD [])).map fun cids => (w, notice w.linked m cids)
  | .unsub => some ({ w with subs := (Sub.unsub w.subs cid).1 }, [(cid, replyOk (tagInt m (Sub.unsub w.subs cid).2))])

/-- Whether the command is `auth` (`sis_strcasecmp`, workers/sisdb_server/sisdb_server.c:418; NULL is not). -/
def isAuth (cmd : Option Bytes) : Bool :=
  match cmd with
  | some c => caseEq (str "auth") c
  | none => false

/-- `cb_reader_recv` (workers/sisdb_server/sisdb_server.c:411-485) for a request to this service; a message from the network has no
map, so `init` finds no callback in it (src/core/sis_message.c:57-64). -/
def serve (w : W) (r : Req) : Option (W × List (Int × Msg)) :=
  if r.level < 0 ∧ isAuth r.m.cmd = false then some (w, [(r.cid, tagError r.m (str "no auth."))])
  else
    match method r.m.cmd with
    | none => some (w, [(r.cid, noMethod r.m)])
    | some c => if Access.accessMethod access r.level then exec w r.cid r.m c else some (w, [(r.cid, noMethod r.m)])

/-- The requests one after the other, and what is sent for each (workers/sisdb_server/sisdb_server.c:411-485). -/
def run : W → List Req → Option (W × List (List (Int × Msg)))
  | w, [] => some (w, [])
  | w, r :: rs => (serve w r).bind fun x => (run x.1 rs).map fun y => (y.1, x.2 :: y.2)

end Sis.Memdb
