import Verif.Strs.Case
/-
Model of users, authentication and access control of the server (`workers/sisdb_server/sisdb_server.c`,
`workers/sisdb_server/sisdb_sys.c`).

Messages arrive in network threads and are queued (`cb_socket_recv`); one reader thread handles them in order
(`cb_reader_recv`); connections are closed in network threads (`_cb_connect_close`).  The three are interleaved arbitrarily, each
as one atomic step: the code takes no lock around the map of logged-in connections, so races inside these steps are not modelled.
The maps are finite maps (`Verif.Dict.DictTheorems`, `Verif.Dict.MapListTheorems`).  `none` is an access through a NULL pointer.
JSON parsing is not modelled: a request carries the result.
-/
namespace Sis.Access

/-- A string as bytes (the literals of workers/sisdb_server/sisdb_server.c:14-29). -/
def str (s : String) : Bytes := s.toList.map fun c => UInt8.ofNat c.toNat

/-- A method of a worker: its name and its access flags (src/core/sis_method.h:30-38, 60-70). -/
structure Method where
  name : Bytes
  access : Nat
deriving DecidableEq

/-- SIS_METHOD_ACCESS_READ, WRITE, DEL, NONET, NOLOG, RDWR and ADMIN (src/core/sis_method.h:31-38). -/
def mREAD : Nat := 1
/-- `SIS_METHOD_ACCESS_WRITE` (src/core/sis_method.h:32). -/
def mWRITE : Nat := 2
/-- `SIS_METHOD_ACCESS_DEL` (src/core/sis_method.h:33). -/
def mDEL : Nat := 4
/-- `SIS_METHOD_ACCESS_NONET` (src/core/sis_method.h:34). -/
def mNONET : Nat := 0x100
/-- `SIS_METHOD_ACCESS_NOLOG` (src/core/sis_method.h:35). -/
def mNOLOG : Nat := 0x200
/-- `SIS_METHOD_ACCESS_RDWR` (src/core/sis_method.h:37). -/
def mRDWR : Nat := 3
/-- `SIS_METHOD_ACCESS_ADMIN` (src/core/sis_method.h:38). -/
def mADMIN : Nat := 7

/-- SIS_ACCESS_READ, WRITE, WORKER and ADMIN (workers/sisdb_server/sisdb_sys.h:10-13). -/
def aREAD : Int := 1
/-- `SIS_ACCESS_WRITE` (workers/sisdb_server/sisdb_sys.h:11). -/
def aWRITE : Int := 3
/-- `SIS_ACCESS_WORKER` (workers/sisdb_server/sisdb_sys.h:12). -/
def aWORKER : Int := 7
/-- `SIS_ACCESS_ADMIN` (workers/sisdb_server/sisdb_sys.h:13). -/
def aADMIN : Int := 15

/-- `sisdb_server_methods` (workers/sisdb_server/sisdb_server.c:14-29). -/
def serverMethods : List Method := [
  ⟨str "auth", mREAD⟩, ⟨str "show", mREAD⟩, ⟨str "setuser", mADMIN⟩, ⟨str "sub", mREAD⟩, ⟨str "unsub", mREAD⟩, ⟨str "open", mADMIN⟩,
  ⟨str "close", mADMIN⟩, ⟨str "save", mADMIN ||| mNOLOG⟩, ⟨str "pack", mADMIN ||| mNOLOG⟩, ⟨str "call", mREAD⟩]

/-- `sisdb_methods` (workers/sisdb/sisdb.c:14-42). -/
def sisdbMethods : List Method := [
  ⟨str "show", mREAD⟩, ⟨str "create", mRDWR⟩, ⟨str "get", mREAD⟩, ⟨str "set", mRDWR⟩, ⟨str "bset", mRDWR⟩, ⟨str "del", mRDWR⟩,
  ⟨str "drop", mRDWR⟩, ⟨str "gets", mREAD⟩, ⟨str "keys", mREAD⟩, ⟨str "dels", mADMIN⟩, ⟨str "sub", mREAD⟩, ⟨str "hsub", mREAD⟩,
  ⟨str "unsub", mREAD⟩, ⟨str "psub", mREAD⟩, ⟨str "unpsub", mREAD⟩, ⟨str "read", mREAD⟩, ⟨str "save", mADMIN ||| mNOLOG⟩,
  ⟨str "pack", mADMIN ||| mNOLOG⟩, ⟨str "init", mNONET⟩, ⟨str "open", mNONET⟩, ⟨str "close", mNONET⟩, ⟨str "rlog", mNONET⟩,
  ⟨str "wlog", mNONET⟩, ⟨str "clear", mNONET⟩]

/-- `sis_sys_access_method` (workers/sisdb_server/sisdb_sys.c:106-132). -/
def accessMethod (m : Nat) (level : Int) : Bool :=
  if m = 0 then true
  else if m &&& mNONET ≠ 0 then false
  else if level = mADMIN then true
  else if level = mWRITE ∧ m &&& mDEL ≠ 0 then false
  else if level = mREAD ∧ (m &&& mDEL ≠ 0 ∨ m &&& mWRITE ≠ 0) then false
  else true

/-- `sis_sys_access_atoi` (workers/sisdb_server/sisdb_sys.c:88-104), NULL being no string. -/
def accessOf (s : Option Bytes) : Int :=
  match s with
  | none => aREAD
  | some s =>
    if caseEq s (str "write") then aWRITE
    else if caseEq s (str "worker") then aWORKER
    else if caseEq s (str "admin") then aADMIN
    else aREAD

/-- `s_sisdb_userinfo` (workers/sisdb_server/sisdb_sys.h:20-26). -/
structure User where
  name : Bytes
  password : Bytes
  access : Int
deriving DecidableEq

/-- The information of a request: none, not JSON, or JSON with these values (workers/sisdb_server/sisdb_server.c:489-535). -/
inductive Body
  | absent
  | bad
  | json (username password access : Option Bytes)
deriving DecidableEq

/-- A request as the reader gets it: connection number, data set, command, information (src/core/net/sis_net.msg.h:84-120). -/
structure Req where
  cid : Int
  service : Option Bytes
  cmd : Option Bytes
  body : Body
deriving DecidableEq

/-- The server: its users, which connection is logged in as which user (`none`: users are not checked), the queue (workers/sisdb_server/sisdb_server.c:397-535). -/
structure St where
  users : List User
  access : Option (Int → Option Nat)
  queue : List Req

/-- What the outside sees: a refusal, an unknown or forbidden command, a command carried out, a successful login (workers/sisdb_server/sisdb_server.c:411-485). -/
inductive Out
  | denied (cid : Int)
  | noMethod (cid : Int)
  | ran (cid : Int) (service : Option Bytes) (m : Method)
  | authed (cid : Int) (user : Nat)
deriving DecidableEq

/-- The users are checked only if there are some when the server starts (workers/sisdb_server/sisdb_server.c:202-209). -/
def start (users : List User) : St := ⟨users, if users.length > 0 then some fun _ => none else none, []⟩

/-- `sis_map_list_get` on the users (src/core/sis_map.c:198-213): the position; names are compared without case. -/
def findUser (users : List User) (name : Option Bytes) : Option Nat :=
  name.bind fun n => users.findIdx? fun u => caseEq u.name n

/-- `sisdb_server_get_access` (workers/sisdb_server/sisdb_server.c:397-409). -/
def level (s : St) (cid : Int) : Int :=
  match s.access with
  | none => mADMIN
  | some a => match (a cid).bind (s.users[·]?) with
    | none => -1
    | some u => u.access

/-- `cmd_sisdb_server_auth` (workers/sisdb_server/sisdb_server.c:489-535).  For an unknown user the log line at 529 reads the password
through a NULL pointer. -/
def auth (s : St) (r : Req) : Option (St × List Out) :=
  match s.access with
  | none => some (s, [])
  | some a =>
    match r.body with
    | .absent => none
    | .bad => some (s, [])
    | .json name pass _ =>
      match findUser s.users name with
      | none => none
      | some i =>
        match s.users[i]?, pass with
        | some u, some p =>
          if caseEq u.password p then some ({ s with access := some fun c => if c = r.cid then some i else a c }, [.authed r.cid i])
          else some (s, [])
        | _, _ => some (s, [])

/-- `cmd_sisdb_server_setuser` (workers/sisdb_server/sisdb_server.c:564-603): a known user only gets a new access.  `sis_sdsnew`
makes an empty string of NULL (src/core/sis_sds.c:140-144).  Simplified: of several users added without a name the first is found,
in the code it is one of them. -/
def setuser (s : St) (r : Req) : Option (St × List Out) :=
  match r.body with
  | .absent => none
  | .bad => some (s, [])
  | .json name pass acc =>
    match findUser s.users name with
    | some i => some ({ s with users := s.users.modify i fun u => { u with access := accessOf acc } }, [])
    | none => some ({ s with users := s.users ++ [⟨name.getD [], pass.getD [], accessOf acc⟩] }, [])

/-- `sis_methods_get` (src/core/sis_method.c:39-47): names are compared without case. -/
def findMethod (t : List Method) (cmd : Option Bytes) : Option Method := cmd.bind fun c => t.find? fun m => caseEq m.name c

/-- The methods of the server itself, as far as users are concerned; the others leave them alone (workers/sisdb_server/sisdb_server.c:14-29, 489-535). -/
def runServer (s : St) (m : Method) (r : Req) : Option (St × List Out) :=
  if m.name = str "auth" then auth s r else if m.name = str "setuser" then setuser s r else some (s, [])

/-- The method a request may run (workers/sisdb_server/sisdb_server.c:426-470); `works` are the data sets open at this time. -/
def allowed (works : Bytes → Option (List Method)) (lv : Int) (r : Req) : Option Method :=
  match r.service with
  | some sv => (works sv).bind fun t => (findMethod t r.cmd).filter fun m => accessMethod m.access lv
  | none => (findMethod serverMethods r.cmd).filter fun m => accessMethod m.access lv

/-- Whether the command is `auth` (workers/sisdb_server/sisdb_server.c:419). -/
def isAuth (cmd : Option Bytes) : Bool :=
  match cmd with
  | none => false
  | some c => caseEq (str "auth") c

/-- `cb_reader_recv` (workers/sisdb_server/sisdb_server.c:411-485).  The write-ahead log and the replies are left out; a method of a
data set leaves the users alone. -/
def handle (s : St) (works : Bytes → Option (List Method)) (r : Req) : Option (St × List Out) :=
  if level s r.cid < 0 ∧ isAuth r.cmd = false then some (s, [.denied r.cid])
  else
    match allowed works (level s r.cid) r with
    | none => some (s, [.noMethod r.cid])
    | some m =>
      match r.service with
      | some sv => some (s, [.ran r.cid (some sv) m])
      | none => (runServer s m r).map fun (s', o) => (s', .ran r.cid none m :: o)

/-- What happens: a message arrives, the reader takes the oldest one, a connection closes (workers/sisdb_server/sisdb_server.c:258-270, 411-485). -/
inductive Ev
  | recv (r : Req)
  | work (works : Bytes → Option (List Method))
  | close (cid : Int)

/-- `cb_socket_recv` (workers/sisdb_server/sisdb_server.c:258-270), `cb_reader_recv` and `_cb_connect_close`
(workers/sisdb_server/sisdb_server.c:52-72). -/
def step (s : St) : Ev → Option (St × List Out)
  | .recv r => some ({ s with queue := s.queue ++ [r] }, [])
  | .work works =>
    match s.queue with
    | [] => some (s, [])
    | r :: q => handle { s with queue := q } works r
  | .close cid => some ({ s with access := s.access.map fun a c => if c = cid then none else a c }, [])

/-- A history from a state: the events with what the outside sees (workers/sisdb_server/sisdb_server.c:258-485). -/
inductive Hist (s0 : St) : List (Ev × List Out) → St → Prop
  | nil : Hist s0 [] s0
  | snoc {h s e s' o} : Hist s0 h s → step s e = some (s', o) → Hist s0 (h ++ [(e, o)]) s'

/-- The same as a function (workers/sisdb_server/sisdb_server.c:258-485). -/
def run (s : St) : List Ev → Option (St × List (List Out))
  | [] => some (s, [])
  | e :: es => do
    let (s, o) ← step s e
    let (s, os) ← run s es
    some (s, o :: os)

/-! The file with the users. -/

/-- `sis_sys_access_itoa` (workers/sisdb_server/sisdb_sys.c:69-87). -/
def accessName (a : Int) : Bytes :=
  if a = aADMIN then str "admin" else if a = aWORKER then str "worker" else if a = aWRITE then str "write" else str "read"

/-- An entry of the file: name, password and the name of the access (workers/sisdb_server/sisdb_server.c:839-876). -/
structure Entry where
  name : Bytes
  password : Bytes
  access : Bytes
deriving DecidableEq

/-- `.sissys.json`: absent, cut off, or with these entries (workers/sisdb_server/sisdb_server.c:839-876). -/
inductive File
  | missing
  | torn
  | whole (users : List Entry)
deriving DecidableEq

/-- The contents of the file after each step of `sisdb_server_sysinfo_save` (workers/sisdb_server/sisdb_server.c:800-838): it is
deleted and written again (src/core/sis_json.c:494-511). -/
def saveSteps (users : List User) : List File := [.missing, .torn, .whole (users.map fun u => ⟨u.name, u.password, accessName u.access⟩)]

/-- `sisdb_server_sysinfo_load` (workers/sisdb_server/sisdb_server.c:839-876) and the start of the server: without a readable file
there are no users.  Simplified: the file has every name once. -/
def restart : File → St
  | .missing => start []
  | .torn => start []
  | .whole es => start (es.map fun e => ⟨e.name, e.password, accessOf (some e.access)⟩)

end Sis.Access
