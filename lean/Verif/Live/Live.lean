import Verif.Server.Sub
import Verif.Csv.Csv
/-
Model of the live data service (`workers/subdb/subdb.c`): a source declares the keys and the tables of a day, starts it, publishes
records and stops it; clients subscribe and unsubscribe at any time.  No log is configured (`wlog_worker` is NULL), the callbacks are
set (`cmd_subdb_init`, workers/subdb/subdb.c:122-143).  `none` is an access through a NULL or freed pointer, or behind an array.
-/
namespace Sis.Live

open Sis.Access (str)

/-- SIS_SUB_STATUS_NONE, _INIT, _WORK, _STOP (workers/sisdb_server/sisdb_sub.h:20-23). -/
inductive Stat
  | idle | init | work | stop
deriving DecidableEq, Repr

/-- `s_subdb_userinfo` (workers/subdb/subdb.h:11-17). -/
structure User where
  cid : Int
  stat : Stat
  keys : Option Bytes
  sdbs : Option Bytes
deriving DecidableEq

/-- A pointer to a text: NULL, a text, or a text that was freed (`work_sdbs`, workers/subdb/subdb.h:29). -/
inductive Ptr
  | null
  | live (s : Bytes)
  | freed
deriving DecidableEq

/-- `s_subdb_cxt` (workers/subdb/subdb.h:19-42).  The map of the users is a list with one entry for each connection. -/
structure Cxt where
  stat : Stat
  date : Nat
  readers : Int
  keys : Option Bytes
  sdbs : Ptr
  users : List User
  subs : Sub.St
deriving DecidableEq

/-- What a client receives: SIS_NET_TAG_SUB_START, _SUB_KEY, _SUB_SDB, _SUB_WAIT, _SUB_STOP with their texts, and published records
with their subject and content (workers/subdb/subdb.c:252-256, 313-341, 368). -/
inductive Msg
  | start (date : Bytes)
  | keys (text : Bytes)
  | sdbs (text : Bytes)
  | wait (date : Bytes)
  | stop (date : Bytes)
  | data (subject info : Bytes)
deriving DecidableEq

/-- The answer to a command: SIS_METHOD_OK, SIS_METHOD_ERROR, or a number (workers/subdb/subdb.c:172-404). -/
inductive Reply
  | ok
  | error
  | num (n : Int)
deriving DecidableEq

/-- The commands (workers/subdb/subdb.c:10-18).  `set` with the tag of keys, the tag of tables, or another one: its text is NULL or
not.  `start` with the number in its text, and the date of today for a text with no number or zero. -/
inductive Cmd
  | setKeys (info : Option Bytes)
  | setSdbs (info : Option Bytes)
  | setOther
  | start (date today : Nat)
  | stop
  | pub (subject info : Bytes)
  | sub (cid : Int) (subject : Bytes)
  | unsub (cid : Int)
deriving DecidableEq

/-- `subdb_init` (workers/subdb/subdb.c:66-104). -/
def init : Cxt := ⟨.idle, 0, 0, none, .null, [], Sub.start⟩

/-- `!sis_strcasecmp(s, "*")`; NULL is no star (src/core/sis_utils.c:581, 637). -/
def isStar (s : Option Bytes) : Bool :=
  match s with
  | none => false
  | some l => caseEq l (str "*")

/-- `sis_match_key` (src/core/sis_utils.c:578-607). -/
def matchKey (m : Option Bytes) (whole : Bytes) : Option Bytes :=
  if isStar m then some whole
  else match (Csv.loadList 44 whole).filter fun k => Sub.subcmp false k m with
    | [] => none
    | k :: ks => some (Sdb.joinNames (k :: ks))

/-- Whether a member is kept (src/core/sis_utils.c:655-667). -/
def keeps (m : Option Bytes) (n : Json.Node) : Bool :=
  match n.key with
  | none => false
  | some k => Sub.subcmp true k m

/-- `sis_match_sdb_of_sds` (src/core/sis_utils.c:634-674); `none` is NULL. -/
def matchSdbs (m : Option Bytes) (whole : Bytes) : Option Bytes :=
  if isStar m then some whole
  else match Json.load whole with
    | some (some n) => Json.outputZip (.mk n.ty n.key n.value (n.child.filter (keeps m)))
    | _ => some whole

/-- `sis_llutoa(work_date, ..)` (workers/subdb/subdb.c:239-240, 303-304). -/
def dateText (d : Nat) : Bytes := Num.llutoa d 32

/-- `subdb_userinfo_incr` (workers/subdb/subdb.c:34-47): a connection that is there already keeps its subject. -/
def userIncr (c : Cxt) (cid : Int) (subject : Bytes) : Cxt :=
  if c.users.any (fun u => u.cid == cid) then c
  else { c with users := c.users ++ [⟨cid, .init, Sub.part (Sub.before subject), Sub.part (Sub.after subject)⟩] }

/-- `subdb_userinfo_decr` (workers/subdb/subdb.c:48-58). -/
def userDecr (c : Cxt) (cid : Int) : Cxt :=
  if c.users.any (fun u => u.cid == cid) then
    { c with users := c.users.filter (fun u => u.cid != cid), readers := max (c.readers - 1) 0 }
  else c

/-- The messages for a new reader (workers/subdb/subdb.c:311-343): the length of a list of tables that is NULL cannot be taken. -/
def announce (date : Bytes) (keys : Bytes) (sdbs : Bytes) (u : User) : Option (List (Int × Msg)) :=
  match matchSdbs u.sdbs sdbs with
  | none => none
  | some t =>
    some ([(u.cid, .start date)] ++ (match matchKey u.keys keys with | none => [] | some k => [(u.cid, .keys k)]) ++
      [(u.cid, .sdbs t), (u.cid, .wait date)])

/-- The loop over the users (workers/subdb/subdb.c:307-351): the users after it, the messages, and how many were new.  The lists are
only looked at for a new reader. -/
def openUsers (date : Bytes) (keys : Option Bytes) (sdbs : Ptr) : List User → Option (List User × List (Int × Msg) × Nat)
  | [] => some ([], [], 0)
  | u :: us =>
    if u.stat = .init then
      match keys, sdbs with
      | some k, .live s => do
        let a ← announce date k s u
        let (us, ms, n) ← openUsers date keys sdbs us
        some ({ u with stat := .work } :: us, a ++ ms, n + 1)
      | _, _ => none
    else do
      let (us, ms, n) ← openUsers date keys sdbs us
      some (u :: us, ms, n)

/-- The part of `_subdb_reader_init` behind the tests of the status (workers/subdb/subdb.c:297-355). -/
def openReaders (c : Cxt) : Option (Cxt × List (Int × Msg)) :=
  if (c.users.length : Int) ≤ c.readers then some (c, [])
  else (openUsers (dateText c.date) c.keys c.sdbs c.users).map fun (us, ms, n) =>
    ({ c with users := us, readers := c.readers + n }, ms)

/-- `_subdb_reader_init` (workers/subdb/subdb.c:283-356) with its answer. -/
def readerInit (c : Cxt) : Option (Cxt × List (Int × Msg) × Bool) :=
  match c.stat with
  | .stop => some (c, [], false)
  | .idle => some (c, [], false)
  | .work => (openReaders c).map fun (c, ms) => (c, ms, true)
  | .init =>
    if c.keys = none ∨ c.sdbs = .null then some (c, [], false)
    else (openReaders { c with stat := .work }).map fun (c, ms) => (c, ms, true)

/-- `cmd_subdb_set` with the tag of tables (workers/subdb/subdb.c:189-200): the old text is freed first. -/
def setSdbs (c : Cxt) (info : Option Bytes) : Option (Cxt × Reply) :=
  match c.sdbs, info with
  | .freed, _ => none
  | _, none => none
  | p, some s =>
    match Json.load s with
    | some (some n) =>
      some ({ c with sdbs := match Json.outputZip n with | none => .null | some t => .live t }, .ok)
    | _ => some ({ c with sdbs := match p with | .null => .null | _ => .freed }, .error)

/-- `cmd_subdb_stop` (workers/subdb/subdb.c:227-281). -/
def stop (c : Cxt) : Cxt × List (Int × Msg) × Reply :=
  if c.stat = .stop ∨ c.stat = .idle then (c, [], .error)
  else ({ c with users := c.users.map fun u => { u with stat := .stop }, readers := 0, stat := .stop },
    (c.users.filter fun u => u.stat != .stop).map (fun u => (u.cid, .stop (dateText c.date))), .ok)

/-- `cmd_subdb_pub` (workers/subdb/subdb.c:357-374): the content is relayed as it is
(workers/sisdb_server/sisdb_sub.c:206-221). -/
def pub (c : Cxt) (subject info : Bytes) : Option (Cxt × List (Int × Msg) × Reply) :=
  match readerInit c with
  | none => none
  | some (c, ms, false) => some (c, ms, .error)
  | some (c, ms, true) => (Sub.pub c.subs subject).map fun cids => (c, ms ++ cids.map (fun i => (i, .data subject info)), .ok)

/-- The commands (workers/subdb/subdb.c:172-404): the state after it, what is sent to whom, and the answer. -/
def step (c : Cxt) : Cmd → Option (Cxt × List (Int × Msg) × Reply)
  | .setKeys info => info.map fun k => ({ c with keys := some k }, [], .ok)
  | .setSdbs info => (setSdbs c info).map fun (c, r) => (c, [], r)
  | .setOther => some (c, [], .ok)
  | .start date today =>
    some ({ c with date := if date = 0 then today else date, users := c.users.map fun u => { u with stat := .init }, readers := 0,
                   stat := .init }, [], .ok)
  | .stop => some (stop c)
  | .pub subject info => pub c subject info
  | .sub cid subject =>
    (Sub.sub (userIncr c cid subject).subs cid subject true).map fun (s, n) => ({ userIncr c cid subject with subs := s }, [], .num n)
  | .unsub cid =>
    some ({ userDecr c cid with subs := (Sub.unsub (userDecr c cid).subs cid).1 }, [], .num (Sub.unsub (userDecr c cid).subs cid).2)

/-- The commands one after the other, with all that was sent (workers/subdb/subdb.c:172-404). -/
def run (c : Cxt) : List Cmd → Option (Cxt × List (Int × Msg))
  | [] => some (c, [])
  | k :: ks =>
    match step c k with
    | none => none
    | some (c, ms, _) => (run c ks).map fun (c, ns) => (c, ms ++ ns)

end Sis.Live
