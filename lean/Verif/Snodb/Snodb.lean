import Verif.Strs.Json
/-
Model of the stream of a day (`workers/snodb/snodb.c` and `workers/snodb/snodb_reader.c`): one source publishes, many connections
subscribe, and each of them is served by a thread of its own that reads the list of packets.

Simplifications.  Every command, and every packet a thread hands on, is one step; the threads come in between in any order.  What the
compressor makes of the records is not computed here (`Verif.Zip.Incr`): the packets it hands on are part of the event, so that they are any
packets.  Of a subscriber to a part of the data the model only says which packets go into its own decompressor.  Of a
subscription to another day it only says whether there is one.  A list with a size of its own (`catch-size` above 0) is not
modelled; the log of the day is in `Verif.Snodb.Wlog`.
-/
namespace Sis.Snodb
open Sis

/-- SIS_SUB_STATUS_* of the stream (workers/sisdb_server/sisdb_sub.h:20-23); no line of the program gives it the value STOP. -/
inductive Status
  | none | init | work
deriving DecidableEq, Repr

/-- SIS_SUB_STATUS_* of a subscriber (workers/sisdb_server/sisdb_sub.h:20-23). -/
inductive RStatus
  | init | work | stop
deriving DecidableEq, Repr

/-- A text the stream holds: NULL, a text, or a pointer to memory that is free (workers/snodb/snodb.c:348-359). -/
inductive Slot
  | null
  | val (b : Bytes)
  | freed
deriving DecidableEq, Repr

/-- Where a subscriber's thread is in the list (src/core/sis_list.lock.c:429-460): there is none, it has not begun, it has read that many
packets, or its place is in memory that is free. -/
inductive Cursor
  | closed
  | fresh
  | pos (k : Nat)
  | lost
deriving DecidableEq, Repr

/-- `s_snodb_reader` (workers/snodb/snodb.h:39-84). -/
structure Reader where
  cid : Nat
  serial : Option Bytes
  zip : Bool
  head : Bool
  whole : Bool
  keys : Bytes
  sdbs : Bytes
  status : RStatus
  isinit : Bool
  cursor : Cursor
  realtime : Bool
deriving DecidableEq, Repr

/-- `s_snodb_cxt` (workers/snodb/snodb.h:90-143): `out` are the packets since the list was last cleared, the first `gone` of which
have been let go; `near` is the number of the latest packet that begins a block, `dict` the keys and tables of the compressor, if there
is one, and `ago` the connections that read another day. -/
structure St where
  status : Status
  date : Nat
  keys : Slot
  sdbs : Slot
  out : List Bytes
  gone : Nat
  near : Option Nat
  readers : List Reader
  cur : Nat
  dict : Option (Bytes × Bytes)
  inputs : List (Int × Int × Bytes)
  ago : List Nat
deriving DecidableEq, Repr

/-- What the model takes from outside: whether the list keeps all packets (`catch-size` 0) or none (the default,
workers/snodb/snodb.c:163-175), how a description of tables is read and written again (workers/snodb/snodb.c:351-358), and what
a subscriber's lists choose from keys and tables (src/core/sis_utils.c:579-678). -/
structure Env where
  keep : Bool
  conv : Bytes → Option Bytes
  pickKeys : Bytes → Bytes → Bytes
  pickSdbs : Bytes → Bytes → Bytes

/-- A subscription (workers/snodb/snodb_reader.c:17-71): the connection, the name of the question, the two parts of the subject (none if it has
no two parts that are not empty), the format is the packed one, from the head, the day asked for, today, and whether a
file of another day can be read. -/
structure Ask where
  cid : Nat
  serial : Option Bytes
  parts : Option (Bytes × Bytes)
  zip : Bool
  head : Bool
  day : Option Nat
  today : Nat
  disk : Bool
deriving DecidableEq, Repr

/-- What happens (workers/snodb/snodb.c:15-32): keys or tables are set, a day starts or stops (with what the compressor still hands
on), a record or a packet is published, the input thread takes the next record and the compressor hands on packets, someone subscribes
or goes, a subscriber's thread takes a step, and the watcher lets packets go. -/
inductive Ev
  | keys (info : Option Bytes)
  | sdbs (info : Option Bytes)
  | start (day : Nat)
  | stop (last : List Bytes)
  | pub (k s : Int) (data : Bytes)
  | zpub (data : Bytes)
  | pack (ps : List Bytes)
  | sub (a : Ask)
  | unsub (cid : Nat)
  | read (cid : Nat)
  | shed
deriving DecidableEq, Repr

/-- What a subscriber is sent (workers/snodb/snodb_reader.c:250-409). -/
inductive Note
  | start (day : Nat)
  | keys (b : Bytes)
  | sdbs (b : Bytes)
  | packet (b : Bytes)
  | part (b : Bytes)
  | wait (day : Nat)
  | stop (day : Nat)
deriving DecidableEq, Repr

/-- What is seen: the answer to a command, a message to a subscriber, packets of the compressor with the keys and
tables it works with (workers/snodb/snodb.c:472-643, workers/snodb/snodb_reader.c:250-409). -/
inductive Out
  | answer (ok : Bool)
  | send (cid : Nat) (serial : Option Bytes) (n : Note)
  | coded (keys sdbs : Bytes) (ps : List Bytes)
deriving DecidableEq, Repr

/-- `snodb_init` (workers/snodb/snodb.c:134-250). -/
def init (today : Nat) : St :=
  ⟨.none, today, .null, .null, [], 0, none, [], 0, none, [], []⟩

/-- `sis_incrzip_isinit` (src/core/zip/sis_incrzip.c:234-241). -/
def begins (p : Bytes) : Bool :=
  match p with
  | [] => false
  | b :: _ => b &&& 0x80 != 0

/-- `cmd_snodb_set`, keys (workers/snodb/snodb.c:343-347). -/
def setKeys (s : St) (info : Option Bytes) : Option (St × List Out) :=
  match info with
  | none => none
  | some b => some ({ s with keys := .val b }, [.answer true])

/-- `cmd_snodb_set`, tables (workers/snodb/snodb.c:348-360). -/
def setSdbs (e : Env) (s : St) (info : Option Bytes) : Option (St × List Out) :=
  if s.sdbs = .freed then none
  else match info with
  | none => none
  | some b =>
    match e.conv b with
    | none => some ({ s with sdbs := .freed }, [.answer false])
    | some t => some ({ s with sdbs := .val t }, [.answer true])

/-- What clearing the list does to a subscriber's place (src/core/sis_list.lock.c:42-54, 791-803): all nodes but the last one are
freed. -/
def cleared (n : Nat) (r : Reader) : Reader :=
  { r with cursor := match r.cursor with
    | .pos k => if k = n then .pos 0 else .lost
    | c => c }

/-- `cmd_snodb_start` with `_snodb_write_start` (workers/snodb/snodb.c:362-412); a list that keeps nothing is not cleared
(src/core/sis_list.lock.c:793-796). -/
def start (e : Env) (s : St) (day : Nat) : St × List Out :=
  let rs := if e.keep then s.readers.map (cleared s.out.length) else s.readers
  ({ s with inputs := [], near := none, date := day, status := .init, cur := 0,
            out := if e.keep then [] else s.out,
            gone := if e.keep then 0 else s.gone,
            readers := rs.map fun r => { r with status := .init } },
   [.answer true])

/-- The packets are put on the list (`_snodb_write_incrzip`, workers/snodb/snodb.c:472-498); an empty one is not. -/
def push (s : St) (p : Bytes) : St :=
  if p = [] then s
  else { s with out := s.out ++ [p], near := if begins p then some s.out.length else s.near }

/-- Packets one after the other (workers/snodb/snodb.c:472-498). -/
def pushes (s : St) (ps : List Bytes) : St := ps.foldl push s

/-- `snodb_reader_realtime_stop` (workers/snodb/snodb_reader.c:766-798) and the status (workers/snodb/snodb.c:446-452). -/
def stopped (r : Reader) : Reader :=
  if r.status = .stop then r else { r with status := .stop, cursor := .closed, realtime := false }

/-- The message of it (workers/snodb/snodb_reader.c:771-776). -/
def stopNote (day : Nat) (r : Reader) : List Out :=
  if r.status = .stop then [] else [.send r.cid r.serial (.stop day)]

/-- `cmd_snodb_stop` (workers/snodb/snodb.c:414-470). -/
def stop (s : St) (last : List Bytes) : St × List Out :=
  if s.status = .none then (s, [.answer false])
  else
    let s := { s with inputs := [] }
    let (s, o) := match s.dict with
      | none => (s, [])
      | some d => ({ pushes s last with dict := none }, [Out.coded d.1 d.2 last])
    ({ s with readers := s.readers.map stopped, cur := 0 }, o ++ s.readers.flatMap (stopNote s.date) ++ [.answer true])

/-- `snodb_reader_realtime_start` (workers/snodb/snodb_reader.c:679-764) and the status (workers/snodb/snodb.c:564-570). -/
def started (r : Reader) : Reader :=
  if r.status = .init then
    { r with status := .work, isinit := false, cursor := if r.cursor = .closed then .fresh else r.cursor }
  else r

/-- The messages of it (workers/snodb/snodb_reader.c:730-745). -/
def startNotes (e : Env) (day : Nat) (k t : Bytes) (r : Reader) : List Out :=
  if r.status = .init then
    [.send r.cid r.serial (.start day),
     .send r.cid r.serial (.keys (if r.whole then k else e.pickKeys r.keys k)),
     .send r.cid r.serial (.sdbs (if r.whole then t else e.pickSdbs r.sdbs t))]
  else []

/-- `_snodb_write_init` (workers/snodb/snodb.c:531-575); the answer of the middle says whether it was true.  `none`: a text that is free is read. -/
def writeInit (e : Env) (s : St) : Option (St × Bool × List Out) :=
  if s.status = .none then some (s, false, [])
  else if s.status = .init ∧ (s.keys = .null ∨ s.sdbs = .null) then some (s, false, [])
  else if s.status = .init ∧ (s.keys = .freed ∨ s.sdbs = .freed) then none
  else
    let s := { s with status := .work }
    if s.readers.length ≤ s.cur then some (s, true, [])
    else if s.readers.any (fun r => decide (r.status = .init)) then
      match s.keys, s.sdbs with
      | .val k, .val t =>
        some ({ s with readers := s.readers.map started, cur := s.cur + s.readers.countP (fun r => decide (r.status = .init)) }, true,
          s.readers.flatMap (startNotes e s.date k t))
      | _, _ => none
    else some (s, true, [])

/-- `_snodb_write_bytes` (workers/snodb/snodb.c:500-529): the record waits for the input thread; the compressor is made if there is none. -/
def writeBytes (s : St) (k t : Int) (data : Bytes) : Option St :=
  if k < 0 ∨ t < 0 ∨ data = [] then some s
  else
    match s.dict, s.keys, s.sdbs with
    | some _, _, _ => some { s with inputs := s.inputs ++ [(k, t, data)] }
    | none, .val a, .val b => some { s with dict := some (a, b), inputs := s.inputs ++ [(k, t, data)] }
    | none, _, _ => none

/-- `cmd_snodb_pub` and `cmd_snodb_ipub` (workers/snodb/snodb.c:577-610); a key or table without number has -1. -/
def pub (e : Env) (s : St) (k t : Int) (data : Bytes) : Option (St × List Out) :=
  match writeInit e s with
  | none => none
  | some (s, false, o) => some (s, o ++ [.answer false])
  | some (s, true, o) => (writeBytes s k t data).map fun s => (s, o ++ [.answer true])

/-- `cmd_snodb_zpub` (workers/snodb/snodb.c:612-627). -/
def zpub (e : Env) (s : St) (p : Bytes) : Option (St × List Out) :=
  match writeInit e s with
  | none => none
  | some (s, false, o) => some (s, o ++ [.answer false])
  | some (s, true, o) => some (push s p, o ++ [.answer (decide (p ≠ []))])

/-- `cb_input_reader` (workers/snodb/snodb.c:63-96): the next record, or none for a time, goes to the compressor. -/
def pack (s : St) (ps : List Bytes) : St × List Out :=
  match s.status, s.dict with
  | .work, some d => ({ pushes s ps with inputs := s.inputs.tail }, [.coded d.1 d.2 ps])
  | _, _ => ({ s with inputs := s.inputs.tail }, [])

/-- `snodb_remove_reader` (workers/snodb/snodb_reader.c:487-509). -/
def remove (s : St) (cid : Nat) : St :=
  let s := if s.readers.any fun r => decide (r.cid = cid) then
      { s with readers := s.readers.filter (fun r => !decide (r.cid = cid)), cur := s.cur - 1 }
    else s
  { s with ago := s.ago.filter fun c => !decide (c = cid) }

/-- `s_snodb_reader` as it is made (workers/snodb/snodb_reader.c:19-79). -/
def reader (a : Ask) (k t : Bytes) : Reader :=
  ⟨a.cid, a.serial, a.zip, a.head, decide (k = [42]) && decide (t = [42]), k, t, .init, false, .closed, false⟩

/-- `cmd_snodb_sub` with `snodb_register_reader`, `snodb_reader_new_history` and `snodb_reader_new_realtime` (workers/snodb/snodb.c:629-643,
workers/snodb/snodb_reader.c:17-99, 456-485). -/
def sub (s : St) (a : Ask) : St × List Out :=
  let s := { s with date := max s.date a.today }
  match a.parts with
  | none => (s, [.answer true])
  | some (k, t) =>
    if a.day.getD s.date < s.date then
      let s := if s.ago.contains a.cid then remove s a.cid else s
      (if a.disk then { s with ago := s.ago ++ [a.cid] } else s, [.answer true])
    else if s.readers.any fun r => decide (r.cid = a.cid) then (s, [.answer true])
    else ({ s with readers := s.readers ++ [reader a k t] }, [.answer true])

/-- `cb_output_reader` with `cb_output_reader_send` (workers/snodb/snodb_reader.c:512-567): packet `i` comes to a subscriber. -/
def deliver (near : Option Nat) (i : Nat) (p : Bytes) (r : Reader) : Reader × List Note :=
  let go := r.isinit || (begins p && (r.head || decide (near = some i)))
  ({ r with isinit := go },
    if go then (if r.whole then (if r.zip then [.packet p] else []) else [.part p]) else [])

/-- A step of the thread of a subscriber (`_thread_reader`, src/core/sis_list.lock.c:429-518): the next packet, or, the first time there is
none, the message that it is up to date (`cb_output_realtime`, workers/snodb/snodb_reader.c:569-592).  `none`: memory that is free is read. -/
def readOne (s : St) (r : Reader) : Option (Reader × List Note) :=
  match r.cursor with
  | .closed => some (r, [])
  | .lost => none
  | .fresh => some ({ r with cursor := .pos s.gone }, [])
  | .pos k =>
    match s.out[k]? with
    | some p =>
      let x := deliver s.near k p r
      some ({ x.1 with cursor := .pos (k + 1) }, x.2)
    | none => if r.realtime then some (r, []) else some ({ r with realtime := true }, [.wait s.date])

/-- A step of the thread of connection `cid` (src/core/sis_list.lock.c:429-518). -/
def read (s : St) (cid : Nat) : Option (St × List Out) :=
  match s.readers.find? (fun r => decide (r.cid = cid)) with
  | none => some (s, [])
  | some r =>
    (readOne s r).map fun x =>
      ({ s with readers := s.readers.map fun q => if q.cid = cid then x.1 else q }, x.2.map fun n => .send r.cid r.serial n)

/-- The watcher lets the first packet go (`_thread_watcher`, src/core/sis_list.lock.c:621-715): another one follows, the list is not to keep
all, and no subscriber stands at it or before it; one that has not begun to read does not count (the program does not look for subscribers before it: `Verif.Sync.LockList`). -/
def shed (e : Env) (s : St) : St :=
  if !e.keep && decide (s.gone + 1 < s.out.length) &&
      s.readers.all (fun r => match r.cursor with | .pos k => decide (s.gone + 1 < k) | _ => true)
  then { s with gone := s.gone + 1 } else s

/-- One event (workers/snodb/snodb.c:63-96, 337-653). -/
def step (e : Env) (s : St) : Ev → Option (St × List Out)
  | .keys b => setKeys s b
  | .sdbs b => setSdbs e s b
  | .start d => some (start e s d)
  | .stop l => some (stop s l)
  | .pub k t d => pub e s k t d
  | .zpub p => zpub e s p
  | .pack ps => some (pack s ps)
  | .sub a => some (sub s a)
  | .unsub c => some (remove s c, [.answer true])
  | .read c => read s c
  | .shed => some (shed e s, [])

/-- A history (workers/snodb/snodb.c:63-96, 337-653). -/
def run (e : Env) : St → List Ev → Option (St × List (List Out))
  | s, [] => some (s, [])
  | s, v :: vs => (step e s v).bind fun x => (run e x.1 vs).map fun y => (y.1, x.2 :: y.2)

/-- The place of a name in a dictionary (`sis_map_list_get_index`, src/core/sis_map.c:175-189). -/
def place (names : List Bytes) (n : Bytes) : Option Nat := names.findIdx? (· == n)

/-- `cb_decode` of a subscriber to a part (workers/snodb/snodb_reader.c:609-677): the record of key `k` and table `t` of all the data goes on, and
under which numbers; `keys`, `sdbs` are all names, `ks`, `ts` those of the subscriber.  `none`: a table that is not there is read
(workers/sisdb_server/sisdb_incr.c:88-92). -/
def decode (zip : Bool) (keys sdbs ks ts : List Bytes) (k t : Nat) : Option (Option (Nat × Nat)) :=
  match keys[k]?, sdbs[t]? with
  | _, none => none
  | none, some _ => some none
  | some kn, some tn =>
    match place ks kn, (if zip then place ts tn else place ks tn) with
    | some i, some j => some (some (i, j))
    | _, _ => some none

end Sis.Snodb
