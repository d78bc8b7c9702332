import Verif.Strs.Case
import Verif.Time.Calendar
/-
Model of the merge by time of the records of many keys, `s_sis_subdb_cxt` (src/core/sis_db.c:209-539), by which a
subscription to files of tables plays them back (src/core/disk/sis_disk_read.c:895-1012).

Every key of a table has a queue of records, each with its time in the finest unit of the tables.  The merge goes round
the keys again and again: in every round each key publishes what is not later than the time of the round, and the least
time seen of what is left is the time of the next round.  When a queue is empty the client is told, and may hand in more
records of that key.

The queues are lists: they are used as C44 requires, by their first record only and never popped when empty.  The time of a
record is the number read by `sis_dynamic_db_get_time` (`Sis.Dyn`).  The key `k.s` is the
pair of its parts; a `k` with a dot in it is not modelled.  Names are compared without case, as the maps do.

Not modelled: `sis_subdb_cxt_init_sdbs` and `sis_subdb_cxt_init_data` with `sis_subdb_cxt_push_data`, callbacks other than
that of an empty queue that use the merge, and `sis_subdb_cxt_sub_stop` by a callback.
-/
namespace Sis.Mrg
open Sis.Time (Style Env convert)

/-- A record: the number in its time field, and its bytes (src/core/sis_db.c:356-368). -/
structure Item where
  time : Nat
  data : Bytes
deriving DecidableEq, Repr

/-- `s_sis_subdb_unit` (src/core/sis_db.h:82-88) with the key it is kept under; `tn` and `style` are those of its table,
`style` the style of the time field if there is one. -/
structure Chan where
  kn : Bytes
  sn : Bytes
  tn : Bytes
  style : Option Style
  q : List (Nat × Item) := []
deriving DecidableEq, Repr

/-- `SIS_SUBDB_*` (src/core/sis_db.h:90-93). -/
inductive Status
  | none
  | start
  | stop
  | stoped
deriving DecidableEq, Repr

/-- `s_sis_subdb_cxt` (src/core/sis_db.h:95-118), as `sis_subdb_cxt_create` (src/core/sis_db.c:234-241) makes it. -/
structure Cxt where
  tabs : List (Bytes × Option Style) := []
  scale : Option Style := none
  units : List Chan := []
  newMsec : Nat := 0
  newSums : Nat := 0
  status : Status := .none
deriving DecidableEq, Repr

/-- What the client is told (src/core/sis_db.c:420-514): the callbacks `cb_sub_start`, `cb_key_chars`, `cb_key_stop`,
`cb_sub_stop`. -/
inductive Out
  | started
  | record (kn sn : Bytes) (x : Item)
  | keyStop (kn sn : Bytes)
  | stopped
deriving DecidableEq, Repr

/-- Names in the maps of the merge (src/core/sis_map.c:105-112, 148-156). -/
def same (a b : Bytes) : Bool := a.map lower == b.map lower

/-- The letters of the styles (src/core/sis_dynamic.h:86-91). -/
def letter : Style → Nat
  | .wsec => 87
  | .msec => 84
  | .tsec => 83
  | .minu => 77
  | .date => 68
  | .year => 89

/-- `sis_max` of two styles (src/core/sis_db.c:304); no style yet is 0. -/
def finer : Style → Option Style → Option Style
  | a, none => some a
  | a, some b => if letter a > letter b then some a else some b

/-- `sis_subdb_cxt_set_sdbs` (src/core/sis_db.c:296-307). -/
def setTab (c : Cxt) (tn : Bytes) (style : Option Style) : Cxt :=
  if c.tabs.any (fun t => same t.1 tn) then c
  else { c with
    tabs := c.tabs ++ [(tn, style)],
    scale := match style with
      | none => c.scale
      | some a => finer a c.scale }

/-- The time of a record for the merge (src/core/sis_db.c:358-363). -/
def vtime (v : Env) (scale : Option Style) (style : Option Style) (x : Item) : Option Nat :=
  match style with
  | none => some 0
  | some a => match scale with
    | none => some x.time
    | some b => convert v a b x.time

/-- A number kept in `uint32` (src/core/sis_db.h:102). -/
def wrap (n : Int) : Nat := (n % 2 ^ 32).toNat

/-- `_subdb_cxt_set_msec` (src/core/sis_db.c:318-324). -/
def setMsec (c : Cxt) (t : Nat) : Cxt := if t < c.newMsec ∨ c.newSums = 0 then { c with newMsec := t } else c

/-- The loop of `sis_subdb_cxt_push_sdbs` over the records (src/core/sis_db.c:350-371).  Only the first record for an empty
queue is looked at for the time of the round; the number of records is counted after the loop. -/
def put (v : Env) (c : Cxt) (i : Nat) (u : Chan) (xs : List Item) : Option Cxt :=
  (xs.mapM fun x => (vtime v c.scale u.style x).map fun t => (t, x)).map fun ts =>
  let c := match u.q, ts with
    | [], t :: _ => setMsec c t.1
    | _, _ => c
  { c with units := c.units.set i { u with q := u.q ++ ts }, newSums := wrap (c.newSums + ts.length) }

/-- The place of a key (src/core/sis_db.c:331). -/
def place (us : List Chan) (kn sn : Bytes) : Option Nat := us.findIdx? fun u => same u.kn kn && same u.sn sn

/-- `sis_subdb_cxt_push_sdbs` (src/core/sis_db.c:328-374), for whole records.  Both parts of a new key are copied into arrays
of 128 bytes. -/
def push (v : Env) (c : Cxt) (kn sn : Bytes) (xs : List Item) : Option Cxt :=
  match place c.units kn sn with
  | some i => c.units[i]?.bind fun u => put v c i u xs
  | none =>
    if kn.length ≥ 128 ∨ sn.length ≥ 128 then none
    else match c.tabs.find? (fun t => same t.1 sn) with
      | none => some c
      | some t =>
        let u : Chan := { kn := kn, sn := sn, tn := t.1, style := t.2 }
        put v { c with units := c.units ++ [u] } c.units.length u xs

/-- The merge at work: with the records a client has ready to hand in, key by key in order, and what it was told
(src/core/disk/sis_disk_read.c:920-960). -/
structure St where
  c : Cxt
  more : List ((Bytes × Bytes) × List Item) := []
  out : List Out := []
deriving DecidableEq, Repr

/-- The next records a client has for a key (src/core/disk/sis_disk_read.c:936-957). -/
def nextOf (kn sn : Bytes) : List ((Bytes × Bytes) × List Item) → Option (List Item × List ((Bytes × Bytes) × List Item))
  | [] => none
  | m :: ms =>
    if same m.1.1 kn && same m.1.2 sn then some (m.2, ms) else (nextOf kn sn ms).map fun r => (r.1, m :: r.2)

/-- The client's `cb_key_stop`: it hands in the next records of the key (src/core/disk/sis_disk_read.c:920-960). -/
def react (v : Env) (s : St) (kn sn : Bytes) : Option St :=
  match nextOf kn sn s.more with
  | none => some s
  | some r => (push v s.c kn sn r.1).map fun c => { s with c := c, more := r.2 }

/-- The loop over the records of a key (src/core/sis_db.c:431-460): what is published, and what is left. -/
def drain (curr : Nat) : List (Nat × Item) → List (Nat × Item) × List (Nat × Item)
  | [] => ([], [])
  | t :: ts => if t.1 ≤ curr then (t :: (drain curr ts).1, (drain curr ts).2) else ([], t :: ts)

/-- The least time of what is left (src/core/sis_db.c:453-457): `none` while `next_nums` is 0. -/
def least (next : Option Nat) : List (Nat × Item) → Option Nat
  | [] => next
  | t :: _ => match next with
    | none => some t.1
    | some n => if t.1 < n then some t.1 else some n

/-- A round for one key (src/core/sis_db.c:426-472). -/
def turn (v : Env) (curr : Nat) (p : St × Option Nat) (i : Nat) : Option (St × Option Nat) :=
  p.1.c.units[i]?.bind fun u =>
  let r := drain curr u.q
  let c := { p.1.c with units := p.1.c.units.set i { u with q := r.2 }, newSums := wrap ((p.1.c.newSums : Int) - r.1.length) }
  let s := { p.1 with c := c, out := p.1.out ++ r.1.map fun t => .record u.kn u.tn t.2 }
  let next := least p.2 r.2
  if u.q ≠ [] ∧ r.2 = [] then
    (react v { s with out := s.out ++ [.keyStop u.kn u.tn] } u.kn u.tn).map fun s => (s, next)
  else some (s, next)

/-- `_subdb_cxt_sub_data` (src/core/sis_db.c:420-485): one round; `true` when nothing is left. -/
def round (v : Env) (s : St) : Option (St × Bool) :=
  ((List.range s.c.units.length).foldlM (turn v s.c.newMsec) (s, none)).map fun r =>
  if r.1.c.newSums = 0 then (r.1, true)
  else if s.c.newMsec = r.1.c.newMsec then ({ r.1 with c := { r.1.c with newMsec := r.2.getD 0 } }, false)
  else (r.1, false)

/-- At most so many rounds of `_thread_subdb_cxt_sub` (src/core/sis_db.c:497-506); `true` when the merge is through. -/
def rounds (v : Env) : Nat → St → Option (St × Bool)
  | 0, s => some (s, false)
  | n + 1, s => (round v s).bind fun r => if r.2 then some (r.1, true) else rounds v n r.1

/-- `sis_subdb_cxt_sub_start` (src/core/sis_db.c:516-530) with `_thread_subdb_cxt_sub` (src/core/sis_db.c:487-514), for at
most so many rounds; `true` when it returns. -/
def start (v : Env) (n : Nat) (s : St) : Option (St × Bool) :=
  if s.c.status = .start ∨ s.c.status = .stop then some (s, true)
  else
    (rounds v n { s with c := { s.c with status := .start }, out := s.out ++ [.started] }).map fun r =>
    if r.2 then ({ r.1 with c := { r.1.c with status := .stoped }, out := r.1.out ++ [.stopped] }, true) else r

/-- `sis_subdb_cxt_sub_stop` (src/core/sis_db.c:532-539). -/
def stop (c : Cxt) : Cxt := if c.status = .stoped ∨ c.status = .stop then c else { c with status := .stop }

/-- Whether `sis_subdb_cxt_destroy` (src/core/sis_db.c:242-255) returns, when nobody else uses the merge: it waits for
`SIS_SUBDB_STOPED` behind a `sis_subdb_cxt_sub_stop`. -/
def destroys (c : Cxt) : Bool :=
  if c.status = .start ∨ c.status = .stop then (stop c).status == .stoped else true

/-- `sis_subdb_cxt_clear` (src/core/sis_db.c:257-267). -/
def clear (c : Cxt) : Cxt :=
  { c with units := c.units.map fun u => { u with q := [] }, newMsec := 0, newSums := 0 }

end Sis.Mrg
