import Verif.Server.Access
/-
Model of subscriptions and notifications (`workers/sisdb_server/sisdb_sub.c`, `workers/sisdb/sisdb.c`).  Subjects are C strings; no
subject is the same as an empty one.  The two maps are association lists: they are finite maps and iteration visits every entry
once (`Verif.Dict.DictTheorems`).  `none` is an access through a NULL pointer or behind an array.
-/
namespace Sis.Sub

open Sis.Access (str)

/-- `','` (workers/sisdb_server/sisdb_sub.c:20-23, 255). -/
def comma : UInt8 := 44
/-- `'.'` (workers/sisdb_server/sisdb_sub.c:20-23, 255). -/
def dot : UInt8 := 46

/-- SIS_SUB_ONEKEY_* and SIS_SUB_MULKEY_* (workers/sisdb_server/sisdb_sub.h:10-18). -/
inductive Kind
  | oneOne | oneMul | oneCmp | oneAll | mulOne | mulMul | mulCmp | mulAll
deriving DecidableEq

/-- `s_sisdb_sub_unit` (workers/sisdb_server/sisdb_sub.h:28-34): of the subscribing messages only the connection is kept. -/
structure Unit where
  kind : Kind
  keys : Option Bytes
  sdbs : Option Bytes
  cids : List Int
deriving DecidableEq

/-- The part before the first dot, and the part behind it (`sis_str_divide`, workers/sisdb_server/sisdb_sub.c:223-308). -/
def before (s : Bytes) : Bytes := s.takeWhile (· != dot)
/-- The part behind the first dot (workers/sisdb_server/sisdb_sub.c:223-308). -/
def after (s : Bytes) : Bytes := (s.dropWhile (· != dot)).tail

/-- `sis_str_divide_sds` gives NULL for an empty part (src/core/sis_str.c:209-236). -/
def part (s : Bytes) : Option Bytes := if s = [] then none else some s

/-- The kind of a subject with a dot; the length of a part that is NULL cannot be taken
(workers/sisdb_server/sisdb_sub.c:30-41). -/
def dotKind (keys sdbs : Option Bytes) : Option Kind :=
  match keys with
  | none => none
  | some a =>
    if a.contains comma then some .mulMul
    else match sdbs with
      | none => none
      | some b => if b.contains comma then some .mulMul else some .mulOne

/-- `_set_sub_unit_type` and `sisdb_sub_unit_create` (workers/sisdb_server/sisdb_sub.c:9-72). -/
def mkUnit (key : Bytes) (head : Bool) : Option Unit :=
  if caseEq key (str "*") then some ⟨.oneAll, none, none, []⟩
  else if caseEq key (str "*.*") then some ⟨.mulAll, none, none, []⟩
  else if key.contains dot then
    if head then some ⟨.mulCmp, part (before key), part (after key), []⟩
    else (dotKind (part (before key)) (part (after key))).map fun k => ⟨k, part (before key), part (after key), []⟩
  else
    some ⟨if head then .oneCmp else if key.contains comma then .oneMul else .oneOne, some key, none, []⟩

/-- A map of subscriptions by key (workers/sisdb_server/sisdb_sub.h:36-46). -/
abbrev Map := List (Bytes × Unit)

/-- The two maps (workers/sisdb_server/sisdb_sub.h:36-46). -/
structure St where
  one : Map
  mul : Map
deriving DecidableEq

/-- `sisdb_sub_cxt_create` (workers/sisdb_server/sisdb_sub.c:83-90). -/
def start : St := ⟨[], []⟩

/-- `sis_map_pointer_get`: keys are compared without case (src/core/sis_map.c:32-35). -/
def find (m : Map) (k : Bytes) : Option Unit := (m.find? fun e => caseEq k e.1).map Prod.snd

/-- The list of the entry of a key gets one more connection (workers/sisdb_server/sisdb_sub.c:124-125). -/
def push (m : Map) (k : Bytes) (cid : Int) : Map :=
  m.map fun e => if caseEq k e.1 then (e.1, { e.2 with cids := e.2.cids ++ [cid] }) else e

/-- `sisdb_sub_notice` (workers/sisdb_server/sisdb_sub.c:108-127) with its result. -/
def notice (m : Map) (cid : Int) (k : Bytes) (head : Bool) : Option (Map × Int) :=
  match find m k with
  | none => (mkUnit k head).map fun u => (m ++ [(k, { u with cids := [cid] })], 1)
  | some u => if u.cids.contains cid then some (m, 0) else some (push m k cid, 1)

/-- `sisdb_unsub_notice` (workers/sisdb_server/sisdb_sub.c:156-194): the connection leaves every entry, an empty entry is deleted. -/
def unsubMap (m : Map) (cid : Int) : Map :=
  if cid = -1 then []
  else m.filterMap fun e =>
    if e.2.cids.contains cid then
      if (e.2.cids.erase cid).length = 0 then none else some (e.1, { e.2 with cids := e.2.cids.erase cid })
    else some e

/-- Its result: for -1 the count of the last entry only (line 165) (workers/sisdb_server/sisdb_sub.c:156-194). -/
def unsubCount (m : Map) (cid : Int) : Int :=
  if cid = -1 then ((m.getLast?.map fun e => e.2.cids.length).getD 0 : Nat)
  else (m.filter fun e => e.2.cids.contains cid).length

/-- Whether a subject has one of the characters `*` and `,` (workers/sisdb_server/sisdb_sub.c:134). -/
def isPattern (k : Bytes) : Bool := k.any fun c => c == 42 || c == comma

/-- `sisdb_sub_cxt_sub` and `sisdb_sub_cxt_hsub` (workers/sisdb_server/sisdb_sub.c:129-155). -/
def sub (s : St) (cid : Int) (k : Bytes) (head : Bool) : Option (St × Int) :=
  if k = [] then some (s, 0)
  else if head || isPattern k then (notice s.mul cid k head).map fun (m, o) => ({ s with mul := m }, o)
  else (notice s.one cid k head).map fun (m, o) => ({ s with one := m }, o)

/-- `sisdb_sub_cxt_unsub` (workers/sisdb_server/sisdb_sub.c:196-204). -/
def unsub (s : St) (cid : Int) : St × Int := (⟨unsubMap s.one cid, unsubMap s.mul cid⟩, unsubCount s.one cid + unsubCount s.mul cid)

/-- The loop of `sis_str_subcmp` and `sis_str_subcmp_strict` (src/core/sis_str.c:433-494): `pos` the start of the current item, `n` its
length so far, then what is left of the list. -/
def subLoop (strict : Bool) (k : Bytes) (pos : Bytes) (n : Nat) : Bytes → Bool
  | [] => decide (n > 0) && (ncaseEq n 1 k pos && (!strict || k.length == n))
  | c :: rest =>
    if c = comma then (ncaseEq n 1 k pos && (!strict || k.length == n)) || subLoop strict k rest 0 rest
    else subLoop strict k pos (n + 1) rest

/-- Whether the result is not -1; a list that is NULL matches nothing (`sis_str_subcmp`, workers/sisdb_server/sisdb_sub.c:223-308). -/
def subcmp (strict : Bool) (k : Bytes) (l : Option Bytes) : Bool :=
  match l with
  | none => false
  | some l => subLoop strict k l 0 l

/-- One half of a pattern (workers/sisdb_server/sisdb_sub.c:266-267). -/
def half (strict : Bool) (k : Bytes) (l : Option Bytes) : Bool :=
  (match l with | none => false | some l => caseEq l (str "*")) || subcmp strict k l

/-- Both halves: `sis_str_divide` copies the parts of the subject into arrays of 128 bytes without checking
(workers/sisdb_server/sisdb_sub.c:261-290, src/core/sis_str.c:177-208). -/
def halves (strict : Bool) (k : Bytes) (u : Unit) : Option Bool :=
  if (before k).length < 128 ∧ (after k).length < 128 then
    some (k.contains dot && half strict (before k) u.keys && half strict (after k) u.sdbs)
  else none

/-- Whether an entry of the second map is notified (workers/sisdb_server/sisdb_sub.c:244-294). -/
def unitMatch (u : Unit) (k : Bytes) : Option Bool :=
  match u.kind with
  | .oneAll => some true
  | .mulAll => some true
  | .oneCmp => some (subcmp false k u.keys)
  | .oneMul => some (subcmp true k u.keys)
  | .mulCmp => halves false k u
  | .mulMul => halves true k u
  | .oneOne => some false
  | .mulOne => some false

/-- The notifications for the entries of the second map (workers/sisdb_server/sisdb_sub.c:223-308). -/
def pubMul (k : Bytes) : Map → Option (List Int)
  | [] => some []
  | e :: m => do
    let b ← unitMatch e.2 k
    let r ← pubMul k m
    some ((if b then e.2.cids else []) ++ r)

/-- The notifications for the entry of the key itself in the first map (workers/sisdb_server/sisdb_sub.c:226-238). -/
def pubOne (k : Bytes) (m : Map) : List Int :=
  match find m k with
  | none => []
  | some u => u.cids

/-- `sisdb_sub_cxt_pub` (workers/sisdb_server/sisdb_sub.c:223-308): the connections notified. -/
def pub (s : St) (k : Bytes) : Option (List Int) :=
  (pubMul k s.mul).map fun r => pubOne k s.one ++ r

/-- `cmd_sisdb_clear` (workers/sisdb/sisdb.c:686-706). -/
def clear (s : St) (mode : Bytes) (cid : Int) : St :=
  if caseEq mode (str "reader") = false then (unsub s cid).1 else s

/-- What happens to a data set: a subscription (`sub`, or `hsub` by heads), a cancellation, a write, a connection closes (workers/sisdb_server/sisdb_sub.c:129-308). -/
inductive Op
  | sub (cid : Int) (subject : Bytes) (head : Bool)
  | unsub (cid : Int)
  | write (key : Bytes)
  | close (cid : Int)
deriving DecidableEq

/-- What is seen: the reply, or the connections notified (workers/sisdb_server/sisdb_sub.c:129-308). -/
inductive Out
  | reply (n : Int)
  | notified (cids : List Int)
  | nothing
deriving DecidableEq

/-- The commands of a data set; on a close the server sends `clear` with mode "reader" (workers/sisdb_server/sisdb_server.c:52-72,
workers/sisdb/sisdb.c:260-308, 460-490). -/
def step (s : St) : Op → Option (St × Out)
  | .sub cid k head => (sub s cid k head).map fun (s, n) => (s, .reply n)
  | .unsub cid => some ((unsub s cid).1, .reply (unsub s cid).2)
  | .write k => (pub s k).map fun l => (s, .notified l)
  | .close cid => some (clear s (str "reader") cid, .nothing)

/-- All states after a list of operations (workers/sisdb_server/sisdb_sub.c:83-308). -/
inductive Hist : List Op → St → Prop
  | nil : Hist [] start
  | snoc {ops s op s' o} : Hist ops s → step s op = some (s', o) → Hist (ops ++ [op]) s'

/-- The same as a function (workers/sisdb_server/sisdb_sub.c:83-308). -/
def run (s : St) : List Op → Option (St × List Out)
  | [] => some (s, [])
  | op :: ops => do
    let (s, o) ← step s op
    let (s, os) ← run s ops
    some (s, o :: os)

end Sis.Sub
