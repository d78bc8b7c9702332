import Verif.Base.Bytes
/-
Model of the table of sessions, `s_sis_net_list` (src/core/net/sis_net.node.c:681-876).

A session is a number standing for its pointer, which is not null, and the release function is set, as for the server
(src/core/net/sis_net.uv.c:451).  The clock is an argument.  The three arrays have one length, the number of slots; the
field `max_count` is kept apart from it, because growing changes only the field.  Touching a slot outside the arrays is
the outcome `none`.
-/
namespace Sis.Sess
open Sis

/-- `SIS_NET_NOUSE`, `SIS_NET_USEED`, `SIS_NET_CLOSE` (src/core/net/sis_net.node.h:109-111). -/
inductive Use
  | nouse | useed | close
deriving DecidableEq, Repr

/-- One place of the arrays `used`, `stop_sec`, `buffer` (src/core/net/sis_net.node.h:113-121). -/
structure Slot where
  used : Use := .nouse
  stop : Int := 0
  ptr : Option Nat := none
deriving DecidableEq, Repr

/-- `s_sis_net_list` (src/core/net/sis_net.node.h:113-121). -/
structure Tab where
  wait : Int
  max : Nat
  cur : Int
  slots : List Slot
deriving DecidableEq, Repr

/-- `sis_net_list_create` (src/core/net/sis_net.node.c:681-694), with the waiting time given: 60 is the default. -/
def create (wait : Int) : Tab := ⟨wait, 1024, 0, List.replicate 1024 {}⟩

/-- A call of the release function: session and mode (0: closed, 1: free it) (src/core/net/sis_net.node.c:739-748). -/
abbrev Rel := Nat × Nat

/-- `_net_list_free` (src/core/net/sis_net.node.c:739-748) on one slot. -/
def freeSlot (x : Slot) : Slot × List Rel :=
  ({ x with ptr := none, stop := 0 }, x.ptr.toList.map fun p => (p, 1))

/-- `sis_net_list_clear` (src/core/net/sis_net.node.c:703-717). -/
def clear (s : Tab) : Option (Tab × List Rel) :=
  if s.max > s.slots.length then none
  else some ({ s with cur := 0, slots := (s.slots.take s.max).map (fun _ => {}) ++ s.slots.drop s.max },
    (s.slots.take s.max).flatMap fun x => x.ptr.toList.map fun p => (p, 1))

/-- `_net_list_set_grow` (src/core/net/sis_net.node.c:719-737): the new, empty arrays are copied over the old ones. -/
def grow (s : Tab) (count : Nat) : Tab :=
  if count > s.max then { s with max := (count / 1024 + 1) * 1024, slots := s.slots.map fun _ => {} } else s

/-- Whether `sis_net_list_new` takes a slot (src/core/net/sis_net.node.c:766-778). -/
def takes (s : Tab) (now : Int) (x : Slot) : Bool :=
  x.used == .nouse || (decide (s.wait > 0) && x.used == .close && decide (now - x.stop > s.wait))

/-- `sis_net_list_new` (src/core/net/sis_net.node.c:758-791). -/
def new (s : Tab) (now : Int) (p : Nat) : Option (Tab × Nat × List Rel) :=
  match (s.slots.take s.max).findIdx? (takes s now) with
  | some i =>
    match s.slots[i]? with
    | none => none
    | some x =>
      let (y, rel) := if x.used = .nouse then (x, []) else freeSlot x
      some ({ s with cur := s.cur + 1, slots := s.slots.set i { y with used := .useed, ptr := some p } }, i, rel)
  | none =>
    if s.max > s.slots.length then none
    else
      let i := s.max
      let s := grow s (s.max + 1)
      match s.slots[i]? with
      | none => none
      | some x => some ({ s with cur := s.cur + 1, slots := s.slots.set i { x with used := .useed, ptr := some p } }, i, [])

/-- `sis_net_list_get` (src/core/net/sis_net.node.c:792-804). -/
def get (s : Tab) (i : Int) : Option (Option Nat) :=
  if i < 0 ∨ i ≥ s.max then some none
  else match s.slots[i.toNat]? with
    | none => none
    | some x => if x.used ≠ .useed then some none else some x.ptr

/-- `sis_net_list_first` (src/core/net/sis_net.node.c:805-817). -/
def first (s : Tab) : Option Int :=
  match (s.slots.take s.max).findIdx? (fun x => x.used == .useed) with
  | some i => some i
  | none => if s.max > s.slots.length then none else some (-1)

/-- The loop of `sis_net_list_next` (src/core/net/sis_net.node.c:826-838), with a bound on the passes. -/
def nextLoop (s : Tab) (index : Int) : Nat → Int → Option Int
  | 0, _ => none
  | k + 1, start =>
    if start = index then some index
    else
      let start := if start > s.max - 1 then 0 else start
      if start < 0 then none
      else match s.slots[start.toNat]? with
        | none => none
        | some x => if x.used = .useed then some start else nextLoop s index k (start + 1)

/-- `sis_net_list_next` (src/core/net/sis_net.node.c:818-840). -/
def next (s : Tab) (index : Int) : Option Int :=
  if s.cur < 1 then some (-1) else nextLoop s index (2 * s.max + 2) (index + 1)

/-- `sis_net_list_stop` (src/core/net/sis_net.node.c:846-876). -/
def stop (s : Tab) (i : Int) (now : Int) : Option (Tab × Int × List Rel) :=
  if i < 0 ∨ i ≥ s.max then some (s, -1, [])
  else match s.slots[i.toNat]? with
    | none => none
    | some x =>
      if x.used ≠ .useed then some (s, -1, [])
      else if s.wait > 0 then
        some ({ s with cur := s.cur - 1, slots := s.slots.set i.toNat { x with stop := now, used := .close } }, i,
          x.ptr.toList.map fun p => (p, 0))
      else
        some ({ s with cur := s.cur - 1, slots := s.slots.set i.toNat { (freeSlot x).1 with used := .nouse } }, i,
          (freeSlot x).2)

/-- The calls of a list of sessions (src/core/net/sis_net.node.c:681-876). -/
inductive Ev
  | new (now : Int) (p : Nat)
  | stop (i : Int) (now : Int)
  | get (i : Int)
  | first
  | next (i : Int)
  | uses
  | clear
deriving DecidableEq, Repr

/-- What they return (src/core/net/sis_net.node.c:758-876). -/
inductive Out
  | num (n : Int) (rel : List Rel)
  | ptr (p : Option Nat)
deriving DecidableEq, Repr

/-- One call (src/core/net/sis_net.node.c:758-876). -/
def step (s : Tab) : Ev → Option (Tab × Out)
  | .new now p => (new s now p).map fun (s, i, rel) => (s, .num i rel)
  | .stop i now => (stop s i now).map fun (s, i, rel) => (s, .num i rel)
  | .get i => (get s i).map fun p => (s, .ptr p)
  | .first => (first s).map fun i => (s, .num i [])
  | .next i => (next s i).map fun i => (s, .num i [])
  | .uses => some (s, .num s.cur [])
  | .clear => (clear s).map fun (s, rel) => (s, .num 0 rel)

end Sis.Sess
