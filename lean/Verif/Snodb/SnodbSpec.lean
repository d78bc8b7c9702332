import Verif.Snodb.Snodb
/-
Specification: what a subscriber is sent, and what was published.
-/
namespace Sis.Snodb
open Sis

/-- The messages to a connection. -/
def got (cid : Nat) (outs : List (List Out)) : List Note :=
  outs.flatten.filterMap fun o => match o with
    | .send c _ n => if c = cid then some n else none
    | _ => none

/-- The packets among messages. -/
def packets (ns : List Note) : List Bytes :=
  ns.filterMap fun n => match n with
    | .packet p => some p
    | _ => none

/-- The packets that the compressor hands on; empty ones are none. -/
def codedOf : Out → List Bytes
  | .coded _ _ ps => ps.filter (· ≠ [])
  | _ => []

/-- The packets that an event brings: one that is published packed and taken, or those of the compressor. -/
def brings (v : Ev) (o : List Out) : List Bytes :=
  match v with
  | .zpub p => if .answer true ∈ o then [p] else []
  | _ => o.flatMap codedOf

/-- The packets of a time, in order. -/
def stream (vs : List Ev) (outs : List (List Out)) : List Bytes := (List.zipWith brings vs outs).flatten

/-- A packet begins a block: its highest bit is set. -/
def Begins (p : Bytes) : Prop := ∃ b r, p = b :: r ∧ 128 ≤ b.toNat

/-- The event starts a day. -/
def isStart : Ev → Bool
  | .start _ => true
  | _ => false

/-- The event ends a day. -/
def isStop : Ev → Bool
  | .stop _ => true
  | _ => false

/-- The event is about the subscriptions of a connection. -/
def about (cid : Nat) : Ev → Bool
  | .sub a => decide (a.cid = cid)
  | .unsub c => decide (c = cid)
  | _ => false

/-- The event publishes. -/
def isPub : Ev → Bool
  | .pub _ _ _ => true
  | .zpub _ => true
  | _ => false

/-- The keys that were set last. -/
def lastKeys (vs : List Ev) : Option Bytes :=
  vs.foldl (fun k v => match v with | .keys (some b) => some b | _ => k) none

/-- The tables that were set last. -/
def lastSdbs (vs : List Ev) : Option Bytes :=
  vs.foldl (fun k v => match v with | .sdbs (some b) => some b | _ => k) none

/-- The subject `*` for both parts: all the data. -/
def star : Option (Bytes × Bytes) := some ([42], [42])

end Sis.Snodb
