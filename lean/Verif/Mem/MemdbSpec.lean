import Verif.Mem.Memdb
/-
Specification of the data set in memory, without the model's helpers: which text a subject holds after a history of requests, and
which subscriptions are in force.  Commands and subjects are compared up to their first zero byte and in lower case.
-/
namespace Sis.Memdb
open Sis Msg Json

/-- A text up to its first zero byte. -/
def upTo0 (s : Bytes) : Bytes := s.takeWhile (· != 0)

/-- How names are compared. -/
def fold (s : Bytes) : Bytes := (upTo0 s).map lower

/-- The request is for this command. -/
def Says (r : Req) (c : String) : Prop := ∃ s, r.m.cmd = some s ∧ fold s = str c

instance (r : Req) (c : String) : Decidable (Says r c) :=
  match h : r.m.cmd with
  | none => isFalse (by simp [Says, h])
  | some s => if h2 : fold s = str c then isTrue ⟨s, h, h2⟩ else isFalse (by simp [Says, h, h2])

/-- What a request does to the text that a subject holds: a `set` of a client that is logged in gives it another one, an `init`
takes all away. -/
def heldStep (k : Bytes) (a : Option Bytes) (r : Req) : Option Bytes :=
  if r.level < 0 then a
  else if Says r "init" then none
  else if Says r "set" then
    match r.m.subject, r.m.info with
    | some s, some v => if fold s = fold k then some (upTo0 v) else a
    | _, _ => a
  else a

/-- The text a subject holds after a history. -/
def held (k : Bytes) (h : List Req) : Option Bytes := h.foldl (heldStep k) none

/-- What a request does to the subscriptions. -/
def subOp (r : Req) : List Sub.Op :=
  if r.level < 0 then []
  else if Says r "sub" then [.sub r.cid (r.m.subject.getD []) false]
  else if Says r "hsub" then [.sub r.cid (r.m.subject.getD []) true]
  else if Says r "unsub" then [.unsub r.cid]
  else []

end Sis.Memdb
