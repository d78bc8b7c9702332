import Verif.Client.Client
/-
Specification of the client, without the model's helpers.  A life is a list of events, each with what was seen at it.
-/
namespace Sis.Cli
open Sis Msg

/-- A life: events with what was seen. -/
abbrev Life := List (Ev × List Out)

/-- A text up to its first zero byte. -/
def upTo0 (s : Bytes) : Bytes := s.takeWhile (· != 0)

/-- The name of a message is this number in decimal. -/
def Named (m : Msg) (n : Nat) : Prop := ∃ s, m.name = some s ∧ upTo0 s = Rec.dec n

/-- How many questions were asked. -/
def asked (evs : List Ev) : Nat := evs.countP fun e => match e with | .ask _ => true | _ => false

/-- A question is taken. -/
def isTaken : Out → Bool
  | .taken _ => true
  | _ => false

/-- How many questions were taken. -/
def takenIn (outs : List (List Out)) : Nat := outs.flatten.countP isTaken

/-- Question `id` was taken at this place of a life. -/
def Took (x : Ev × List Out) (id : Nat) (q : Query) : Prop := x.1 = .ask q ∧ Out.taken id ∈ x.2

/-- What is before the first point of a text. -/
def left (c : Bytes) : Bytes := c.takeWhile (· != 46)

/-- What is behind the first point of a text. -/
def right (c : Bytes) : Bytes := (c.dropWhile (· != 46)).drop 1

/-- The command has a service in front of it and, behind the first point, is one of the three that subscribe, in whatever case. -/
def Subscribes (cmd : Option Bytes) : Prop :=
  ∃ c, cmd = some c ∧ (right (upTo0 c)).map lower ∈ [Json.str "sub", Json.str "zsub", Json.str "hsub"]

instance (cmd : Option Bytes) : Decidable (Subscribes cmd) :=
  match cmd with
  | none => isFalse fun ⟨_, h, _⟩ => by cases h
  | some c => if h : (right (upTo0 c)).map lower ∈ [Json.str "sub", Json.str "zsub", Json.str "hsub"] then isTrue ⟨c, rfl, h⟩
    else isFalse fun ⟨_, h1, h2⟩ => h (by cases h1; exact h2)

/-- A text that is empty is none. -/
def filled : Option Bytes → Option Bytes
  | some [] => none
  | s => s

/-- What the message that asks question number `id` says. -/
def question (id : Nat) (q : Query) : Content :=
  let c := (q.cmd.map upTo0).getD []
  { name := Rec.dec id,
    sno := none,
    service := if 46 ∈ c then filled (some (left c)) else none,
    cmd := filled (some (if 46 ∈ c then right c else c)),
    subject := q.key.map upTo0,
    tag := none,
    info := filled q.val }

/-- What a seen message says, and whether it is binary. -/
def said : Out → Option (Bool × Content)
  | .send m => some (m.bytes, content m)
  | _ => none

/-- What an answer tells: tag, key, value.  An answer without error that is not one of the known kinds counts as an error. -/
def tells (m : Msg) : Int × Option Bytes × Option Bytes :=
  if m.tag = 103 ∨ m.tag = 104 ∨ m.tag = 105 then (m.tag, none, m.info)
  else if m.tag = 0 then (0, m.subject.map upTo0, m.info)
  else if m.tag = -3 then (-3, none, none)
  else (-2, m.subject.map upTo0, m.info)

/-- What happens to the subscriptions in force: one that is taken is added, one that is cancelled goes. -/
def subsStep (L : List (Nat × Query)) (x : Ev × List Out) : List (Nat × Query) :=
  match x.1 with
  | .ask q => if Subscribes q.cmd then L ++ x.2.filterMap fun o => match o with | .taken id => some (id, q) | _ => none else L
  | .unsub n => L.filter fun y => decide (Rec.dec y.1 ≠ upTo0 n)
  | _ => L

/-- The subscriptions in force after a life. -/
def subsOf (tr : Life) : List (Nat × Query) := tr.foldl subsStep []

/-- The events since the connection was last lost. -/
def lately (evs : List Ev) : List Ev := (evs.reverse.takeWhile (· ≠ .disconnect)).reverse

/-- The client should be working: it is connected, not closed, and, if it has to log in, the server has said yes since. -/
def Up (creds : Bool) (evs : List Ev) : Prop :=
  .close ∉ lately evs ∧
    if creds then ∃ a b m, lately evs = a ++ .connected :: b ∧ .recv m ∈ b ∧ m.sw.tag = true ∧ m.tag = 0
    else .connected ∈ lately evs

end Sis.Cli
