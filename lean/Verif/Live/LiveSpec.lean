import Verif.Live.Live
import Verif.Server.SubSpec
import Verif.Strs.JsonTheorems
/-
Specification of the live data service: what one client receives, what a well formed sequence of messages is, and what the commands
given so far mean for the day, the lists and the subscribers.  Nothing here looks at the state of the service.
-/
namespace Sis.Live

/-- The decimal text of a date. -/
def dateStr (d : Nat) : Bytes := Num.llutoa d 32

/-- What one connection received, in this order. -/
def received (cid : Int) (sent : List (Int × Msg)) : List Msg := (sent.filter fun x => x.1 = cid).map Prod.snd

/-- The beginning of a session of the day `d`: its date, the keys (if there are any), the tables, and the date again. -/
inductive Opening (d : Nat) : List Msg → Prop
  | keys (k t : Bytes) : Opening d [.start (dateStr d), .keys k, .sdbs t, .wait (dateStr d)]
  | noKeys (t : Bytes) : Opening d [.start (dateStr d), .sdbs t, .wait (dateStr d)]

/-- Sequences of messages in which records only come in a session; the argument is the day of the session that is open.  A session
may be replaced by a new one.  With `strict`, a stop only comes in a session, and with the day of that session. -/
inductive Stream (strict : Bool) : Option Nat → List Msg → Prop
  | nil : Stream strict none []
  | opened {x l d o} : Stream strict x l → Opening d o → Stream strict (some d) (l ++ o)
  | data {d l} (s i : Bytes) : Stream strict (some d) l → Stream strict (some d) (l ++ [.data s i])
  | stopped {x l} (d : Nat) : Stream strict x l → (strict = true → x = some d) → Stream strict none (l ++ [.stop (dateStr d)])

/-- The day of the last start. -/
def dayOf (cmds : List Cmd) : Nat :=
  cmds.foldl (fun d k => match k with | .start n today => if n = 0 then today else n | _ => d) 0

/-- Whether the day was started and not stopped since. -/
def started (cmds : List Cmd) : Bool :=
  cmds.foldl (fun b k => match k with | .start _ _ => true | .stop => false | _ => b) false

/-- The connections that subscribed and did not unsubscribe since, each with the subject it gave first. -/
def members (cmds : List Cmd) : List (Int × Bytes) :=
  cmds.foldl (fun a k => match k with
    | .sub c p => if a.any (fun x => x.1 == c) then a else a ++ [(c, p)]
    | .unsub c => a.filter fun x => x.1 != c
    | _ => a) []

/-- The subscriptions in the order in which they were made and cancelled. -/
def subOps (cmds : List Cmd) : List Sub.Op :=
  cmds.filterMap fun k => match k with
    | .sub c p => some (.sub c p true)
    | .unsub c => some (.unsub c)
    | _ => none

/-- The list of keys last given. -/
def keysOf (cmds : List Cmd) : Option Bytes :=
  cmds.foldl (fun a k => match k with | .setKeys i => i | _ => a) none

/-- The description of the tables last given. -/
def tabsOf (cmds : List Cmd) : Option Bytes :=
  cmds.foldl (fun a k => match k with | .setSdbs i => i | _ => a) none

/-- A description of tables: the text of an object, that can be written and read back (C68), with no commas in the
names of its members. -/
def Tables (n : Json.Node) (s : Bytes) : Prop :=
  n.ty = .object ∧ Json.Ok true n ∧ (∀ c ∈ n.child, ∀ k, c.key = some k → 44 ∉ k) ∧ (Json.outputZip n = some s ∨ Json.output n = some s)

/-- Commands a careful source and careful clients give: keys and tables always with a text, that of the tables a description; the
subjects of records are shorter than 128 bytes. -/
def Careful (k : Cmd) : Prop :=
  match k with
  | .setKeys i => i.isSome
  | .setSdbs i => ∃ n s, i = some s ∧ Tables n s
  | .pub s _ => s.length < 128
  | _ => True

/-- The two halves of a subject: what is before the first dot, and what is behind it. -/
def keyPart (p : Bytes) : Bytes := p.takeWhile (· != 46)
/-- What is behind the first dot of a subject. -/
def tabPart (p : Bytes) : Bytes := (p.dropWhile (· != 46)).tail

/-- A list asks for a name: it is a star, or one of the items between its commas is the name, or a head of the name.  Small and capital
letters are the same. -/
def asks (head : Bool) (l n : Bytes) : Bool :=
  l == [42] || (Sub.items (Sub.low l)).any fun it => it != [] && if head then it.isPrefixOf (Sub.low n) else it == Sub.low n

/-- A key: not empty, without blanks, commas and control characters. -/
def Name (n : Bytes) : Prop := n ≠ [] ∧ ∀ c ∈ n, 32 < c ∧ c ≠ 44

/-- What a subject announces of some keys and tables: the keys it asks for by their heads, and the tables it asks for by their whole
names; nothing is said of the keys if there are none. -/
def announced (d : Nat) (p : Bytes) (names : List Bytes) (t : Bytes) : List Msg :=
  [.start (dateStr d)] ++
  (if (names.filter (asks true (keyPart p))).isEmpty then [] else [.keys (List.intercalate [44] (names.filter (asks true (keyPart p))))]) ++
  [.sdbs t, .wait (dateStr d)]

/-- The text of the tables a subject asks for. -/
def TabText (p : Bytes) (n : Json.Node) (t : Bytes) : Prop :=
  Json.outputZip (.mk .object none none (n.child.filter fun c => asks false (tabPart p) (c.key.getD []))) = some t

/-- A record was accepted after the last start and after the last subscription. -/
def Served (cmds : List Cmd) : Prop :=
  ∃ a s i b c out c' ms, cmds = a ++ .pub s i :: b ∧ (∀ k ∈ b, (∀ n t, k ≠ .start n t) ∧ ∀ n p, k ≠ .sub n p) ∧
    run init a = some (c, out) ∧ step c (.pub s i) = some (c', ms, .ok)

/-- The subjects of subscriptions are C strings. -/
def Texts (cmds : List Cmd) : Prop := ∀ c p, Cmd.sub c p ∈ cmds → CStr p

end Sis.Live
