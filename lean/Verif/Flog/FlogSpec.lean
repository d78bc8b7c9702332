import Verif.Flog.Flog
import Verif.Disk.LogSpec
import Verif.Net.MsgTheorems
/- What is expected of the worker that keeps the log of requests, without its files: a log is a list of messages. -/
namespace Sis.Flog
open Sis Disk Msg Json

/-- A message that C31 covers: its name can be told from the rest, it announces no list, a binary one has a 32-bit number, the
texts of a text message have no control characters and no backslashes. -/
def Plain (m : Msg) : Prop :=
  goodName (m.name.getD []) ∧ (-128 ≤ m.tag ∧ m.tag < 128) ∧ ¬ listTag m.tag ∧
  (m.bytes = true → (m.sw.sno = true → -2 ^ 31 ≤ m.sno ∧ m.sno < 2 ^ 31) ∧ short m.service ∧ short m.cmd ∧ short m.subject ∧ short m.info) ∧
  (m.bytes = false → (m.sw.sno = true → -2 ^ 63 < m.sno ∧ m.sno < 2 ^ 63) ∧ goodText m.sw.service m.service ∧
    goodText m.sw.cmd m.cmd ∧ goodText m.sw.subject m.subject ∧ goodText m.sw.info m.info)

/-- A message as it goes over the network, which is also how it lies in the log. -/
def wire (m : Msg) : Bytes := (encode m).getD []

/-- The log is read in portions of `k + 1` bytes: either all its records fit into one portion, or its messages take 4 to 250
bytes each. -/
def Room (k : Nat) (ms : List Msg) : Prop :=
  (∀ m ∈ ms, 4 ≤ (wire m).length ∧ (wire m).length ≤ 250) ∨ (encLog (ms.map wire)).length ≤ k + 1

/-- What a subscriber can tell: answers, the two marks with their date, and of each message what it says and whether it came
as binary. -/
inductive View where
  | ret (ok : Bool)
  | start (date : Nat)
  | msg (c : Content) (bytes : Bool)
  | stop (date : Nat)
deriving DecidableEq

def View.of : Ev → View
  | .ret ok => .ret ok
  | .start d => .start d
  | .msg m => .msg (content m) m.bytes
  | .stop d => .stop d

def View.ofMsg (m : Msg) : View := .msg (content m) m.bytes

/-- The logs by the name of their file; `cur` is the one that is open for writing, `date` the last date named. -/
structure Sp where
  conf : Conf
  can : Bytes → Bool
  today : Nat
  date : Nat
  cur : Option Bytes := none
  logs : Bytes → Option (List Msg) := fun _ => none

/-- Which log a command means: the configured directory and name come first, then those of the command, then "data" and the
name of the worker; the last date named, 0 being the day itself. -/
def Sp.day (s : Sp) (a : Args) : Nat := if a.date.getD s.date = 0 then s.today else a.date.getD s.date

def Sp.log (s : Sp) (a : Args) : Bytes :=
  (s.conf.path.or a.path).getD (str "data") ++ str "/" ++ (s.conf.name.or a.name).getD s.conf.key ++ str "/" ++
    str (toString (s.day a)) ++ str ".log"

def Sp.put (s : Sp) (f : Bytes) (l : Option (List Msg)) : Sp := { s with logs := fun g => if g = f then l else s.logs g }

/-- One step and what is heard and answered. -/
inductive SpStep (k : Nat) : Sp → Op → List View → Sp → Prop
  | openLog (s a) : s.cur = none → s.can (s.log a) = true →
      SpStep k s (.openLog a) [.ret true]
        ({ s with date := a.date.getD s.date, cur := some (s.log a) }.put (s.log a) (some ((s.logs (s.log a)).getD [])))
  | write (s m f ms) : s.cur = some f → s.logs f = some ms → Plain m → Room k (ms ++ [m]) →
      SpStep k s (.write m) [.ret true] (s.put f (some (ms ++ [m])))
  | close (s) : SpStep k s .close [.ret true] { s with cur := none }
  | sub (s a ms) : s.cur = none → s.logs (s.log a) = some ms →
      SpStep k s (.sub a none) ([.start (s.day a)] ++ ms.map View.ofMsg ++ [.stop (s.day a), .ret true]) { s with date := a.date.getD s.date }
  /-- broken off by `unsub` during message `j` -/
  | unsub (s a ms j) : s.cur = none → s.logs (s.log a) = some ms → 0 < j →
      SpStep k s (.sub a (some j)) ([.start (s.day a)] ++ (ms.take j).map View.ofMsg ++ [.stop 0, .ret true]) { s with date := a.date.getD s.date }
  /-- there is no such log -/
  | subNone (s a brk) : s.cur = none → s.logs (s.log a) = none →
      SpStep k s (.sub a brk) [.ret true] { s with date := a.date.getD s.date }
  /-- the command names the log completely and nothing is configured -/
  | remove (s a) : s.cur = none → s.conf.path = none → s.conf.name = none → a.path ≠ none → a.name ≠ none → a.date ≠ none →
      SpStep k s (.remove a) [.ret true] (s.put (s.log a) none)
  /-- refused while a log is open -/
  | busyOpen (s a) : s.cur ≠ none → SpStep k s (.openLog a) [.ret false] s
  | busySub (s a brk) : s.cur ≠ none → SpStep k s (.sub a brk) [.ret false] s
  | busyRemove (s a) : s.cur ≠ none → SpStep k s (.remove a) [.ret false] s
  /-- the process dies: the first `c` messages of the open log had reached the disk completely, as had the head of the file; no
  size field was cut -/
  | crash (s f ms cut conf today c) : s.cur = some f → s.logs f = some ms → 16 ≤ cut → CompleteCount (ms.map wire) (cut - 16) c →
      ¬ InSizeField 2 (ms.map wire) (cut - 16) →
      SpStep k s (.crash cut conf today) [] { s.put f (some (ms.take c)) with conf := conf, today := today, date := today, cur := none }
  | crashIdle (s cut conf today) : s.cur = none →
      SpStep k s (.crash cut conf today) [] { s with conf := conf, today := today, date := today }
  | restart (s conf today) : SpStep k s (.restart conf today) [] { s with conf := conf, today := today, date := today, cur := none }
  | midnight (s today) : SpStep k s (.midnight today) [] { s with today := today }

/-- A history and everything that is heard and answered. -/
inductive SpRun (k : Nat) : Sp → List Op → List View → Sp → Prop
  | nil (s) : SpRun k s [] [] s
  | cons (s op v s' ops vs s'') : SpStep k s op v s' → SpRun k s' ops vs s'' → SpRun k s (op :: ops) (v ++ vs) s''

/-- A usual history (`o`: a log may be open): messages are written only after opening, are ones that C31 covers and take 4 to
250 bytes; removals name their log completely and nothing is configured; crashes leave the head of the file; an `unsub` comes
during a message. -/
def Usual : Bool → List Op → Prop
  | _, [] => True
  | _, .openLog _ :: r => Usual true r
  | o, .write m :: r => o = true ∧ Plain m ∧ 4 ≤ (wire m).length ∧ (wire m).length ≤ 250 ∧ Usual o r
  | _, .close :: r => Usual false r
  | o, .sub _ none :: r => Usual o r
  | o, .sub _ (some j) :: r => 0 < j ∧ Usual o r
  | o, .remove a :: r => a.path ≠ none ∧ a.name ≠ none ∧ a.date ≠ none ∧ Usual o r
  | _, .crash cut conf _ :: r => 16 ≤ cut ∧ conf.path = none ∧ conf.name = none ∧ Usual false r
  | _, .restart conf _ :: r => conf.path = none ∧ conf.name = none ∧ Usual false r
  | o, .midnight _ :: r => Usual o r

end Sis.Flog
