import Verif.Snodb.Wlog
import Verif.Snodb.SnodbSpec
/-
Specification: what of a day belongs into its log and its file.
-/
namespace Sis.Snodb
open Sis

/-- A packet begins a block: its highest bit is set (`Begins`, as a test). -/
def starts (p : Bytes) : Bool := decide (128 ≤ (p.headD 0).toNat)

/-- The packets from the first one that begins a block. -/
def fromBlock (ps : List Bytes) : List Bytes := ps.dropWhile fun p => !starts p

/-- What belongs into the log: keys, tables, and the packets from the first one that begins a block; nothing if there is none. -/
def record (K T : Bytes) (ps : List Bytes) : List Rec :=
  if fromBlock ps = [] then [] else .keys K :: .sdbs T :: (fromBlock ps).map .zpub

/-- The packets of a time, in order. -/
def actStream (as : List Act) (os : List (List Out)) : List Bytes :=
  (List.zipWith (fun a o => match a with | .ev v => brings v o | _ => []) as os).flatten

/-- Between two days: nothing is published, started or stopped. -/
def between : Act → Bool
  | .ev v => !isPub v && !isStart v && !isStop v
  | .log => true
  | .crash _ _ => false

/-- During day `d`: nothing is started or stopped, keys and tables are not set, and nobody subscribes on a later day. -/
def during (d : Nat) : Act → Bool
  | .ev (.keys _) => false
  | .ev (.sdbs _) => false
  | .ev (.start _) => false
  | .ev (.stop _) => false
  | .ev (.sub a) => decide (a.today ≤ d)
  | .ev _ => true
  | .log => true
  | .crash _ _ => false

/-- The events of the stream among what happens. -/
def actEvs (as : List Act) : List Ev := as.filterMap fun a => match a with | .ev v => some v | _ => none

/-- From `w`, keys `K` and tables that are written `T` are set, day `d` starts, and the packets `ps` come: the state is `w'`. -/
def Running (e : Env) (w : W) (d : Nat) (K T : Bytes) (ps : List Bytes) (w' : W) : Prop :=
  ∃ pre body w1 o1 o2, actRun e w (pre ++ [.ev (.start d)]) = some (w1, o1) ∧ actRun e w1 body = some (w', o2) ∧
    (∀ a ∈ pre, between a = true) ∧ (∀ a ∈ body, during d a = true) ∧
    lastKeys (actEvs pre) = some K ∧ (∃ t, lastSdbs (actEvs pre) = some t ∧ e.conv t = some T) ∧ ps = actStream body o2

/-- A whole day: after the packets the thread of the log has time to read them all, then the day is stopped, and the thread has time to
read what the compressor still hands on; if the day had no block before, none begins there. -/
def WholeDay (e : Env) (w : W) (d : Nat) (K T : Bytes) (ps : List Bytes) (w' : W) : Prop :=
  ∃ w1 n w2 o2 last m o3, Running e w d K T ps w1 ∧ ps.length ≤ n ∧ actRun e w1 (List.replicate n .log) = some (w2, o2) ∧
    actRun e w2 (.ev (.stop last) :: List.replicate m .log) = some (w', o3) ∧ last.length ≤ m ∧ (fromBlock ps ≠ [] ∨ ∀ p ∈ last, starts p = false)

/-- The process starts on `today` with logs and files, the thread of the log begins, and then come whole days, each of them once. -/
inductive Since (e : Env) (logs files : Nat → Option (List Rec)) (today : Nat) : List Nat → W → Prop
  | boot {w0 w o} : boot e logs files today = some w0 → actRun e w0 [.log] = some (w, o) → Since e logs files today [] w
  | day {ds w d K T ps w'} : Since e logs files today ds w → d ∉ ds → WholeDay e w d K T ps w' → Since e logs files today (d :: ds) w'

end Sis.Snodb
