import Verif.Merge.Merge
/-
What is meant by the merge of the records of many keys by time, in terms of what a caller hands in and is told.
-/
namespace Sis.Mrg
open Sis.Time (Style Env)

/-- What a caller does before the merge is started. -/
inductive Call
  | tab (tn : Bytes) (style : Option Style)
  | push (kn sn : Bytes) (xs : List Item)
  | clear
deriving DecidableEq, Repr

/-- A call. -/
def call (v : Env) (c : Cxt) : Call → Option Cxt
  | .tab tn style => some (setTab c tn style)
  | .push kn sn xs => push v c kn sn xs
  | .clear => some (clear c)

/-- The calls of a caller, from a new merge. -/
def setup (v : Env) (cs : List Call) : Option Cxt := cs.foldlM (call v) {}

/-- Names that are equal but for the case of their letters. -/
def alike (a b : Bytes) : Prop := a.map lower = b.map lower

instance (a b : Bytes) : Decidable (alike a b) := inferInstanceAs (Decidable (_ = _))

/-- The records handed in for a key, in order, of tables that were made known before: `known` tables so far, `xs` records
so far. -/
def given (kn sn : Bytes) : List Bytes → List Item → List Call → List Item
  | _, xs, [] => xs
  | known, xs, .tab tn _ :: cs => given kn sn (known ++ [tn]) xs cs
  | known, xs, .push k s ys :: cs =>
    given kn sn known (if alike k kn ∧ alike s sn ∧ ∃ t ∈ known, alike t s then xs ++ ys else xs) cs
  | known, _, .clear :: cs => given kn sn known [] cs

/-- The records a client hands in later for a key, in order. -/
def later (kn sn : Bytes) (more : List ((Bytes × Bytes) × List Item)) : List Item :=
  (more.filter fun m => decide (alike m.1.1 kn ∧ alike m.1.2 sn)).flatMap Prod.snd

/-- The records among what a client was told. -/
def records : List Out → List ((Bytes × Bytes) × Item)
  | [] => []
  | .record kn sn x :: os => ((kn, sn), x) :: records os
  | _ :: os => records os

/-- Those of one key. -/
def of (kn sn : Bytes) (os : List Out) : List Item :=
  ((records os).filter fun r => decide (alike r.1.1 kn ∧ alike r.1.2 sn)).map Prod.snd

/-- The last millisecond a time stands for. -/
def due : Style → Nat → Nat
  | .minu, t => t * 60000 + 59999
  | .tsec, t => t * 1000 + 999
  | _, t => t

/-- The style of the time of a table; the first that was made known under the name. -/
def styleOf (cs : List Call) (sn : Bytes) : Option Style :=
  (cs.findSome? fun c => match c with
    | .tab tn style => if alike tn sn then some style else none
    | _ => none).join

/-- When a record is due: those without a time at once. -/
def dueOf (cs : List Call) (r : (Bytes × Bytes) × Item) : Nat :=
  match styleOf cs r.1.2 with
  | none => 0
  | some a => due a r.2.time

/-- How many records are handed in before the start. -/
def count : List Call → Nat
  | [] => 0
  | .push _ _ xs :: cs => xs.length + count cs
  | _ :: cs => count cs

/-- How many records a client hands in later. -/
def countLater (more : List ((Bytes × Bytes) × List Item)) : Nat := (more.map fun m => m.2.length).sum

/-- A merge that is started with the records a client has for later. -/
def begin_ (c : Cxt) (more : List ((Bytes × Bytes) × List Item)) : St := { c := c, more := more }

end Sis.Mrg
