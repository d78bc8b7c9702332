import Verif.Lists.LinkList
/-
What linked lists are for their users: sequences of values, each with the handle of its node.
-/
namespace Sis.Link

variable {V : Type}

/-- The calls of a client; `i`, `j` are lists, `x` is a node that it got, `a` the address that the new node will get, `as`
those of many. -/
inductive Call (V : Type)
  | addHead (i a : Nat) (v : V)
  | push (i a : Nat) (v : V)
  | before (i x a : Nat) (v : V)
  | after (i x a : Nat) (v : V)
  | delete (i x : Nat)
  | clear (i : Nat)
  | rotate (i : Nat)
  | join (i j : Nat)
  | sweep (i : Nat) (fwd : Bool) (keep : V → Bool)
  | dup (i j : Nat) (copy : V → V) (as : List Nat)

/-- What a call tells: the nodes with their values the client came by, and the values that were freed. -/
abbrev Told (V : Type) := List (Nat × V) × List V

/-- A call of the program. -/
def call (st : St V) : Call V → Option (St V × Told V)
  | .addHead i a v => (addHead st i a v).map fun s => (s, [], [])
  | .push i a v => (push st i a v).map fun s => (s, [], [])
  | .before i x a v => (insert st i x a v false).map fun s => (s, [], [])
  | .after i x a v => (insert st i x a v true).map fun s => (s, [], [])
  | .delete i x => (delete st i x).map fun r => (r.1, [], r.2)
  | .clear i => (clear st i).map fun r => (r.1, [], r.2)
  | .rotate i => (rotate st i).map fun s => (s, [], [])
  | .join i j => (join st i j).map fun s => (s, [], [])
  | .sweep i fwd keep => sweep st i fwd keep
  | .dup i j copy as => (dup st i j copy as).map fun s => (s, [], [])

/-- Calls one after the other. -/
def calls : St V → List (Call V) → Option (St V × List (Told V))
  | st, [] => some (st, [])
  | st, c :: cs => (call st c).bind fun r => (calls r.1 cs).map fun s => (s.1, r.2 :: s.2)

/-- The sequences. -/
abbrev Seqs (V : Type) := Nat → List (Nat × V)

/-- What a call means for the sequences. -/
def means (X : Seqs V) : Call V → Seqs V × Told V
  | .addHead i a v => (put X i ((a, v) :: X i), [], [])
  | .push i a v => (put X i (X i ++ [(a, v)]), [], [])
  | .before i x a v => (put X i ((X i).flatMap fun e => if e.1 = x then [(a, v), e] else [e]), [], [])
  | .after i x a v => (put X i ((X i).flatMap fun e => if e.1 = x then [e, (a, v)] else [e]), [], [])
  | .delete i x => (put X i ((X i).filter fun e => e.1 ≠ x), [], ((X i).filter fun e => e.1 = x).map (·.2))
  | .clear i => (put X i [], [], (X i).map (·.2))
  | .rotate i => (put X i ((X i).getLast?.toList ++ (X i).dropLast), [], [])
  | .join i j => (put (put X i (X i ++ X j)) j [], [], [])
  | .sweep i fwd keep =>
    let s := if fwd then X i else (X i).reverse
    (put X i ((X i).filter fun e => keep e.2), s, (s.filter fun e => !keep e.2).map (·.2))
  | .dup i j copy as => (put X j (as.zip ((X i).map fun e => copy e.2)), [], [])

/-- The sequences and what was told after calls. -/
def meaning : Seqs V → List (Call V) → Seqs V × List (Told V)
  | X, [] => (X, [])
  | X, c :: cs => ((meaning (means X c).1 cs).1, (means X c).2 :: (meaning (means X c).1 cs).2)

/-- What the caller owes: nodes are of the list they are used with, a list is not joined to itself, and a list
that is made as a copy is a new one; and what `sis_malloc` owes:
addresses are not those of nodes in use. -/
def Owed (X : Seqs V) : Call V → Prop
  | .addHead _ a _ => ∀ j, a ∉ (X j).map (·.1)
  | .push _ a _ => ∀ j, a ∉ (X j).map (·.1)
  | .before i x a _ => x ∈ (X i).map (·.1) ∧ ∀ j, a ∉ (X j).map (·.1)
  | .after i x a _ => x ∈ (X i).map (·.1) ∧ ∀ j, a ∉ (X j).map (·.1)
  | .delete i x => x ∈ (X i).map (·.1)
  | .join i j => i ≠ j
  | .dup i j _ as => i ≠ j ∧ X j = [] ∧ as.length = (X i).length ∧ as.Nodup ∧ ∀ a ∈ as, ∀ k, a ∉ (X k).map (·.1)
  | _ => True

/-- Owed at each of the calls. -/
def AllOwed : Seqs V → List (Call V) → Prop
  | _, [] => True
  | X, c :: cs => Owed X c ∧ AllOwed (means X c).1 cs

end Sis.Link
