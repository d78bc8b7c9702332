import Verif.Server.Sub
/-
Specification of subscriptions, without the model's helpers: which subscriptions a client has after a history, and which keys a
pattern covers.  Subjects and keys are compared in lower case.
-/
namespace Sis.Sub

/-- A string in lower case. -/
def low (s : Bytes) : Bytes := s.map lower

/-- The subscriptions in force after a history: connection, subject, and whether by heads.  Closing a connection cancels nothing
here (see C49). -/
def active (ops : List Op) : List (Int × Bytes × Bool) :=
  ops.foldl (fun a op => match op with
    | .sub c p h => if p = [] then a else a ++ [(c, p, h)]
    | .unsub c => if c = -1 then [] else a.filter fun x => x.1 ≠ c
    | _ => a) []

/-- The items of a list separated by commas. -/
def items : Bytes → List Bytes
  | [] => [[]]
  | c :: r => if c = 44 then [] :: items r else match items r with
    | [] => [[c]]
    | x :: xs => (c :: x) :: xs

/-- A list names a key: one of its items is the key, or a head of the key. -/
def Names (head : Bool) (l k : Bytes) : Prop := ∃ it ∈ items l, it ≠ [] ∧ if head then it <+: k else it = k

/-- One half of a pattern with a dot: a star, or a list. -/
def Half (head : Bool) (l k : Bytes) : Prop := l = [42] ∨ Names head l k

/-- A pattern covers a key: everything (`*`, `*.*`), a list, or two halves separated by a dot. -/
def Covers (head : Bool) (p k : Bytes) : Prop :=
  p = [42] ∨ p = [42, 46, 42] ∨ (46 ∉ p ∧ Names head p k) ∨
    ∃ a b c d, 46 ∉ a ∧ 46 ∉ c ∧ p = a ++ 46 :: b ∧ k = c ++ 46 :: d ∧ Half head a c ∧ Half head b d

example : Covers false [42, 46, 97, 44, 98] [107, 46, 98] :=
  Or.inr (Or.inr (Or.inr ⟨[42], [97, 44, 98], [107], [98], by decide, by decide, rfl, rfl, Or.inl rfl, Or.inr ⟨[98], by decide, by decide, rfl⟩⟩))

end Sis.Sub
