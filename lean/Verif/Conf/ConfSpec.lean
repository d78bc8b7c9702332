import Verif.Conf.Conf
import Verif.Rec.RecSpec
/-
What a configuration is, for the properties C106 to C108: values, how they are written, and the document each stands for.  A text is
written with blanks and comments between its parts as one likes.
-/
namespace Sis.Conf
open Sis Num
open Sis.Json (Node Ty)
open Sis.Rec (dec)

/-- Blanks and comments: a comment begins with `#` and ends with its line. -/
inductive Gap : Bytes → Prop
  | nil : Gap []
  | blank {c : UInt8} {g : Bytes} : c ≤ 0x20 → Gap g → Gap (c :: g)
  | note {t : Bytes} {c : UInt8} {g : Bytes} : (∀ x ∈ t, x ≠ 10 ∧ x ≠ 13) → c = 10 ∨ c = 13 → Gap g → Gap (35 :: (t ++ c :: g))

mutual
/-- Values. -/
inductive Val
  | num (t : Bytes)
  | word (t : Bytes)
  | quoted (t : Bytes)
  | arr (g : Bytes) (vs : Vals)
  | obj (g : Bytes) (ms : Mems)

/-- Values of an array, each with the blanks before and behind it. -/
inductive Vals
  | nil
  | cons (before : Bytes) (v : Val) (behind : Bytes) (rest : Vals)

/-- What an object or a file is made of: named values, and files that are included. -/
inductive Mems
  | nil
  | cons (before key spaces between : Bytes) (v : Val) (behind : Bytes) (rest : Mems)
  | inc (before between file behind : Bytes) (items : Mems) (rest : Mems)
end

mutual
/-- How a value is written. -/
def Val.text : Val → Bytes
  | .num t => t
  | .word t => t
  | .quoted t => 34 :: (t ++ [34])
  | .arr g vs => 91 :: (g ++ vs.text [] ++ [93])
  | .obj g ms => 123 :: (g ++ ms.text [44] [] ++ [125])

/-- The values of an array, the first behind `lead`, the others behind a comma. -/
def Vals.text (lead : Bytes) : Vals → Bytes
  | .nil => []
  | .cons b v a r => lead ++ b ++ v.text ++ a ++ r.text [44]

/-- The members, the first behind `lead`, the others behind `sep`: a comma in an object, nothing in a file. -/
def Mems.text (sep lead : Bytes) : Mems → Bytes
  | .nil => []
  | .cons b k s g v a r => lead ++ b ++ k ++ s ++ [58] ++ g ++ v.text ++ a ++ r.text sep sep
  | .inc b g f a _ r => lead ++ b ++ [105, 110, 99, 108, 117, 100, 101] ++ g ++ f ++ a ++ r.text sep sep
end

/-- A file with these members. -/
def Mems.file (ms : Mems) : Bytes := ms.text [] []

/-- A point with a digit behind it. -/
def Pointed (t : Bytes) : Prop := ∃ a d b, t = a ++ 46 :: d :: b ∧ isDigit d = true

/-- Whether there is one can be decided. -/
theorem isFloat_iff (t : Bytes) : Json.isFloat t = true ↔ Pointed t := by
  constructor
  · induction t with
    | nil => intro h; simp [Json.isFloat] at h
    | cons c r ih =>
      intro h
      cases r with
      | nil => simp [Json.isFloat] at h
      | cons d r =>
        simp only [Json.isFloat, Bool.or_eq_true, Bool.and_eq_true, beq_iff_eq] at h
        rcases h with ⟨rfl, hd⟩ | h
        · exact ⟨[], d, r, rfl, hd⟩
        · obtain ⟨a, e, b, he, hd⟩ := ih h
          exact ⟨c :: a, e, b, by rw [he]; rfl, hd⟩
  · rintro ⟨a, d, b, rfl, hd⟩
    induction a with
    | nil => simp [Json.isFloat, hd]
    | cons c a ih =>
      cases a with
      | nil => simp [Json.isFloat, hd]
      | cons e a => simp only [List.cons_append, Json.isFloat] at ih ⊢; simp [ih]

instance (t : Bytes) : Decidable (Pointed t) := decidable_of_iff _ (isFloat_iff t)

mutual
/-- The document a value stands for, below this key. -/
def Val.node (key : Option Bytes) : Val → Node
  | .num t => .mk (if Pointed t then .double else .int) key (some t) []
  | .word t => .mk .string key (some t) []
  | .quoted t => .mk .string key (some t) []
  | .arr _ vs => .mk .array key none (vs.nodes 0)
  | .obj _ ms => .mk .object key none ms.nodes

/-- The values of an array have their numbers as keys. -/
def Vals.nodes (i : Nat) : Vals → List Node
  | .nil => []
  | .cons _ v _ r => v.node (some (dec i)) :: r.nodes (i + 1)

/-- The members, those of an included file in its place. -/
def Mems.nodes : Mems → List Node
  | .nil => []
  | .cons _ k _ _ v _ r => v.node (some k) :: r.nodes
  | .inc _ _ _ _ is r => is.nodes ++ r.nodes
end

/-- The characters of words: no blanks, no `#`. -/
def Solid (c : UInt8) : Prop := 0x20 < c ∧ c ≠ 35

/-- A text that does not begin with `include`, in small letters or capitals. -/
def NotInclude (t : Bytes) : Prop := (t.take 7).map lower ≠ [105, 110, 99, 108, 117, 100, 101]

/-- Numbers: digits, points and signs, the first not a point. -/
def NumOk (t : Bytes) : Prop := (∃ c r, t = c :: r ∧ (c = 45 ∨ isDigit c = true)) ∧ ∀ c ∈ t, c = 45 ∨ c = 46 ∨ isDigit c = true

/-- Words without quotes: no comma, no closing bracket; at the beginning no digit, sign, quote or opening bracket. -/
def WordOk (t : Bytes) : Prop :=
  (∃ c r, t = c :: r ∧ c ≠ 45 ∧ isDigit c = false ∧ c ≠ 91 ∧ c ≠ 123 ∧ c ≠ 34) ∧ ∀ c ∈ t, Solid c ∧ c ≠ 44 ∧ c ≠ 93 ∧ c ≠ 125

/-- Words within quotes. -/
def QuotedOk (t : Bytes) : Prop := t ≠ [] ∧ ∀ c ∈ t, Solid c ∧ c ≠ 34

/-- Names of members. -/
def KeyOk (k : Bytes) : Prop := (∃ c r, k = c :: r ∧ c ≠ 35 ∧ c ≠ 125) ∧ (∀ c ∈ k, 0x20 < c ∧ c ≠ 58) ∧ NotInclude k

/-- Names of files. -/
def FileOk (f : Bytes) : Prop := f ≠ [] ∧ ∀ c ∈ f, Solid c ∧ c ≠ 44 ∧ c ≠ 93 ∧ c ≠ 125

/-- No file is included, but in objects. -/
def Mems.Flat : Mems → Prop
  | .nil => True
  | .cons _ _ _ _ _ _ r => r.Flat
  | .inc _ _ _ _ _ _ => False

mutual
/-- Values that are read as they are written, with these files. -/
def Val.Ok (v : Env) : Val → Prop
  | .num t => NumOk t
  | .word t => WordOk t
  | .quoted t => QuotedOk t
  | .arr g vs => Gap g ∧ vs.Ok v 0
  | .obj g ms => Gap g ∧ ms.Ok v false

/-- A word in an array does not begin with `include` either. -/
def Vals.Ok (v : Env) (i : Nat) : Vals → Prop
  | .nil => True
  | .cons b x a r => Gap b ∧ x.Ok v ∧ NotInclude x.text ∧ Gap a ∧ i < 2 ^ 31 ∧ r.Ok v (i + 1)

/-- In a file (`file`) members are apart.  Included files are there and hold named values. -/
def Mems.Ok (v : Env) (file : Bool) : Mems → Prop
  | .nil => True
  | .cons b k s g x a r =>
    Gap b ∧ KeyOk k ∧ (∀ c ∈ s, c = 32) ∧ Gap g ∧ x.Ok v ∧ Gap a ∧ (file = true → r = .nil ∨ a ≠ []) ∧ r.Ok v file
  | .inc b g f a is r =>
    Gap b ∧ Gap g ∧ FileOk f ∧ Gap a ∧ (file = true → r = .nil ∨ a ≠ []) ∧ r.Ok v file ∧
      (v.path ++ f).length ≤ 1023 ∧ v.files (v.path ++ f) = some is.file ∧ is ≠ .nil ∧ is.Flat ∧ is.Ok v true
end

/-- The file is read with this outcome: refused, or the members of the document. -/
def Opens (v : Env) (fn : Bytes) (r : Option (List Node)) : Prop := ∃ fuel, openFile v fuel fn = some r

/-- The text is read with this outcome: nothing, or the document. -/
def Loads (v : Env) (t : Bytes) (r : Option Node) : Prop := ∃ fuel, load v fuel t = some r

/-- Somewhere in the text a file is included. -/
def Includes (b f : Bytes) : Prop :=
  ∃ pre kw g rest, b = pre ++ (kw ++ (g ++ (f ++ rest))) ∧ kw.map lower = [105, 110, 99, 108, 117, 100, 101] ∧ Gap g ∧ FileOk f ∧
    ∀ c r, rest = c :: r → c ≤ 0x20 ∨ c = 35 ∨ c = 44 ∨ c = 93 ∨ c = 125

/-- The files included by a text, by those files and so on come to an end. -/
inductive Ends (v : Env) : Bytes → Prop
  | mk {b : Bytes} : (∀ f c, Includes b f → v.files ((v.path ++ f).take 1023) = some c → Ends v c) → Ends v b

/-! ### Scripts -/

mutual
/-- No bracket in words and names: `{`, `}`; no `#` in names of members. -/
def Val.Plain : Val → Prop
  | .num _ => True
  | .word t => ∀ c ∈ t, c ≠ 123 ∧ c ≠ 125
  | .quoted t => ∀ c ∈ t, c ≠ 123 ∧ c ≠ 125
  | .arr _ vs => vs.Plain
  | .obj _ ms => ms.Plain

/-- The values of an array. -/
def Vals.Plain : Vals → Prop
  | .nil => True
  | .cons _ x _ r => x.Plain ∧ r.Plain

/-- The members of an object. -/
def Mems.Plain : Mems → Prop
  | .nil => True
  | .cons _ k _ _ x _ r => (∀ c ∈ k, c ≠ 123 ∧ c ≠ 125 ∧ c ≠ 35) ∧ x.Plain ∧ r.Plain
  | .inc _ _ f _ _ r => (∀ c ∈ f, c ≠ 123 ∧ c ≠ 125) ∧ r.Plain
end

/-- A script: objects, each with what stands before it. -/
abbrev Script := List (Bytes × Bytes × Mems)

/-- How a script is written. -/
def Script.text (s : Script) : Bytes := (s.map fun o => o.1 ++ (Val.obj o.2.1 o.2.2).text).flatten

/-- The script is run with these documents, one call for each. -/
def Runs (v : Env) (chunks : List Bytes) (r : List (Option Node)) : Prop := ∃ fuel, sub v fuel chunks = some r

end Sis.Conf
