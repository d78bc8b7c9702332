import Verif.Strs.JsonLemmas
/-
Writing a document and reading it again: the documents for which it works, and the proof.
-/
namespace Sis.Json
open Sis Num

/-! ### Which documents -/

/-- A text value that survives: no control characters and no backslash; quotes and all other bytes are fine. -/
def okStr (v : Bytes) : Prop := ∀ c ∈ v, 0x20 ≤ c ∧ c ≠ 92

/-- A member name that survives: not empty, no control characters, no backslash, no quote. -/
def okKey (k : Bytes) : Prop := k ≠ [] ∧ ∀ c ∈ k, 0x20 ≤ c ∧ c ≠ 92 ∧ c ≠ 34

/-- A number text that survives: it starts with a digit or a minus sign and consists of the characters of a number;
it has a point followed by a digit exactly if the number is a double. -/
def okNum (dbl : Bool) (v : Bytes) : Prop :=
  (∃ c t, v = c :: t ∧ (c = 45 ∨ (48 ≤ c ∧ c ≤ 57))) ∧
  (∀ c ∈ v, c = 45 ∨ c = 46 ∨ (48 ≤ c ∧ c ≤ 57) ∨ c = 101) ∧
  ((∃ a d b, v = a ++ 46 :: d :: b ∧ 48 ≤ d ∧ d ≤ 57) ↔ dbl = true)

/-- The text of a truth value. -/
def okBool (v : Bytes) : Prop := v = [116, 114, 117, 101] ∨ v = [102, 97, 108, 115, 101]

mutual
/-- The documents that survive writing and reading.  `last`: nothing follows in the enclosing array or object. -/
def Ok (last : Bool) : Node → Prop
  | .mk ty _ value child =>
    match ty with
    | .null => last = false ∧ value = none ∧ child = []
    | .bool => last = false ∧ (∃ v, value = some v ∧ okBool v) ∧ child = []
    | .int => (∃ v, value = some v ∧ okNum false v) ∧ child = []
    | .double => (∃ v, value = some v ∧ okNum true v) ∧ child = []
    | .string => (∃ v, value = some v ∧ okStr v) ∧ child = []
    | .array => value = none ∧ OkElems 0 child
    | .object => value = none ∧ OkMembers child
/-- The elements of an array, numbered from `i`: each carries its number as its key. -/
def OkElems (i : Nat) : List Node → Prop
  | [] => True
  | .mk ty key value child :: cs =>
    key = some (llutoa i 32) ∧ ty ≠ .null ∧ Ok cs.isEmpty (.mk ty key value child) ∧ OkElems (i + 1) cs
/-- The members of an object. -/
def OkMembers : List Node → Prop
  | [] => True
  | .mk ty key value child :: cs =>
    (∃ k, key = some k ∧ okKey k) ∧ Ok cs.isEmpty (.mk ty key value child) ∧ OkMembers cs
end

/-! ### Number texts -/

theorem isFloat_iff (v : Bytes) : isFloat v = true ↔ ∃ a d b, v = a ++ 46 :: d :: b ∧ 48 ≤ d ∧ d ≤ 57 := by
  induction v with
  | nil => simp [isFloat]
  | cons c r ih =>
    cases r with
    | nil =>
      simp only [isFloat, Bool.false_eq_true, false_iff]
      rintro ⟨a, d, b, h, -⟩
      have := congrArg List.length h
      simp at this
      omega
    | cons d r =>
      rw [isFloat, Bool.or_eq_true, ih]
      simp only [isDigit, Bool.and_eq_true, beq_iff_eq, decide_eq_true_eq]
      constructor
      · rintro (⟨rfl, h⟩ | ⟨a, e, b, h1, h2⟩)
        · exact ⟨[], d, r, rfl, h⟩
        · exact ⟨c :: a, e, b, by rw [h1]; rfl, h2⟩
      · rintro ⟨a, e, b, h1, h2⟩
        cases a with
        | nil =>
          simp only [List.nil_append, List.cons.injEq] at h1
          obtain ⟨rfl, rfl, rfl⟩ := h1
          exact Or.inl ⟨rfl, h2⟩
        | cons x a =>
          simp only [List.cons_append, List.cons.injEq] at h1
          exact Or.inr ⟨a, e, b, h1.2, h2⟩

/-- The condition on number texts in the terms of the reader. -/
theorem okNum_iff {dbl : Bool} {v : Bytes} : okNum dbl v ↔
    (∃ c t, v = c :: t ∧ (c = 45 ∨ isDigit c = true)) ∧ (∀ c ∈ v, numCh c = true) ∧ isFloat v = dbl := by
  unfold okNum
  rw [← isFloat_iff]
  refine and_congr ?_ (and_congr ?_ ?_)
  · simp [isDigit]
  · simp [numCh, isDigit, or_assoc]
  · cases isFloat v <;> cases dbl <;> simp

/-! ### White space -/

def Ws (w : Bytes) : Prop := ∀ c ∈ w, c ≤ 0x20

theorem Ws.nil : Ws [] := nofun
theorem Ws.append {a b : Bytes} (ha : Ws a) (hb : Ws b) : Ws (a ++ b) := fun c hc =>
  (List.mem_append.1 hc).elim (ha c) (hb c)
theorem Ws.single {c : UInt8} (h : c ≤ 0x20) : Ws [c] := fun x hx => by rw [List.mem_singleton.1 hx]; exact h
theorem ws_tabs (n : Nat) : Ws (tabs n) := fun c hc => by rw [(List.mem_replicate.1 hc).2]; decide
theorem ws_ite {b : Bool} {a : Bytes} (h : Ws a) : Ws (if b then a else []) := by
  cases b
  · exact Ws.nil
  · exact h

theorem skip_ws {w s : Bytes} (h : Ws w) : skip (w ++ s) = skip s := by
  induction w with
  | nil => rfl
  | cons c w ih =>
    have hc := h c (List.mem_cons_self ..)
    have := ih fun x hx => h x (List.mem_cons_of_mem _ hx)
    rw [List.cons_append, skip, List.dropWhile_cons, if_pos (by simpa using hc)]
    exact this

theorem skip_cons {c : UInt8} {s : Bytes} (h : ¬ c ≤ 0x20) : skip (c :: s) = c :: s := by
  rw [skip, List.dropWhile_cons, if_neg (by simpa using h)]

theorem skip_skip (s : Bytes) : skip (skip s) = skip s := by
  induction s with
  | nil => rfl
  | cons c s ih =>
    by_cases h : c ≤ 0x20
    · have : skip (c :: s) = skip s := by rw [skip, List.dropWhile_cons, if_pos (by simpa using h)]; rfl
      rw [this, ih]
    · rw [skip_cons h, skip_cons h]

/-! ### Strings -/

theorem scan_esc {v : Bytes} (hv : okStr v) (ago : UInt8) (ha : ago ≠ 92) (rest : Bytes) :
    scanStr ago (v.flatMap escCh ++ 34 :: rest) = some ((v.flatMap escCh).length, 34 :: rest) := by
  induction v generalizing ago with
  | nil => simp [scanStr, ha]
  | cons c v ih =>
    have hc := hv c (List.mem_cons_self ..)
    have ih := ih fun x hx => hv x (List.mem_cons_of_mem _ hx)
    by_cases h34 : c = 34
    · subst h34
      have e : escCh 34 = [92, 34] := by decide
      simp only [List.flatMap_cons, e, List.cons_append, List.nil_append]
      rw [scanStr, if_pos (.inl (by decide)), scanStr, if_pos (.inr rfl), ih 34 (by decide)]
      simp
    · have e : escCh c = [c] := by rw [escCh, if_pos ⟨hc.1, h34, hc.2⟩]
      simp only [List.flatMap_cons, e, List.cons_append, List.nil_append]
      rw [scanStr, if_pos (.inl h34), ih c hc.2]
      simp

theorem replace_esc {v : Bytes} (hv : okStr v) : replaceStr (v.flatMap escCh) = v := by
  induction v with
  | nil => rfl
  | cons c v ih =>
    have hc := hv c (List.mem_cons_self ..)
    have ih := ih fun x hx => hv x (List.mem_cons_of_mem _ hx)
    by_cases h34 : c = 34
    · subst h34
      have e : escCh 34 = [92, 34] := by decide
      simp only [List.flatMap_cons, e, List.cons_append, List.nil_append]
      rw [replaceStr, if_pos ⟨rfl, rfl⟩, ih]
    · have e : escCh c = [c] := by rw [escCh, if_pos ⟨hc.1, h34, hc.2⟩]
      simp only [List.flatMap_cons, e, List.cons_append, List.nil_append]
      cases hf : v.flatMap escCh with
      | nil => rw [hf] at ih; rw [← ih]; rfl
      | cons d r => rw [replaceStr, if_neg (by simp [hc.2]), ← hf, ih]

theorem esc_key {k : Bytes} (hk : ∀ c ∈ k, 0x20 ≤ c ∧ c ≠ 92 ∧ c ≠ 34) : k.flatMap escCh = k := by
  induction k with
  | nil => rfl
  | cons c k ih =>
    have hc := hk c (List.mem_cons_self ..)
    have e : escCh c = [c] := by rw [escCh, if_pos ⟨hc.1, hc.2.2, hc.2.1⟩]
    rw [List.flatMap_cons, e, ih fun x hx => hk x (List.mem_cons_of_mem _ hx)]
    rfl

/-- A text value is read back, in a place whose key is known. -/
theorem parse_str {v : Bytes} (hv : okStr v) (fuel : Nat) (m : Node) (k rest : Bytes) (hk : m.key = some k) (err : Bool) :
    parseValue (fuel + 1) m (toStr (some v) ++ rest) err = some ⟨some rest, .mk .string (some k) (some v) m.child, err⟩ := by
  have e : toStr (some v) ++ rest = 34 :: (v.flatMap escCh ++ 34 :: rest) := by simp [toStr]
  rw [e]
  unfold parseValue
  simp only [scan_esc hv 34 (by decide), hk, List.tail_cons]
  congr 3
  rw [strdup]
  split
  · rename_i h0
    rw [h0, List.take_zero]
    cases v with
    | nil => rfl
    | cons c v =>
      have : escCh c ≠ [] := by
        unfold escCh; repeat' split
        all_goals simp
      simp [this] at h0
  · rw [List.take_take, Nat.min_self, List.take_left, replace_esc hv]

/-- A key, a colon and a value are read back where no key is known yet. -/
theorem parse_key {k : Bytes} (hk : okKey k) (fuel : Nat) (m : Node) (rest : Bytes) (hm : m.key = none) (err : Bool) :
    parseValue (fuel + 1) m (toStr (some k) ++ 58 :: rest) err =
      (parseValue fuel (.mk m.ty (some k) m.value m.child) (skip rest) err).map fun o => ⟨skipP o.ptr, o.node, o.err⟩ := by
  have hs : okStr k := fun c hc => ⟨(hk.2 c hc).1, (hk.2 c hc).2.1⟩
  have e : toStr (some k) ++ 58 :: rest = 34 :: (k.flatMap escCh ++ 34 :: 58 :: rest) := by simp [toStr]
  rw [e]
  conv => lhs; unfold parseValue
  simp only [scan_esc hs 34 (by decide), hm, List.tail_cons, keyEnd]
  have : strdup (k.flatMap escCh ++ 34 :: 58 :: rest) (k.flatMap escCh).length = k := by
    have hl : k.length ≠ 0 := fun h => hk.1 (List.length_eq_zero_iff.1 h)
    rw [strdup, esc_key hk.2, if_neg hl]
    simp
  rw [this]
  simp

/-- A key followed by a comma stands for a member without value. -/
theorem parse_key_null {k : Bytes} (hk : okKey k) (fuel : Nat) (m : Node) (rest : Bytes) (hm : m.key = none) (err : Bool) :
    parseValue (fuel + 1) m (toStr (some k) ++ 44 :: rest) err =
      some ⟨some (44 :: rest), .mk .null (some k) none m.child, err⟩ := by
  have hs : okStr k := fun c hc => ⟨(hk.2 c hc).1, (hk.2 c hc).2.1⟩
  have e : toStr (some k) ++ 44 :: rest = 34 :: (k.flatMap escCh ++ 34 :: 44 :: rest) := by simp [toStr]
  rw [e]
  conv => lhs; unfold parseValue
  simp only [scan_esc hs 34 (by decide), hm, List.tail_cons, keyEnd]
  have : strdup (k.flatMap escCh ++ 34 :: 44 :: rest) (k.flatMap escCh).length = k := by
    have hl : k.length ≠ 0 := fun h => hk.1 (List.length_eq_zero_iff.1 h)
    rw [strdup, esc_key hk.2, if_neg hl]
    simp
  rw [this]
  simp

/-! ### Numbers and truth values -/

/-- What may follow a value: a comma, or behind the last value the end of the array or object, perhaps after a line
break. -/
def Follow (last : Bool) (rest : Bytes) : Prop :=
  ∃ c r, rest = c :: r ∧ (c = 44 ∨ (last = true ∧ (c = 93 ∨ c = 125 ∨ c = 10)))

theorem span_all {p : UInt8 → Bool} {a b : Bytes} (ha : ∀ c ∈ a, p c = true)
    (hb : ∀ c r, b = c :: r → p c = false) : (a ++ b).takeWhile p = a ∧ (a ++ b).dropWhile p = b := by
  induction a with
  | nil =>
    cases b with
    | nil => exact ⟨rfl, rfl⟩
    | cons c r => simp [hb c r rfl]
  | cons x a ih =>
    have hx := ha x (List.mem_cons_self ..)
    have := ih fun c hc => ha c (List.mem_cons_of_mem _ hc)
    simp [hx, this.1, this.2]

theorem numHead {c : UInt8} (h : c = 45 ∨ isDigit c = true) : ¬ c ≤ 0x20 ∧ c ≠ 34 ∧ c ≠ 91 ∧ c ≠ 123 ∧ c ≠ 93 ∧ c ≠ 125 := by
  have : ∀ n : Fin 256, (UInt8.ofNat n.val = 45 ∨ isDigit (UInt8.ofNat n.val) = true) → ¬ UInt8.ofNat n.val ≤ 0x20 ∧
      UInt8.ofNat n.val ≠ 34 ∧ UInt8.ofNat n.val ≠ 91 ∧ UInt8.ofNat n.val ≠ 123 ∧ UInt8.ofNat n.val ≠ 93 ∧
      UInt8.ofNat n.val ≠ 125 := by decide +kernel
  have := this ⟨c.toNat, c.toNat_lt⟩
  simp only [UInt8.ofNat_toNat] at this
  exact this h

theorem parse_scalar {c : UInt8} {t : Bytes} (h : c ≠ 34 ∧ c ≠ 91 ∧ c ≠ 123) (fuel : Nat) (m : Node) (err : Bool) :
    parseValue (fuel + 1) m (c :: t) err = some (parseScalar m (c :: t) err) := by
  conv => lhs; unfold parseValue
  split
  · rename_i e; cases e; exact absurd rfl h.1
  · rename_i e; cases e; exact absurd rfl h.2.1
  · rename_i e; cases e; exact absurd rfl h.2.2
  · rfl

theorem parse_num {dbl : Bool} {v : Bytes} (hv : okNum dbl v) (fuel : Nat) (m : Node) (rest : Bytes) (err last : Bool)
    (hr : Follow last rest) :
    parseValue (fuel + 1) m (v ++ rest) err =
      some ⟨some rest, .mk (if dbl then .double else .int) m.key (some v) m.child, err⟩ := by
  obtain ⟨⟨c, t, rfl, hc⟩, hn, hf⟩ := okNum_iff.1 hv
  have hh := numHead hc
  rw [List.cons_append, parse_scalar ⟨hh.2.1, hh.2.2.1, hh.2.2.2.1⟩]
  have hsp := span_all (p := numCh) (a := c :: t) (b := rest) hn (by
    rintro d r rfl
    obtain ⟨d', r', e, h⟩ := hr
    cases e
    rcases h with rfl | ⟨-, rfl | rfl | rfl⟩ <;> decide)
  have hcond : ((at0 (c :: (t ++ rest)) == 45 || isDigit (at0 (c :: (t ++ rest)))) && c :: (t ++ rest) != []) = true := by
    simp only [at0]
    rcases hc with rfl | hc
    · simp
    · simp [hc]
  rw [parseScalar, if_pos hcond, parseNumber]
  rw [List.cons_append] at hsp
  simp only [hsp.1, hsp.2, hf]
  congr 3
  rw [strdup, if_neg (by simp)]
  rw [← List.cons_append, List.take_left]

theorem parse_bool {v : Bytes} (hv : okBool v) (fuel : Nat) (m : Node) (rest : Bytes) (err : Bool) :
    parseValue (fuel + 1) m (v ++ 44 :: rest) err =
      some ⟨some (44 :: rest), .mk .bool m.key (some v) m.child, err⟩ := by
  have hsp := span_all (p := infoCh) (a := v) (b := 44 :: rest) (by
    rcases hv with rfl | rfl <;> decide) (by
    rintro d r e; cases e; decide)
  have hs : parseValue (fuel + 1) m (v ++ 44 :: rest) err = some (parseScalar m (v ++ 44 :: rest) err) := by
    rcases hv with rfl | rfl
    · exact parse_scalar (by decide) ..
    · exact parse_scalar (by decide) ..
  rw [hs, parseScalar]
  rw [if_neg (by rcases hv with rfl | rfl <;> simp [at0, isDigit]), if_pos (by
    rcases hv with rfl | rfl
    · simp [ncaseEq, at0]
    · simp [ncaseEq, at0]), parseInfo]
  simp only [hsp.1, hsp.2]
  congr 3
  rw [strdup, if_neg (by rcases hv with rfl | rfl <;> simp), List.take_left]

/-! ### Arrays and objects -/

/-- How the text of a value starts. -/
def Starts (t : Bytes) : Prop := ∃ c r, t = c :: r ∧ ¬ c ≤ 0x20 ∧ c ≠ 93 ∧ c ≠ 125

/-- The value is written as `t`, and `t` is read back. -/
def Reads (last : Bool) (n : Node) (t : Bytes) : Prop :=
  Starts t ∧ ∀ (m : Node) (rest : Bytes) (err : Bool) (fuel : Nat), m.value = none → m.child = [] →
    (m.key = none → n.ty = .array ∨ n.ty = .object) → 2 * t.length + 2 ≤ fuel →
    (n.ty ≠ .array → n.ty ≠ .object → Follow last rest) →
    parseValue fuel m (t ++ rest) err = some ⟨some rest, .mk n.ty m.key n.value n.child, err⟩

/-- The elements `cs`, numbered from `i`, are written as `es` and read back. -/
def RE : Nat → List Node → List Bytes → Prop
  | _, [], [] => True
  | i, c :: cs, e :: es => c.key = some (llutoa i 32) ∧ Reads cs.isEmpty c e ∧ RE (i + 1) cs es
  | _, _, _ => False

/-- The members `cs` are written as `ms` and read back. -/
def RM : List Node → List (Bytes × Option Bytes) → Prop
  | [], [] => True
  | c :: cs, m :: ms =>
    (∃ k, c.key = some k ∧ okKey k ∧ m.1 = toStr (some k) ∧
      ((cs ≠ [] ∧ m.2 = none ∧ c = .mk .null (some k) none []) ∨ ∃ t, m.2 = some t ∧ Reads cs.isEmpty c t)) ∧ RM cs ms
  | _, _ => False

theorem node_eta {c : Node} {k : Option Bytes} (h : c.key = k) : Node.mk c.ty k c.value c.child = c := by
  subst h; cases c; rfl

theorem key_mk (t : Ty) (k v : Option Bytes) (c : List Node) : (Node.mk t k v c).key = k := rfl

theorem skip_starts {w t r : Bytes} (hw : Ws w) (ht : Starts t) : skip (w ++ (t ++ r)) = t ++ r := by
  obtain ⟨c, x, rfl, h, -⟩ := ht
  rw [skip_ws hw, List.cons_append, skip_cons h]

theorem loop_elems (fmt nest : Bool) (depth : Nat) (cs : List Node) : ∀ (es : List Bytes) (i : Nat) (done : List Node)
    (w w2 rest : Bytes) (err : Bool) (fuel : Nat), RE i cs es → cs ≠ [] → Ws w → Ws w2 →
    2 * (w ++ arrBody fmt nest depth es).length + 3 ≤ fuel →
    (w2 = [] ∨ (fmt && nest) = true) →
    arrayLoop fuel i done newNode (w ++ (arrBody fmt nest depth es ++ (w2 ++ 93 :: rest))) err =
      some (some rest, done ++ cs, err) := by
  induction cs with
  | nil => intro es i done w w2 rest err fuel _ h; exact absurd rfl h
  | cons c cs ih =>
    intro es i done w w2 rest err fuel hre _ hw hw2 hf hor
    cases es with
    | nil => exact absurd hre id
    | cons e es =>
      obtain ⟨hkey, ⟨hst, hrd⟩, hre⟩ := hre
      have hrd' := hrd (.mk newNode.ty (some (llutoa i 32)) newNode.value newNode.child)
      cases fuel with
      | zero => omega
      | succ fuel =>
        have hwt : Ws (w ++ (if fmt && nest then tabs depth else [])) := hw.append (ws_ite (ws_tabs _))
        cases cs with
        | nil =>
          cases es with
          | cons e2 es2 => exact absurd hre id
          | nil =>
            have eq : w ++ (arrBody fmt nest depth [e] ++ (w2 ++ 93 :: rest)) =
                (w ++ (if fmt && nest then tabs depth else [])) ++ (e ++ ((if fmt && nest then [10] else []) ++ (w2 ++ 93 :: rest))) := by
              simp [arrBody, arrItem]
            have hl : (w ++ arrBody fmt nest depth [e]).length ≥ e.length := by
              simp [arrBody, arrItem]; omega
            rw [eq, arrayLoop, if_neg (by obtain ⟨x, y, rfl, -⟩ := hst; simp), skip_starts hwt hst,
              hrd' _ err fuel rfl rfl nofun (by omega) (fun _ _ => ?_)]
            · have h2 : skip ((if fmt && nest then [10] else []) ++ (w2 ++ 93 :: rest)) = 93 :: rest := by
                rw [skip_ws (ws_ite (Ws.single (by decide))), skip_ws hw2, skip_cons (by decide)]
              simp only [skipP, Option.map_some, h2]
              simp only [key_mk, node_eta hkey]
            · rcases hor with rfl | hor
              · cases hfn : (fmt && nest) with
                | true => exact ⟨10, _, rfl, .inr ⟨rfl, .inr (.inr rfl)⟩⟩
                | false => exact ⟨93, _, rfl, .inr ⟨rfl, .inl rfl⟩⟩
              · rw [hor]; exact ⟨10, _, rfl, .inr ⟨rfl, .inr (.inr rfl)⟩⟩
        | cons c2 cs2 =>
          cases es with
          | nil => exact absurd hre id
          | cons e2 es2 =>
            have eq : w ++ (arrBody fmt nest depth (e :: e2 :: es2) ++ (w2 ++ 93 :: rest)) =
                (w ++ (if fmt && nest then tabs depth else [])) ++ (e ++ (44 :: (((if fmt then [32] else []) ++
                  (if fmt && nest then [10] else [])) ++ (arrBody fmt nest depth (e2 :: es2) ++ (w2 ++ 93 :: rest))))) := by
              simp [arrBody, arrItem]
            have hl : (w ++ arrBody fmt nest depth (e :: e2 :: es2)).length ≥ e.length + 1 + (((if fmt then [32] else []) ++
                  (if fmt && nest then [10] else [])) ++ arrBody fmt nest depth (e2 :: es2)).length := by
              simp [arrBody, arrItem]; omega
            rw [eq, arrayLoop, if_neg (by obtain ⟨x, y, rfl, -⟩ := hst; simp), skip_starts hwt hst,
              hrd' _ err fuel rfl rfl nofun (by omega) (fun _ _ => ⟨44, _, rfl, .inl rfl⟩)]
            have h2 : ∀ r, skip (44 :: r) = 44 :: r := fun r => skip_cons (by decide)
            simp only [skipP, Option.map_some, h2]
            rw [ih (e2 :: es2) (i + 1) _ _ w2 rest err fuel hre (by simp)
              ((ws_ite (Ws.single (by decide))).append (ws_ite (Ws.single (by decide)))) hw2 (by omega) hor]
            simp only [key_mk, node_eta hkey, List.append_assoc, List.cons_append, List.nil_append]

theorem toStr_starts (k : Bytes) : Starts (toStr (some k)) := ⟨34, _, rfl, by decide, by decide, by decide⟩

theorem loop_members (fmt : Bool) (depth : Nat) (cs : List Node) : ∀ (ms : List (Bytes × Option Bytes)) (done : List Node)
    (w w2 rest : Bytes) (err : Bool) (fuel : Nat), RM cs ms → cs ≠ [] → Ws w → Ws w2 →
    2 * (w ++ objBody fmt depth ms).length + 3 ≤ fuel → (w2 = [] ∨ fmt = true) →
    objectLoop fuel done newNode (w ++ (objBody fmt depth ms ++ (w2 ++ 125 :: rest))) err =
      some (some rest, done ++ cs, err) := by
  induction cs with
  | nil => intro ms done w w2 rest err fuel _ h; exact absurd rfl h
  | cons c cs ih =>
    intro ms done w w2 rest err fuel hre _ hw hw2 hf hor
    cases ms with
    | nil => exact absurd hre id
    | cons m ms =>
      obtain ⟨nm, tv⟩ := m
      obtain ⟨⟨k, hkey, hok, hnm, hv⟩, hre⟩ := hre
      simp only at hnm hv
      subst hnm
      have hst := toStr_starts k
      have hwt : Ws (w ++ (if fmt then tabs depth else [])) := hw.append (ws_ite (ws_tabs _))
      have hw9 : Ws (if fmt then [9] else []) := ws_ite (Ws.single (by decide))
      have hw10 : Ws (if fmt then [10] else []) := ws_ite (Ws.single (by decide))
      cases fuel with
      | zero => omega
      | succ fuel =>
      cases fuel with
      | zero =>
        exfalso
        cases ms <;> simp [objBody, objItem, toStr] at hf <;> omega
      | succ fuel =>
        cases cs with
        | nil =>
          cases ms with
          | cons m2 ms2 => exact absurd hre id
          | nil =>
            rcases hv with ⟨h, -⟩ | ⟨t, rfl, hst2, hrd⟩
            · exact absurd rfl h
            · have eq : w ++ (objBody fmt depth [(toStr (some k), some t)] ++ (w2 ++ 125 :: rest)) =
                  (w ++ (if fmt then tabs depth else [])) ++ (toStr (some k) ++ 58 :: ((if fmt then [9] else []) ++ (t ++
                    ((if fmt then [10] else []) ++ (w2 ++ 125 :: rest))))) := by
                simp [objBody, objItem]
              have hl : (w ++ objBody fmt depth [(toStr (some k), some t)]).length ≥ t.length + 2 := by
                simp [objBody, objItem, toStr]; omega
              rw [eq, objectLoop, if_neg (by obtain ⟨x, y, h, -⟩ := hst; rw [h]; simp), skip_starts hwt hst,
                parse_key hok _ _ _ rfl, skip_starts hw9 hst2,
                hrd (.mk newNode.ty (some k) newNode.value newNode.child) _ err fuel rfl rfl nofun (by omega) (fun _ _ => ?_)]
              · have h2 : skip (skip ((if fmt then [10] else []) ++ (w2 ++ 125 :: rest))) = 125 :: rest := by
                  rw [skip_skip, skip_ws hw10, skip_ws hw2, skip_cons (by decide)]
                simp only [skipP, Option.map_some, h2]
                simp only [key_mk, node_eta hkey]
              · rcases hor with rfl | hor
                · cases fmt with
                  | true => exact ⟨10, _, rfl, .inr ⟨rfl, .inr (.inr rfl)⟩⟩
                  | false => exact ⟨125, _, rfl, .inr ⟨rfl, .inr (.inl rfl)⟩⟩
                · rw [hor]; exact ⟨10, _, rfl, .inr ⟨rfl, .inr (.inr rfl)⟩⟩
        | cons c2 cs2 =>
          cases ms with
          | nil => exact absurd hre id
          | cons m2 ms2 =>
            have h2 : ∀ r, skip (44 :: r) = 44 :: r := fun r => skip_cons (by decide)
            rcases hv with ⟨-, rfl, rfl⟩ | ⟨t, rfl, hst2, hrd⟩
            · have eq : w ++ (objBody fmt depth ((toStr (some k), none) :: m2 :: ms2) ++ (w2 ++ 125 :: rest)) =
                  (w ++ (if fmt then tabs depth else [])) ++ (toStr (some k) ++ 44 :: ((if fmt then [10] else []) ++
                    (objBody fmt depth (m2 :: ms2) ++ (w2 ++ 125 :: rest)))) := by
                simp [objBody, objItem]
              have hl : (w ++ objBody fmt depth ((toStr (some k), none) :: m2 :: ms2)).length ≥ 2 +
                  ((if fmt then [10] else []) ++ objBody fmt depth (m2 :: ms2)).length := by
                simp [objBody, objItem, toStr]; omega
              rw [eq, objectLoop, if_neg (by obtain ⟨x, y, h, -⟩ := hst; rw [h]; simp), skip_starts hwt hst,
                parse_key_null hok _ _ _ rfl]
              simp only [skipP, Option.map_some, h2]
              rw [ih (m2 :: ms2) _ _ w2 rest err (fuel + 1) hre (by simp) hw10 hw2 (by omega) hor]
              simp [newNode, Node.child]
            · have eq : w ++ (objBody fmt depth ((toStr (some k), some t) :: m2 :: ms2) ++ (w2 ++ 125 :: rest)) =
                  (w ++ (if fmt then tabs depth else [])) ++ (toStr (some k) ++ 58 :: ((if fmt then [9] else []) ++ (t ++
                    (44 :: ((if fmt then [10] else []) ++ (objBody fmt depth (m2 :: ms2) ++ (w2 ++ 125 :: rest))))))) := by
                simp [objBody, objItem]
              have hl : (w ++ objBody fmt depth ((toStr (some k), some t) :: m2 :: ms2)).length ≥ t.length + 3 +
                  ((if fmt then [10] else []) ++ objBody fmt depth (m2 :: ms2)).length := by
                simp [objBody, objItem, toStr]; omega
              rw [eq, objectLoop, if_neg (by obtain ⟨x, y, h, -⟩ := hst; rw [h]; simp), skip_starts hwt hst,
                parse_key hok _ _ _ rfl, skip_starts hw9 hst2,
                hrd (.mk newNode.ty (some k) newNode.value newNode.child) _ err fuel rfl rfl nofun (by omega)
                  (fun _ _ => ⟨44, _, rfl, .inl rfl⟩)]
              simp only [skipP, Option.map_some, h2]
              rw [ih (m2 :: ms2) _ _ w2 rest err (fuel + 1) hre (by simp) hw10 hw2 (by omega) hor]
              simp only [key_mk, node_eta hkey, List.append_assoc, List.cons_append, List.nil_append]

theorem parse_array (fuel : Nat) (m : Node) (t : Bytes) (err : Bool) : parseValue (fuel + 1) m (91 :: t) err =
    if at0 (skip t) = 93 then some ⟨some (skip t).tail, .mk .array m.key m.value m.child, err⟩
    else (arrayLoop fuel 0 [] newNode (skip t) err).map fun (p, c, e) => ⟨p, .mk .array m.key m.value c, e⟩ := by
  conv => lhs; unfold parseValue
  rfl

theorem parse_object (fuel : Nat) (m : Node) (t : Bytes) (err : Bool) : parseValue (fuel + 1) m (123 :: t) err =
    if at0 (skip t) = 125 then some ⟨some (skip t).tail, .mk .object m.key m.value m.child, err⟩
    else (objectLoop fuel [] newNode (skip t) err).map fun (p, c, e) => ⟨p, .mk .object m.key m.value c, e⟩ := by
  conv => lhs; unfold parseValue
  rfl

theorem arrayLoop_skip (fuel i : Nat) (d : List Node) (c : Node) (s : Bytes) (e : Bool) (h : skip s ≠ []) :
    arrayLoop fuel i d c (skip s) e = arrayLoop fuel i d c s e := by
  have hs : s ≠ [] := by rintro rfl; exact h rfl
  cases fuel with
  | zero => unfold arrayLoop; rfl
  | succ fuel => rw [arrayLoop, arrayLoop, if_neg h, if_neg hs, skip_skip]

theorem objectLoop_skip (fuel : Nat) (d : List Node) (c : Node) (s : Bytes) (e : Bool) (h : skip s ≠ []) :
    objectLoop fuel d c (skip s) e = objectLoop fuel d c s e := by
  have hs : s ≠ [] := by rintro rfl; exact h rfl
  cases fuel with
  | zero => unfold objectLoop; rfl
  | succ fuel => rw [objectLoop, objectLoop, if_neg h, if_neg hs, skip_skip]

theorem reads_array_nil (last : Bool) (key : Option Bytes) : Reads last (.mk .array key none []) [91, 93] := by
  refine ⟨⟨91, _, rfl, by decide, by decide, by decide⟩, ?_⟩
  intro m rest err fuel hm1 hm2 hk hf hfo
  cases fuel with
  | zero => omega
  | succ fuel =>
    rw [List.cons_append, parse_array, List.cons_append, List.nil_append, skip_cons (by decide), hm1, hm2]
    simp [at0, Node.ty, Node.value, Node.child]

theorem reads_object_nil (last : Bool) (key : Option Bytes) : Reads last (.mk .object key none []) [123, 125] := by
  refine ⟨⟨123, _, rfl, by decide, by decide, by decide⟩, ?_⟩
  intro m rest err fuel hm1 hm2 hk hf hfo
  cases fuel with
  | zero => omega
  | succ fuel =>
    rw [List.cons_append, parse_object, List.cons_append, List.nil_append, skip_cons (by decide), hm1, hm2]
    simp [at0, Node.ty, Node.value, Node.child]

theorem Starts.append {t : Bytes} (h : Starts t) (r : Bytes) : Starts (t ++ r) := by
  obtain ⟨x, y, rfl, h⟩ := h
  exact ⟨x, y ++ r, rfl, h⟩

theorem arrBody_cons (fmt nest : Bool) (d : Nat) (e : Bytes) (es : List Bytes) :
    ∃ r, arrBody fmt nest d (e :: es) = (if fmt && nest then tabs d else []) ++ (e ++ r) := by
  cases es with
  | nil => exact ⟨(if true then [] else 44 :: (if fmt then [32] else [])) ++ (if fmt && nest then [10] else []), by
      simp [arrBody, arrItem]⟩
  | cons e2 es => exact ⟨(if false then [] else 44 :: (if fmt then [32] else [])) ++ (if fmt && nest then [10] else []) ++
      arrBody fmt nest d (e2 :: es), by simp [arrBody, arrItem]⟩

theorem objBody_cons (fmt : Bool) (d : Nat) (e : Bytes × Option Bytes) (es : List (Bytes × Option Bytes)) :
    ∃ r, objBody fmt d (e :: es) = (if fmt then tabs d else []) ++ (e.1 ++ r) := by
  cases es with
  | nil => exact ⟨_, by simp only [objBody, objItem, List.append_assoc]; rfl⟩
  | cons e2 es => exact ⟨_, by simp only [objBody, objItem, List.append_assoc]; rfl⟩

theorem reads_array {fmt nest : Bool} {depth : Nat} {cs : List Node} {es : List Bytes} (hre : RE 0 cs es) (hne : cs ≠ [])
    (last : Bool) (key : Option Bytes) : Reads last (.mk .array key none cs) (arrText fmt nest (depth + 1) es) := by
  refine ⟨⟨91, _, rfl, by decide, by decide, by decide⟩, ?_⟩
  intro m rest err fuel hm1 hm2 hk hf hfo
  cases fuel with
  | zero => omega
  | succ fuel =>
    obtain ⟨w, hwd⟩ : ∃ w, (if fmt && nest then tabs (depth + 1) else ([] : Bytes)) = w := ⟨_, rfl⟩
    obtain ⟨b, hb⟩ : ∃ b, arrBody fmt nest (depth + 1) es = w ++ b ∧ Starts b := by
      cases es with
      | nil => cases cs with
        | nil => exact absurd rfl hne
        | cons c cs => exact absurd hre id
      | cons e es => cases cs with
        | nil => exact absurd rfl hne
        | cons c cs =>
          obtain ⟨r, hr⟩ := arrBody_cons fmt nest (depth + 1) e es
          exact ⟨e ++ r, by rw [hr, hwd], hre.2.1.1.append r⟩
    have hw : Ws w := by rw [← hwd]; exact ws_ite (ws_tabs _)
    have hw0 : Ws (if fmt && nest then [10] else []) := ws_ite (Ws.single (by decide))
    have hw2 : Ws (if fmt && nest then tabs depth else []) := ws_ite (ws_tabs _)
    have eq : arrText fmt nest (depth + 1) es ++ rest = 91 :: ((if fmt && nest then [10] else []) ++
        (arrBody fmt nest (depth + 1) es ++ ((if fmt && nest then tabs depth else []) ++ 93 :: rest))) := by
      simp [arrText]
    have hlen : (arrText fmt nest (depth + 1) es).length ≥ (arrBody fmt nest (depth + 1) es).length + 2 := by
      simp [arrText]; omega
    have hskip : skip ((if fmt && nest then [10] else []) ++
        (arrBody fmt nest (depth + 1) es ++ ((if fmt && nest then tabs depth else []) ++ 93 :: rest))) =
        b ++ ((if fmt && nest then tabs depth else []) ++ 93 :: rest) := by
      rw [skip_ws hw0, hb.1, List.append_assoc, skip_starts hw hb.2]
    have hne0 : b ++ ((if fmt && nest then tabs depth else []) ++ 93 :: rest) ≠ [] := by
      obtain ⟨x, y, h, -⟩ := hb.2; rw [h]; simp
    have hat : at0 (b ++ ((if fmt && nest then tabs depth else []) ++ 93 :: rest)) ≠ 93 := by
      obtain ⟨x, y, h, -, h93, -⟩ := hb.2; rw [h]; exact h93
    have hl0 : (if fmt && nest then [10] else ([] : Bytes)).length ≤ 1 := by split <;> simp
    have hrun := loop_elems fmt nest (depth + 1) cs es 0 [] _ _ rest err fuel hre hne hw0 hw2
      (by rw [List.length_append]; simp only [arrText, List.length_cons, List.length_append, List.length_nil] at hf ⊢; omega)
      (by cases h : (fmt && nest) with | true => exact .inr rfl | false => exact .inl rfl)
    rw [eq, parse_array, hskip, if_neg hat, ← hskip, arrayLoop_skip _ _ _ _ _ _ (by rw [hskip]; exact hne0), hrun, hm1]
    rfl

theorem reads_object {fmt : Bool} {depth : Nat} {cs : List Node} {ms : List (Bytes × Option Bytes)} (hre : RM cs ms)
    (hne : cs ≠ []) (last : Bool) (key : Option Bytes) :
    Reads last (.mk .object key none cs) (objText fmt (depth + 1) ms) := by
  refine ⟨⟨123, _, rfl, by decide, by decide, by decide⟩, ?_⟩
  intro m rest err fuel hm1 hm2 hk hf hfo
  cases fuel with
  | zero => omega
  | succ fuel =>
    obtain ⟨w, hwd⟩ : ∃ w, (if fmt then tabs (depth + 1) else ([] : Bytes)) = w := ⟨_, rfl⟩
    obtain ⟨b, hb⟩ : ∃ b, objBody fmt (depth + 1) ms = w ++ b ∧ Starts b := by
      cases ms with
      | nil => cases cs with
        | nil => exact absurd rfl hne
        | cons c cs => exact absurd hre id
      | cons e es => cases cs with
        | nil => exact absurd rfl hne
        | cons c cs =>
          obtain ⟨nm, tv⟩ := e
          obtain ⟨⟨k, -, -, hnm, -⟩, -⟩ := hre
          simp only at hnm
          subst hnm
          obtain ⟨r, hr⟩ := objBody_cons fmt (depth + 1) (toStr (some k), tv) es
          exact ⟨toStr (some k) ++ r, by rw [hr, hwd], (toStr_starts k).append r⟩
    have hw : Ws w := by rw [← hwd]; exact ws_ite (ws_tabs _)
    have hw0 : Ws (if fmt then [10] else []) := ws_ite (Ws.single (by decide))
    have hw2 : Ws (if fmt then tabs depth else []) := ws_ite (ws_tabs _)
    have eq : objText fmt (depth + 1) ms ++ rest = 123 :: ((if fmt then [10] else []) ++
        (objBody fmt (depth + 1) ms ++ ((if fmt then tabs depth else []) ++ 125 :: rest))) := by
      simp [objText]
    have hskip : skip ((if fmt then [10] else []) ++
        (objBody fmt (depth + 1) ms ++ ((if fmt then tabs depth else []) ++ 125 :: rest))) =
        b ++ ((if fmt then tabs depth else []) ++ 125 :: rest) := by
      rw [skip_ws hw0, hb.1, List.append_assoc, skip_starts hw hb.2]
    have hne0 : b ++ ((if fmt then tabs depth else []) ++ 125 :: rest) ≠ [] := by
      obtain ⟨x, y, h, -⟩ := hb.2; rw [h]; simp
    have hat : at0 (b ++ ((if fmt then tabs depth else []) ++ 125 :: rest)) ≠ 125 := by
      obtain ⟨x, y, h, -, -, h93⟩ := hb.2; rw [h]; exact h93
    have hrun := loop_members fmt (depth + 1) cs ms [] _ _ rest err fuel hre hne hw0 hw2
      (by rw [List.length_append]; simp only [objText, List.length_cons, List.length_append, List.length_nil] at hf ⊢; omega)
      (by cases fmt with | true => exact .inr rfl | false => exact .inl rfl)
    rw [eq, parse_object, hskip, if_neg hat, ← hskip, objectLoop_skip _ _ _ _ _ (by rw [hskip]; exact hne0), hrun, hm1]
    rfl

mutual
theorem reads_value (fmt : Bool) (depth : Nat) (last : Bool) : ∀ (n : Node), Ok last n → n.ty ≠ .null →
    ∃ t, toValue fmt depth n = some t ∧ Reads last n t
  | .mk ty key value child => by
    intro h hty
    cases ty with
    | null => exact absurd rfl hty
    | bool =>
      obtain ⟨rfl, ⟨v, rfl, hv⟩, rfl⟩ := h
      refine ⟨v, by simp [toValue], ?_, ?_⟩
      · rcases hv with rfl | rfl
        · exact ⟨116, _, rfl, by decide, by decide, by decide⟩
        · exact ⟨102, _, rfl, by decide, by decide, by decide⟩
      · intro m rest err fuel hm1 hm2 _ hf hfo
        cases fuel with
        | zero => omega
        | succ fuel =>
          obtain ⟨c, r, rfl, rfl | ⟨h, -⟩⟩ := hfo nofun nofun
          · rw [parse_bool hv, hm2]; rfl
          · cases h
    | int =>
      obtain ⟨⟨v, rfl, hv⟩, rfl⟩ := h
      refine ⟨v, by simp [toValue], ?_, ?_⟩
      · obtain ⟨⟨c, t, rfl, hc⟩, -⟩ := okNum_iff.1 hv
        have hh := numHead hc
        exact ⟨c, t, rfl, hh.1, hh.2.2.2.2.1, hh.2.2.2.2.2⟩
      · intro m rest err fuel hm1 hm2 _ hf hfo
        cases fuel with
        | zero => omega
        | succ fuel => rw [parse_num hv _ _ _ _ _ (hfo nofun nofun), hm2]; rfl
    | double =>
      obtain ⟨⟨v, rfl, hv⟩, rfl⟩ := h
      refine ⟨v, by simp [toValue], ?_, ?_⟩
      · obtain ⟨⟨c, t, rfl, hc⟩, -⟩ := okNum_iff.1 hv
        have hh := numHead hc
        exact ⟨c, t, rfl, hh.1, hh.2.2.2.2.1, hh.2.2.2.2.2⟩
      · intro m rest err fuel hm1 hm2 _ hf hfo
        cases fuel with
        | zero => omega
        | succ fuel => rw [parse_num hv _ _ _ _ _ (hfo nofun nofun), hm2]; rfl
    | string =>
      obtain ⟨⟨v, rfl, hv⟩, rfl⟩ := h
      refine ⟨toStr (some v), by simp [toValue], toStr_starts v, ?_⟩
      intro m rest err fuel hm1 hm2 hk hf hfo
      cases fuel with
      | zero => omega
      | succ fuel =>
        cases hmk : m.key with
        | none => rcases hk hmk with h | h <;> cases h
        | some k => rw [parse_str hv _ _ k _ hmk, hm2]; rfl
    | array =>
      obtain ⟨rfl, hc⟩ := h
      by_cases hne : child = []
      · subst hne
        exact ⟨[91, 93], by simp [toValue], reads_array_nil ..⟩
      · obtain ⟨es, he, hre⟩ := reads_elems fmt (depth + 1) 0 child hc
        refine ⟨arrText fmt (nested child) (depth + 1) es, ?_, reads_array hre hne ..⟩
        simp [toValue, hne, he]
    | object =>
      obtain ⟨rfl, hc⟩ := h
      by_cases hne : child = []
      · subst hne
        exact ⟨[123, 125], by simp [toValue], reads_object_nil ..⟩
      · have hre := reads_members fmt (depth + 1) child hc
        exact ⟨objText fmt (depth + 1) (toMembers fmt (depth + 1) child), by simp [toValue, hne], reads_object hre hne ..⟩
theorem reads_elems (fmt : Bool) (depth : Nat) : ∀ (i : Nat) (cs : List Node), OkElems i cs →
    ∃ es, allSome (toValues fmt depth cs) = some es ∧ RE i cs es
  | _, [] => fun _ => ⟨[], by simp [toValues, allSome], trivial⟩
  | i, .mk ty key value child :: cs => by
    rintro ⟨h1, h2, h3, h4⟩
    obtain ⟨t, ht, hr⟩ := reads_value fmt depth cs.isEmpty (.mk ty key value child) h3 h2
    obtain ⟨es, he, hre⟩ := reads_elems fmt depth (i + 1) cs h4
    exact ⟨t :: es, by simp [toValues, allSome, ht, he], h1, hr, hre⟩
theorem reads_members (fmt : Bool) (depth : Nat) : ∀ (cs : List Node), OkMembers cs →
    RM cs (toMembers fmt depth cs)
  | [] => fun _ => by rw [toMembers]; trivial
  | .mk ty key value child :: cs => by
    rintro ⟨⟨k, rfl, hk⟩, h3, h4⟩
    have hre := reads_members fmt depth cs h4
    rw [toMembers]
    refine ⟨⟨k, rfl, hk, rfl, ?_⟩, hre⟩
    by_cases hty : ty = .null
    · left
      subst hty
      obtain ⟨h1, rfl, rfl⟩ := h3
      refine ⟨?_, by simp [toValue], rfl⟩
      rintro rfl
      simp at h1
    · right
      obtain ⟨t, ht, hr⟩ := reads_value fmt depth cs.isEmpty (.mk ty (some k) value child) h3 hty
      exact ⟨t, ht, hr⟩
end

end Sis.Json
