import Verif.Rec.RecLemmas
/-
Lemmas on records made of texts: the documents the texts give, what is written for each value, and what the records hold then.
-/
namespace Sis.Rec
open Sis Sis.Num
open Sis.Json (Node Ty Ok OkElems OkMembers okNum okStr okKey)
open Sis.Dyn (Db Field St elem put puts slot num Made over covers)
open Sis.Sdb (every numNode strNode)

/-! ### The documents of texts -/

/-- The document of a value with a key, as it is read. -/
def inNode (key : Bytes) : Val → Node
  | .num v => .mk .int (some key) (some (decInt v)) []
  | .text s => .mk .string (some key) (some s) []
  | .raw t => .mk (if Json.isFloat t then .double else .int) (some key) (some t) []

/-- The text of a value without quotes. -/
def content : Val → Bytes
  | .num v => decInt v
  | .text s => s
  | .raw t => t

theorem inNode_key (key : Bytes) (v : Val) : (inNode key v).key = some key := by cases v <;> rfl
theorem inNode_value (key : Bytes) (v : Val) : (inNode key v).value = some (content v) := by cases v <;> rfl

/-- A value whose text can be read. -/
def Readable : Val → Prop
  | .num _ => True
  | .text s => PlainText s
  | .raw t => FloatText t

theorem inNode_text (d : Nat) (key : Bytes) {v : Val} (h : Readable v) : Json.toValue false d (inNode key v) = some (item v) := by
  cases v with
  | num v => simp [inNode, Json.toValue, item]
  | text s => simp [inNode, Json.toValue, item, toStr_plain h]
  | raw t =>
    cases hf : Json.isFloat t <;> simp [inNode, hf, Json.toValue, item]

theorem inNode_ok (key : Bytes) (last : Bool) {v : Val} (h : Readable v) : Ok last (inNode key v) ∧ (inNode key v).ty ≠ .null ∧
    (inNode key v).ty ≠ .array := by
  cases v with
  | num v => exact ⟨⟨⟨_, rfl, okNum_decInt v⟩, rfl⟩, nofun, nofun⟩
  | text s => exact ⟨⟨⟨_, rfl, fun c hc => ⟨(h c hc).1, (h c hc).2.2⟩⟩, rfl⟩, nofun, nofun⟩
  | raw t =>
    obtain ⟨h1, h2⟩ := h
    have h3 : ∀ c ∈ t, c = 45 ∨ c = 46 ∨ (48 ≤ c ∧ c ≤ 57) ∨ c = 101 := by
      intro c hc
      rcases h2 c hc with h | h | h
      · exact .inl h
      · exact .inr (.inl h)
      · exact .inr (.inr (.inl h))
    cases hf : Json.isFloat t
    · simp only [inNode, hf]
      exact ⟨⟨⟨_, rfl, h1, h3, by rw [← Json.isFloat_iff, hf]⟩, rfl⟩, nofun, nofun⟩
    · simp only [inNode, hf]
      exact ⟨⟨⟨_, rfl, h1, h3, by rw [← Json.isFloat_iff, hf]⟩, rfl⟩, nofun, nofun⟩

/-- The documents of values in an array, numbered from `k` on. -/
def inNodes : Nat → List Val → List Node
  | _, [] => []
  | k, v :: vs => inNode (llutoa k 32) v :: inNodes (k + 1) vs

theorem inNodes_length (k : Nat) (a : List Val) : (inNodes k a).length = a.length := by
  induction a generalizing k with
  | nil => rfl
  | cons v a ih => simp [inNodes, ih]

theorem inNodes_text (d k : Nat) (vs : List Val) (h : ∀ v ∈ vs, Readable v) :
    List.Forall₂ (fun n t => Json.toValue false d n = some t) (inNodes k vs) (vs.map item) := by
  induction vs generalizing k with
  | nil => exact .nil
  | cons v vs ih => exact .cons (inNode_text _ _ (h v (by simp))) (ih _ fun w hw => h w (by simp [hw]))

theorem okElems_cons {i : Nat} {n : Node} {cs : List Node} (h1 : n.key = some (llutoa i 32)) (h2 : n.ty ≠ .null) (h3 : Ok cs.isEmpty n)
    (h4 : OkElems (i + 1) cs) : OkElems i (n :: cs) := by
  obtain ⟨ty, k, v, c⟩ := n
  exact ⟨h1, h2, h3, h4⟩

theorem inNodes_ok (k : Nat) (vs : List Val) (h : ∀ v ∈ vs, Readable v) : OkElems k (inNodes k vs) := by
  induction vs generalizing k with
  | nil => trivial
  | cons v vs ih =>
    have hv := h v (by simp)
    exact okElems_cons (inNode_key _ _) (inNode_ok _ false hv).2.1 (inNode_ok _ _ hv).1 (ih _ fun w hw => h w (by simp [hw]))

/-- The documents of the rows of an array of arrays, numbered from `k` on. -/
def inRows : Nat → List (List Val) → List Node
  | _, [] => []
  | k, vs :: rows => .mk .array (some (llutoa k 32)) none (inNodes 0 vs) :: inRows (k + 1) rows

theorem inRows_text (d k : Nat) (rows : List (List Val)) (h : ∀ vs ∈ rows, ∀ v ∈ vs, Readable v) :
    List.Forall₂ (fun n t => Json.toValue false d n = some t) (inRows k rows) (rows.map rowText) := by
  induction rows generalizing k with
  | nil => exact .nil
  | cons vs rows ih => exact .cons (text_array (inNodes_text _ _ _ (h vs (by simp)))) (ih _ fun w hw => h w (by simp [hw]))

theorem inRows_ok (k : Nat) (rows : List (List Val)) (h : ∀ vs ∈ rows, ∀ v ∈ vs, Readable v) : OkElems k (inRows k rows) := by
  induction rows generalizing k with
  | nil => trivial
  | cons vs rows ih =>
    exact okElems_cons rfl nofun ⟨rfl, inNodes_ok 0 vs (h vs (by simp))⟩ (ih _ fun w hw => h w (by simp [hw]))

theorem inRows_getElem (k : Nat) (rows : List (List Val)) (j : Nat) : (inRows k rows)[j]? =
    rows[j]?.map fun vs => .mk .array (some (llutoa (k + j) 32)) none (inNodes 0 vs) := by
  induction rows generalizing k j with
  | nil => simp [inRows]
  | cons vs rows ih =>
    cases j with
    | zero => simp [inRows]
    | succ j => simp only [inRows, List.getElem?_cons_succ, ih]; rw [show k + 1 + j = k + (j + 1) by omega]

theorem inRows_length (k : Nat) (a : List (List Val)) : (inRows k a).length = a.length := by
  induction a generalizing k with
  | nil => rfl
  | cons v a ih => simp [inRows, ih]

theorem load_row {vs : List Val} (h : ∀ v ∈ vs, Readable v) : Json.load (rowText vs) = some (some (.mk .array none none (inNodes 0 vs))) := by
  obtain ⟨t, h1, h2⟩ := Json.load_text (fmt := false) (n := .mk .array none none (inNodes 0 vs)) ⟨rfl, inNodes_ok 0 vs h⟩ (.inl rfl) []
  rw [text_array (inNodes_text _ _ _ h)] at h1
  cases h1
  rw [List.append_nil] at h2
  exact h2

theorem load_rows {rows : List (List Val)} (h : ∀ vs ∈ rows, ∀ v ∈ vs, Readable v) :
    Json.load (rowsText rows) = some (some (.mk .array none none (inRows 0 rows))) := by
  obtain ⟨t, h1, h2⟩ := Json.load_text (fmt := false) (n := .mk .array none none (inRows 0 rows)) ⟨rfl, inRows_ok 0 rows h⟩ (.inl rfl) []
  rw [text_array (inRows_text _ _ _ h)] at h1
  cases h1
  rw [List.append_nil] at h2
  exact h2

/-! ### Finding a value -/

theorem dec_lower (n : Nat) : (dec n).map lower = dec n := by
  have : ∀ l : Bytes, (∀ c ∈ l, isDigit c = true) → l.map lower = l := by
    intro l
    induction l with
    | nil => intro _; rfl
    | cons c l ih =>
      intro h
      rw [List.map_cons, ih fun x hx => h x (by simp [hx])]
      congr 1
      have h1 := h c (by simp)
      have key : ∀ n : Fin 256, isDigit (UInt8.ofNat n.val) = true → lower (UInt8.ofNat n.val) = UInt8.ofNat n.val := by decide +kernel
      have := key ⟨c.toNat, c.toNat_lt⟩
      simp at this
      exact this h1
  exact this _ (dec_facts n).2.1

theorem dec_cstr (n : Nat) : CStr (dec n) ∧ ∀ c ∈ dec n, c ≠ 46 := by
  refine ⟨fun c hc => (isDigit_not c ((dec_facts n).2.1 c hc)).2.2.2.1, fun c hc h => ?_⟩
  have := (isDigit_not c ((dec_facts n).2.1 c hc)).2.2.2.2
  subst h
  revert this; decide

theorem caseEq_dec {a b : Nat} : caseEq (dec a) (dec b) = true ↔ a = b := by
  rw [caseEq_iff (dec_cstr a).1 (dec_cstr b).1, dec_lower, dec_lower]
  exact ⟨dec_inj, fun h => by rw [h]⟩

theorem find_elem {k : Nat} {vs : List Val} {j : Nat} {v : Val} (hj : k + vs.length < 10 ^ 31) (hv : vs[j]? = some v) :
    Json.member (inNodes k vs) (dec (k + j)) = some (inNode (llutoa (k + j) 32) v) := by
  induction vs generalizing k j with
  | nil => cases hv
  | cons w vs ih =>
    simp only [List.length_cons] at hj
    rw [inNodes, Json.member, List.find?_cons]
    have hn : Json.named (dec (k + j)) (inNode (llutoa k 32) w) = decide (k = k + j) := by
      rw [Json.named, inNode_key, llutoa_dec (by omega)]
      rw [Bool.eq_iff_iff]
      simp only [caseEq_dec, decide_eq_true_eq]
    rw [hn]
    cases j with
    | zero => cases hv; simp
    | succ j =>
      rw [decide_eq_false (by omega)]
      have := ih (k := k + 1) (j := j) (by omega) hv
      rw [show k + 1 + j = k + (j + 1) by omega] at this
      exact this

theorem find_row {ty : Ty} {key val : Option Bytes} {vs : List Val} {j : Nat} {v : Val} (hj : vs.length < 10 ^ 31) (hv : vs[j]? = some v) :
    find (.mk ty key val (inNodes 0 vs)) (llutoa j 32) = some (inNode (llutoa j 32) v) := by
  have hlt : j < vs.length := (List.getElem?_eq_some_iff.1 hv).1
  rw [llutoa_dec (by omega), find, Json.find_plain (dec_cstr j).2]
  have := find_elem (k := 0) (by omega) hv
  rw [Nat.zero_add, llutoa_dec (by omega)] at this
  exact this

/-! ### What is written for a value -/

/-- The bytes of an element after a value was written to it. -/
def target (fl : Fl) (f : Field) : Option Val → Bytes
  | none => List.replicate f.len 0
  | some v =>
    match f.style with
    | .char => (content v).take f.len ++ List.replicate (f.len - (content v).length) 0
    | .float | .price => leBytes f.len (fl.ofText f (content v))
    | _ => leBytes f.len (atoll (content v) % 2 ^ 64).toNat

/-- The writes `ws` stay between `a` and `a + t.length` and leave the bytes `t` there, where there were zeros. -/
def Leaves (ws : List Dyn.W) (a : Nat) (t : Bytes) : Prop :=
  (∀ w ∈ ws, a ≤ w.1 ∧ w.1 + w.2.length ≤ a + t.length) ∧ ∀ b, b < t.length → (over ws (a + b)).or (some 0) = t[b]?

theorem leaves_nil (a n : Nat) : Leaves [] a (List.replicate n 0) := by
  refine ⟨nofun, fun b hb => ?_⟩
  rw [List.length_replicate] at hb
  rw [List.getElem?_replicate, if_pos hb]
  rfl

theorem leaves_one (a : Nat) (t : Bytes) : Leaves [(a, t)] a t := by
  refine ⟨fun w hw => by rw [List.mem_singleton.1 hw]; exact ⟨Nat.le_refl _, Nat.le_refl _⟩, fun b hb => ?_⟩
  simp only [over, Option.none_or, if_pos (Nat.le_add_right a b)]
  rw [show a + b - a = b by omega, List.getElem?_eq_getElem hb]
  rfl

theorem leaves_text (a n : Nat) (s : Bytes) :
    Leaves ((a, s.take (min n s.length)) :: if min n s.length < n then [(a + min n s.length, [0])] else []) a (s.take n ++ List.replicate (n - s.length) 0) := by
  have ht : s.take (min n s.length) = s.take n := by
    rcases Nat.le_total n s.length with h | h
    · rw [Nat.min_eq_left h]
    · rw [Nat.min_eq_right h, List.take_length, List.take_of_length_le h]
  have hlen : (s.take n ++ List.replicate (n - s.length) (0 : UInt8)).length = n := by simp; omega
  rw [ht]
  refine ⟨?_, ?_⟩
  · intro w hw
    rw [hlen]
    rcases List.mem_cons.1 hw with rfl | hw
    · simp; omega
    · split at hw
      · rw [List.mem_singleton.1 hw]; simp; omega
      · cases hw
  · intro b hb
    rw [hlen] at hb
    obtain ⟨ex, hex⟩ : ∃ ex : List Dyn.W, ex = if min n s.length < n then [(a + min n s.length, [0])] else [] := ⟨_, rfl⟩
    rw [← hex]
    have hov : over ((a, s.take n) :: ex) (a + b) = (over ex (a + b)).or (s.take n)[b]? := by
      rw [over]
      dsimp only
      rw [if_pos (Nat.le_add_right a b), show a + b - a = b by omega]
    rw [hov]
    have hz : ∀ x, over ex (a + b) = some x → x = 0 ∧ s.length ≤ b := by
      intro x hx
      rw [hex] at hx
      split at hx
      · rename_i h1
        simp only [over, Option.none_or] at hx
        split at hx
        · rename_i h2
          obtain ⟨h3, h4⟩ := List.getElem?_eq_some_iff.1 hx
          simp at h3 h4
          exact ⟨h4.symm, by omega⟩
        · cases hx
      · cases hx
    cases ho : over ex (a + b) with
    | some x =>
      obtain ⟨rfl, hb2⟩ := hz x ho
      rw [List.getElem?_append_right (by simp; omega), List.getElem?_replicate, if_pos (by simp; omega)]
      rfl
    | none =>
      rw [Option.none_or]
      rcases Nat.lt_or_ge b s.length with h | h
      · rw [List.getElem?_append_left (by simp; omega), List.getElem?_eq_getElem (by simp; omega)]
        rfl
      · rw [List.getElem?_eq_none (by simp; omega), List.getElem?_append_right (by simp; omega), List.getElem?_replicate, if_pos (by simp; omega)]
        rfl

theorem target_length (fl : Fl) (f : Field) (v : Option Val) : (target fl f v).length = f.len := by
  cases v with
  | none => simp [target]
  | some v =>
    cases hs : f.style <;> simp [target, hs]
    omega

theorem cellWrites_val {fl : Fl} {f : Field} {i : Nat} {key : Bytes} {n : Node} (hw : Texted f) (v : Option Val)
    (hf : (find n key).map Node.value = v.map fun v => some (content v)) :
    ∃ ws, cellWrites fl f i key n = some ws ∧ Leaves ws (f.offset + i * f.len) (target fl f v) := by
  have hstr : Json.getStr n key = v.map content := by
    have e : Json.getStr n key = (find n key).bind Node.value := rfl
    rw [e]
    cases hc : find n key with
    | none =>
      rw [hc] at hf
      cases v with
      | none => rfl
      | some v => cases hf
    | some c =>
      rw [hc] at hf
      cases v with
      | none => cases hf
      | some v => simpa using hf
  have hint : v.isSome → Json.getInt n key 0 = atoll ((v.map content).getD []) := by
    intro hs
    have e : Json.getInt n key 0 = match Json.getStr n key with | some t => atoll t | none => 0 := rfl
    rw [e, hstr]
    cases v with
    | none => cases hs
    | some v => rfl
  cases v with
  | none =>
    have hn : find n key = none := by cases hc : find n key with | none => rfl | some c => rw [hc] at hf; cases hf
    refine ⟨[], ?_, leaves_nil _ _⟩
    unfold cellWrites
    rw [hstr, hn]
    cases f.style <;> rfl
  | some v =>
    obtain ⟨c, hc, hcv⟩ : ∃ c, find n key = some c ∧ c.value = some (content v) := by
      cases hc : find n key with
      | none => rw [hc] at hf; cases hf
      | some c => rw [hc] at hf; exact ⟨c, rfl, by simpa using hf⟩
    have hint : Json.getInt n key 0 = atoll (content v) := hint rfl
    have hstr : Json.getStr n key = some (content v) := hstr
    rcases hw with hc' | hc' | ⟨hc', hl⟩
    · have hi := intLen_counts hc'
      refine ⟨Dyn.setNum f 0 (atoll (content v) % 2 ^ 64).toNat i, ?_, ?_⟩
      · unfold cellWrites
        rw [hc]
        rcases hc'.1 with h | h | h | h | h | h <;> simp only [h, hint]
      · rw [Dyn.setNum, if_pos hi, Nat.zero_add]
        have : target fl f (some v) = leBytes f.len (atoll (content v) % 2 ^ 64).toNat := by
          unfold target
          rcases hc'.1 with h | h | h | h | h | h <;> simp only [h]
        rw [this]
        exact leaves_one _ _
    · have : target fl f (some v) = (content v).take f.len ++ List.replicate (f.len - (content v).length) 0 := by
        unfold target; simp only [hc']
      rw [this]
      refine ⟨_, ?_, leaves_text _ f.len _⟩
      unfold cellWrites
      simp only [hc', hstr]
    · have : target fl f (some v) = leBytes f.len (fl.ofText f (content v)) := by
        unfold target; rcases hc' with h | h <;> simp only [h]
      rw [this]
      refine ⟨[(f.offset + i * f.len, leBytes f.len (fl.ofText f (content v)))], ?_, leaves_one _ _⟩
      unfold cellWrites
      rw [hc]
      rcases hc' with h | h <;> simp only [h, if_pos hl, hcv, Option.getD_some]

theorem holds_target {fl : Fl} {f : Field} {v : Val} (h : Suits fl f v) : Holds fl f (target fl f (some v)) v := by
  cases v with
  | num n =>
    obtain ⟨hc, hf, hn⟩ := h
    have ht : target fl f (some (.num n)) = leBytes f.len (clamp n % 2 ^ 64).toNat := by
      unfold target
      rcases hc.1 with h | h | h | h | h | h <;> simp only [h, content, atoll_dec]
    have hl : 1 ≤ f.len ∧ f.len ≤ 8 := by rcases hc.2 with h | h | h | h <;> omega
    have hcl : -2 ^ 63 ≤ n → clamp n = n := by unfold clamp; omega
    have key : ∀ m : Int, -2 ^ 63 ≤ m → Dyn.Fits f m → num f (leBytes f.len (m % 2 ^ 64).toNat) = m := by
      intro m hm hfm
      unfold num Dyn.Fits at *
      rw [leVal_leBytes]
      rcases hc.2 with e | e | e | e <;> simp only [e] at hfm ⊢ <;> split at hfm <;> rename_i hs <;> simp only [hs, true_and, false_and, if_false] <;>
        (try split) <;> omega
    have hge : -2 ^ 63 ≤ n := by
      unfold Dyn.Fits at hf
      split at hf
      · rcases hc.2 with e | e | e | e <;> rw [e] at hf <;> omega
      · omega
    show num f (target fl f (some (.num n))) = n
    rw [ht, hcl hge]
    exact key n hge hf
  | text s =>
    show target fl f (some (.text s)) = _
    unfold target
    simp only [h.1, content]
  | raw t =>
    obtain ⟨hs, hl, -, hb⟩ := h
    have ht : target fl f (some (.raw t)) = leBytes f.len (fl.ofText f t) := by
      unfold target; rcases hs with h | h <;> simp only [h, content]
    show leVal (target fl f (some (.raw t))) = _
    rw [ht, leVal_leBytes, Nat.mod_eq_of_lt]
    rcases hl with e | e <;> rw [e] at hb ⊢ <;> exact hb

/-! ### Cells of a record -/

/-- The writes of one element of a record: where it starts, how long it is, what is written. -/
structure Cell where
  start : Nat
  len : Nat
  ws : List Dyn.W

/-- The writes of a cell stay in it. -/
def Cell.Inside (c : Cell) : Prop := ∀ w ∈ c.ws, c.start ≤ w.1 ∧ w.1 + w.2.length ≤ c.start + c.len

/-- Two cells share no byte. -/
def Cell.Apart (c d : Cell) : Prop := c.start + c.len ≤ d.start ∨ d.start + d.len ≤ c.start

theorem over_append (a b : List Dyn.W) (p : Nat) : over (a ++ b) p = (over b p).or (over a p) := by
  induction a with
  | nil => simp [over]
  | cons w a ih => simp only [List.cons_append, over, ih, Option.or_assoc]

theorem over_outside {c : Cell} (h : c.Inside) {p : Nat} (hp : p < c.start ∨ c.start + c.len ≤ p) : over c.ws p = none := by
  apply Dyn.over_none
  rintro w hw ⟨h1, h2⟩
  have := h w hw
  omega

theorem cells_over {cells : List Cell} (hin : ∀ c ∈ cells, c.Inside) (hp : cells.Pairwise Cell.Apart) {c : Cell} (hc : c ∈ cells) {b : Nat}
    (hb : b < c.len) : over (cells.flatMap Cell.ws) (c.start + b) = over c.ws (c.start + b) := by
  induction cells with
  | nil => cases hc
  | cons d cells ih =>
    obtain ⟨h1, h2⟩ := List.pairwise_cons.1 hp
    rw [List.flatMap_cons, over_append]
    rcases List.mem_cons.1 hc with rfl | hc'
    · have : over (cells.flatMap Cell.ws) (c.start + b) = none := by
        apply Dyn.over_none
        rintro w hw ⟨g1, g2⟩
        obtain ⟨e, he, hwe⟩ := List.mem_flatMap.1 hw
        have g3 := hin e (by simp [he]) w hwe
        rcases h1 e he with g | g <;> omega
      rw [this, Option.none_or]
    · rw [ih (fun c hc => hin c (by simp [hc])) h2 hc', over_outside (hin d (by simp)), Option.or_none]
      rcases h1 c hc' with g | g <;> omega

/-- The cells of the elements of a field, from element `i` on; the element numbers go on from `k`. -/
def fieldCells (wr : Nat → Field → Nat → List Dyn.W) (f : Field) : Nat → Nat → Nat → List Cell
  | 0, _, _ => []
  | todo + 1, i, k => ⟨f.offset + i * f.len, f.len, wr k f i⟩ :: fieldCells wr f todo (i + 1) (k + 1)

/-- The cells of the fields of a record. -/
def rowCells (wr : Nat → Field → Nat → List Dyn.W) : List Field → Nat → List Cell
  | [], _ => []
  | f :: fs, k => fieldCells wr f f.count 0 k ++ rowCells wr fs (k + f.count)

theorem fieldCells_mem (wr : Nat → Field → Nat → List Dyn.W) (f : Field) : ∀ (todo i k : Nat) (c : Cell),
    c ∈ fieldCells wr f todo i k ↔ ∃ e, e < todo ∧ c = ⟨f.offset + (i + e) * f.len, f.len, wr (k + e) f (i + e)⟩ := by
  intro todo
  induction todo with
  | zero => intro i k c; simp [fieldCells]
  | succ n ih =>
    intro i k c
    rw [fieldCells, List.mem_cons, ih]
    constructor
    · rintro (rfl | ⟨e, he, rfl⟩)
      · exact ⟨0, by omega, rfl⟩
      · exact ⟨e + 1, by omega, by rw [show i + 1 + e = i + (e + 1) by omega, show k + 1 + e = k + (e + 1) by omega]⟩
    · rintro ⟨e, he, rfl⟩
      cases e with
      | zero => exact .inl rfl
      | succ e => exact .inr ⟨e, by omega, by rw [show i + 1 + e = i + (e + 1) by omega, show k + 1 + e = k + (e + 1) by omega]⟩

theorem fieldCells_apart (wr : Nat → Field → Nat → List Dyn.W) (f : Field) : ∀ (todo i k : Nat), (fieldCells wr f todo i k).Pairwise Cell.Apart := by
  intro todo
  induction todo with
  | zero => intro i k; exact .nil
  | succ n ih =>
    intro i k
    refine .cons ?_ (ih _ _)
    intro c hc
    obtain ⟨e, he, rfl⟩ := (fieldCells_mem ..).1 hc
    refine .inl ?_
    dsimp only
    have : (i + 1) * f.len ≤ (i + 1 + e) * f.len := Nat.mul_le_mul_right _ (by omega)
    rw [Nat.succ_mul] at this
    omega

/-- Where the fields are. -/
def FApart (f g : Field) : Prop := f.offset + f.len * f.count ≤ g.offset ∨ g.offset + g.len * g.count ≤ f.offset

/-- The number of the first element of the field at a place. -/
def before (fs : List Field) (j : Nat) : Nat := ((fs.take j).map Field.count).sum

theorem rowCells_mem (wr : Nat → Field → Nat → List Dyn.W) : ∀ (fs : List Field) (k : Nat) (c : Cell),
    c ∈ rowCells wr fs k ↔ ∃ j f e, fs[j]? = some f ∧ e < f.count ∧ c = ⟨f.offset + e * f.len, f.len, wr (k + before fs j + e) f e⟩ := by
  intro fs
  induction fs with
  | nil => intro k c; simp [rowCells]
  | cons f fs ih =>
    intro k c
    rw [rowCells, List.mem_append, fieldCells_mem, ih]
    constructor
    · rintro (⟨e, he, rfl⟩ | ⟨j, g, e, hj, he, rfl⟩)
      · exact ⟨0, f, e, rfl, he, by simp [before]⟩
      · refine ⟨j + 1, g, e, hj, he, ?_⟩
        simp [before, Nat.add_assoc]
    · rintro ⟨j, g, e, hj, he, rfl⟩
      cases j with
      | zero => cases hj; exact .inl ⟨e, he, by simp [before]⟩
      | succ j => refine .inr ⟨j, g, e, hj, he, ?_⟩; simp [before, Nat.add_assoc]

theorem cell_in {f : Field} {e : Nat} (he : e < f.count) : f.offset + e * f.len + f.len ≤ f.offset + f.len * f.count := by
  have : (e + 1) * f.len ≤ f.count * f.len := Nat.mul_le_mul_right _ (by omega)
  rw [Nat.succ_mul, Nat.mul_comm f.count] at this
  omega

theorem rowCells_apart (wr : Nat → Field → Nat → List Dyn.W) (fs : List Field) (h : fs.Pairwise FApart) (k : Nat) :
    (rowCells wr fs k).Pairwise Cell.Apart := by
  induction fs generalizing k with
  | nil => exact .nil
  | cons f fs ih =>
    obtain ⟨h1, h2⟩ := List.pairwise_cons.1 h
    rw [rowCells, List.pairwise_append]
    refine ⟨fieldCells_apart .., ih h2 _, ?_⟩
    intro c hc d hd
    obtain ⟨e, he, rfl⟩ := (fieldCells_mem ..).1 hc
    obtain ⟨j, g, e', hj, he', rfl⟩ := (rowCells_mem ..).1 hd
    have h3 := h1 g (List.mem_of_getElem? hj)
    have h4 := cell_in he
    have h5 := cell_in he'
    unfold FApart at h3
    unfold Cell.Apart
    dsimp only
    rw [Nat.zero_add]
    omega

end Sis.Rec
