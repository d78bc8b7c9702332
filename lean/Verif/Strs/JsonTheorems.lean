import Verif.Strs.JsonRound
/-
Properties of JSON documents: C68 (written and read again), C69 (the writer stays in its buffers), C70 (reading any text
ends; malformed texts are refused), C71 (a member that was set is read back), C72 (merging two documents).
-/
namespace Sis.Json
open Sis Num

/-- The bytes of a literal. -/
def str (s : String) : Bytes := s.toUTF8.toList

/-! ### C68 -/

theorem cstr_append {a b : Bytes} (ha : CStr a) (hb : CStr b) : CStr (a ++ b) := fun c hc =>
  (List.mem_append.1 hc).elim (ha c) (hb c)

theorem cstr_cons {c : UInt8} {b : Bytes} (hc : c ≠ 0) (hb : CStr b) : CStr (c :: b) := fun x hx =>
  (List.mem_cons.1 hx).elim (fun h => h ▸ hc) (hb x)

theorem cstr_ite {p : Bool} {a : Bytes} (h : CStr a) : CStr (if p then a else []) := by
  cases p
  · exact nofun
  · exact h

theorem cstr_tabs (n : Nat) : CStr (tabs n) := fun c hc => by rw [(List.mem_replicate.1 hc).2]; decide

theorem cstr_nil : CStr [] := nofun

theorem cstr_esc {v : Bytes} (h : okStr v) : CStr (toStr (some v)) := by
  refine cstr_cons (by decide) (cstr_append ?_ (cstr_cons (by decide) cstr_nil))
  intro c hc
  obtain ⟨x, hx, hcx⟩ := List.mem_flatMap.1 hc
  have := h x hx
  rw [escCh] at hcx
  have key : ∀ n : Fin 256, 0x20 ≤ UInt8.ofNat n.val → UInt8.ofNat n.val ≠ 0 := by decide +kernel
  have kx := key ⟨x.toNat, x.toNat_lt⟩
  simp only [UInt8.ofNat_toNat] at kx
  split at hcx
  · rw [List.mem_singleton.1 hcx]; exact kx this.1
  · rename_i h1
    rw [if_neg this.2] at hcx
    have h34 : x = 34 := by
      rcases Decidable.em (x = 34) with e | e
      · exact e
      · exact absurd ⟨this.1, e, this.2⟩ h1
    rw [if_pos h34] at hcx
    simp at hcx
    rcases hcx with rfl | rfl <;> decide

theorem cstr_num {d : Bool} {v : Bytes} (h : okNum d v) : CStr v := by
  intro c hc
  have key : ∀ n : Fin 256, numCh (UInt8.ofNat n.val) = true → UInt8.ofNat n.val ≠ 0 := by decide +kernel
  have kx := key ⟨c.toNat, c.toNat_lt⟩
  simp only [UInt8.ofNat_toNat] at kx
  exact kx ((okNum_iff.1 h).2.1 c hc)

theorem cstr_arrItem {fmt nest last : Bool} {d : Nat} {e : Bytes} (h : CStr e) : CStr (arrItem fmt nest last d e) := by
  unfold arrItem
  refine cstr_append (cstr_append (cstr_append (cstr_ite (cstr_tabs _)) h) ?_) (cstr_ite (cstr_cons (by decide) cstr_nil))
  cases last
  · exact cstr_cons (by decide) (cstr_ite (cstr_cons (by decide) cstr_nil))
  · exact cstr_nil

theorem cstr_arrBody {fmt nest : Bool} {d : Nat} {es : List Bytes} (h : ∀ e ∈ es, CStr e) : CStr (arrBody fmt nest d es) := by
  induction es with
  | nil => exact cstr_nil
  | cons e es ih =>
    have he := h e (List.mem_cons_self ..)
    have ih := ih fun x hx => h x (List.mem_cons_of_mem _ hx)
    cases es with
    | nil => exact cstr_arrItem he
    | cons e2 es => exact cstr_append (cstr_arrItem he) ih

theorem cstr_objItem {fmt last : Bool} {d : Nat} {e : Bytes × Option Bytes} (h1 : CStr e.1) (h2 : ∀ t, e.2 = some t → CStr t) :
    CStr (objItem fmt last d e) := by
  unfold objItem
  refine cstr_append (cstr_append (cstr_append (cstr_append (cstr_ite (cstr_tabs _)) h1) ?_) ?_)
    (cstr_ite (cstr_cons (by decide) cstr_nil))
  · cases he : e.2 with
    | none => exact cstr_nil
    | some t => exact cstr_cons (by decide) (cstr_append (cstr_ite (cstr_cons (by decide) cstr_nil)) (h2 t he))
  · cases last
    · exact cstr_cons (by decide) cstr_nil
    · exact cstr_nil

theorem cstr_objBody {fmt : Bool} {d : Nat} {es : List (Bytes × Option Bytes)}
    (h : ∀ e ∈ es, CStr e.1 ∧ ∀ t, e.2 = some t → CStr t) : CStr (objBody fmt d es) := by
  induction es with
  | nil => exact cstr_nil
  | cons e es ih =>
    have he := h e (List.mem_cons_self ..)
    have ih := ih fun x hx => h x (List.mem_cons_of_mem _ hx)
    cases es with
    | nil => exact cstr_objItem he.1 he.2
    | cons e2 es => exact cstr_append (cstr_objItem he.1 he.2) ih

mutual
theorem cstr_value (fmt : Bool) (depth : Nat) (last : Bool) : ∀ (n : Node) (t : Bytes), Ok last n →
    toValue fmt depth n = some t → CStr t
  | .mk ty key value child, t => by
    intro h ht
    cases ty with
    | null => simp [toValue] at ht
    | bool =>
      obtain ⟨rfl, ⟨v, rfl, hv⟩, rfl⟩ := h
      simp [toValue] at ht
      subst ht
      rcases hv with rfl | rfl
      · unfold CStr; decide
      · unfold CStr; decide
    | int =>
      obtain ⟨⟨v, rfl, hv⟩, rfl⟩ := h
      simp [toValue] at ht
      subst ht
      exact cstr_num hv
    | double =>
      obtain ⟨⟨v, rfl, hv⟩, rfl⟩ := h
      simp [toValue] at ht
      subst ht
      exact cstr_num hv
    | string =>
      obtain ⟨⟨v, rfl, hv⟩, rfl⟩ := h
      simp [toValue] at ht
      subst ht
      exact cstr_esc hv
    | array =>
      obtain ⟨rfl, hc⟩ := h
      by_cases hne : child = []
      · subst hne
        simp [toValue] at ht
        subst ht
        unfold CStr; decide
      · simp only [toValue, List.isEmpty_iff, hne, if_false, Option.map_eq_some_iff] at ht
        obtain ⟨es, he, rfl⟩ := ht
        have := cstr_elems fmt (depth + 1) 0 child es hc he
        exact cstr_cons (by decide) (cstr_append (cstr_append (cstr_append (cstr_ite (cstr_cons (by decide) cstr_nil))
          (cstr_arrBody this)) (cstr_ite (cstr_tabs _))) (cstr_cons (by decide) cstr_nil))
    | object =>
      obtain ⟨rfl, hc⟩ := h
      by_cases hne : child = []
      · subst hne
        simp [toValue] at ht
        subst ht
        unfold CStr; decide
      · simp only [toValue, List.isEmpty_iff, hne, if_false, Option.some.injEq] at ht
        subst ht
        have := cstr_members fmt (depth + 1) child hc
        exact cstr_cons (by decide) (cstr_append (cstr_append (cstr_append (cstr_ite (cstr_cons (by decide) cstr_nil))
          (cstr_objBody this)) (cstr_ite (cstr_tabs _))) (cstr_cons (by decide) cstr_nil))
theorem cstr_elems (fmt : Bool) (depth : Nat) : ∀ (i : Nat) (cs : List Node) (es : List Bytes), OkElems i cs →
    allSome (toValues fmt depth cs) = some es → ∀ e ∈ es, CStr e
  | _, [], es => by
    intro _ h
    simp [toValues, allSome] at h
    subst h
    nofun
  | i, .mk ty key value child :: cs, es => by
    rintro ⟨h1, h2, h3, h4⟩ he
    rw [toValues] at he
    cases hv : toValue fmt depth (.mk ty key value child) with
    | none => rw [hv] at he; cases he
    | some t =>
      rw [hv] at he
      simp only [allSome, Option.map_eq_some_iff] at he
      obtain ⟨es', he', rfl⟩ := he
      intro e hm
      rcases List.mem_cons.1 hm with rfl | hm
      · exact cstr_value fmt depth cs.isEmpty (.mk ty key value child) e h3 hv
      · exact cstr_elems fmt depth (i + 1) cs es' h4 he' e hm
theorem cstr_members (fmt : Bool) (depth : Nat) : ∀ (cs : List Node), OkMembers cs →
    ∀ e ∈ toMembers fmt depth cs, CStr e.1 ∧ ∀ t, e.2 = some t → CStr t
  | [] => by
    intro _ e he
    rw [toMembers] at he
    cases he
  | .mk ty key value child :: cs => by
    rintro ⟨⟨k, rfl, hk⟩, h3, h4⟩ e he
    rw [toMembers] at he
    rcases List.mem_cons.1 he with rfl | he
    · exact ⟨cstr_esc fun c hc => ⟨(hk.2 c hc).1, (hk.2 c hc).2.1⟩,
        fun t ht => cstr_value fmt depth cs.isEmpty (.mk ty (some k) value child) t h3 ht⟩
    · exact cstr_members fmt depth cs h4 e he
end

theorem cstrOf_append {a : Bytes} (h : CStr a) (b : Bytes) : cstrOf (a ++ b) = a ++ cstrOf b := by
  induction a with
  | nil => rfl
  | cons c a ih =>
    have hc := h c (List.mem_cons_self ..)
    have := ih fun x hx => h x (List.mem_cons_of_mem _ hx)
    rw [List.cons_append, cstrOf, List.takeWhile_cons, if_pos (by simpa using hc)]
    exact congrArg (c :: ·) this

/-- The same document without a name: the root of a document read from a text has none. -/
def root (n : Node) : Node := .mk n.ty none n.value n.child

theorem load_text {fmt : Bool} {n : Node} (h : Ok true n) (hr : n.ty = .array ∨ n.ty = .object) (tail : Bytes) :
    ∃ t, toValue fmt 0 n = some t ∧ load (t ++ tail) = some (some (root n)) := by
  obtain ⟨t, ht, ⟨c, x, hx, hc, -⟩, hread⟩ := reads_value fmt 0 true n h (by rcases hr with e | e <;> rw [e] <;> nofun)
  have hcs := cstr_value fmt 0 true n t h ht
  refine ⟨t, ht, ?_⟩
  have hne : (t ++ tail).length ≠ 0 := by rw [hx]; simp
  rw [load, if_neg hne, parse, cstrOf_append hcs]
  have hsk : skip (t ++ cstrOf tail) = t ++ cstrOf tail := by rw [hx, List.cons_append, skip_cons hc]
  rw [hsk, hread newNode (cstrOf tail) false _ rfl rfl (fun _ => hr) (by
    simp only [fuelFor, List.length_append]; omega) (fun h1 h2 => (hr.elim h1 h2).elim)]
  rfl

/-- C68, for documents (objects or arrays) without backslashes and control characters in their texts, without quotes in
their names, and without a truth value or an empty member in the last place of an object or array: what is written is
read back, member for member, in both layouts and from the file. -/
theorem C68_roundtrip_partial (n : Node) (h : Ok true n) (hr : n.ty = .array ∨ n.ty = .object) :
    (∃ t, output n = some t ∧ load t = some (some (root n))) ∧
    (∃ t, outputZip n = some t ∧ load t = some (some (root n))) ∧
    (∃ t, saveFile n = some t ∧ load t = some (some (root n))) := by
  refine ⟨?_, ?_, ?_⟩
  · obtain ⟨t, h1, h2⟩ := load_text (fmt := true) h hr []
    exact ⟨t, h1, by rw [← h2, List.append_nil]⟩
  · obtain ⟨t, h1, h2⟩ := load_text (fmt := false) h hr []
    exact ⟨t, h1, by rw [← h2, List.append_nil]⟩
  · obtain ⟨t, h1, h2⟩ := load_text (fmt := true) h hr [13]
    exact ⟨t ++ [13], by rw [saveFile, output, h1]; rfl, h2⟩

/-- A document with every kind of value. -/
def sample : Node :=
  .mk .object none none
    [.mk .bool (some (str "on")) (some (str "true")) [],
     .mk .null (some (str "none")) none [],
     .mk .array (some (str "rows")) none
       [.mk .array (some (str "0")) none [.mk .int (some (str "0")) (some (str "-7")) [], .mk .double (some (str "1")) (some (str "2.50")) []],
        .mk .array (some (str "1")) none []],
     .mk .object (some (str "user name")) none [.mk .string (some (str "say")) (some (str "a \"b\", c")) []]]

theorem sample_ok : Ok true sample := by
  simp only [sample, Ok, OkMembers, OkElems]
  refine ⟨trivial, ⟨⟨_, rfl, ?_⟩, ⟨rfl, ⟨_, rfl, .inl (by decide +kernel)⟩, trivial⟩, ⟨⟨_, rfl, ?_⟩, ⟨rfl, trivial, trivial⟩, ⟨⟨_, rfl, ?_⟩, ⟨trivial,
    ⟨by decide +kernel, nofun, ⟨trivial, ⟨by decide +kernel, nofun, ⟨⟨_, rfl, ?_⟩, trivial⟩, ⟨by decide +kernel, nofun, ⟨⟨_, rfl, ?_⟩, trivial⟩, trivial⟩⟩⟩,
      ⟨by decide +kernel, nofun, ⟨trivial, trivial⟩, trivial⟩⟩⟩, ⟨⟨_, rfl, ?_⟩, ⟨trivial, ⟨⟨_, rfl, ?_⟩, ⟨⟨_, rfl, ?_⟩, trivial⟩, trivial⟩⟩, trivial⟩⟩⟩⟩⟩
  · exact ⟨by decide +kernel, by decide +kernel⟩
  · exact ⟨by decide +kernel, by decide +kernel⟩
  · exact ⟨by decide +kernel, by decide +kernel⟩
  · exact okNum_iff.2 ⟨⟨45, [55], by decide +kernel, .inl rfl⟩, by decide +kernel, by decide +kernel⟩
  · exact okNum_iff.2 ⟨⟨50, [46, 53, 48], by decide +kernel, .inr (by decide)⟩, by decide +kernel, by decide +kernel⟩
  · exact ⟨by decide +kernel, by decide +kernel⟩
  · exact ⟨by decide +kernel, by decide +kernel⟩
  · unfold okStr; decide +kernel


example : (output sample).isSome ∧ (output sample).bind load == some (some sample) := by decide +kernel

/-- C68 does not hold in general: a truth value in the last place makes the written text unreadable, a line feed comes
back as a backslash and an `n`, and a text that ends with a backslash is lost. -/
theorem C68_violated :
    ((outputZip (.mk .object none none [.mk .bool (some (str "a")) (some (str "true")) []])).bind load == some none) = true ∧
    ((outputZip (.mk .object none none [.mk .string (some (str "a")) (some (str "x\ny")) []])).bind load
      == some (some (.mk .object none none [.mk .string (some (str "a")) (some (str "x\\ny")) []]))) = true ∧
    ((outputZip (.mk .object none none [.mk .string (some (str "a")) (some (str "x\\")) []])).bind load
      == some (some (.mk .object none none [.mk .null (some (str "a")) none []]))) = true := by
  decide +kernel

/-! ### C69 -/

theorem esc_length (c : UInt8) : (escCh c).length =
    if c = 34 ∨ c = 92 ∨ c = 8 ∨ c = 12 ∨ c = 10 ∨ c = 13 ∨ c = 9 then 2 else if c < 0x20 then 6 else 1 := by
  have : ∀ n : Fin 256, (fun c : UInt8 => (escCh c).length =
      if c = 34 ∨ c = 92 ∨ c = 8 ∨ c = 12 ∨ c = 10 ∨ c = 13 ∨ c = 9 then 2 else if c < 0x20 then 6 else 1)
      (UInt8.ofNat n.val) := by decide +kernel
  have h := this ⟨c.toNat, c.toNat_lt⟩
  simp only [UInt8.ofNat_toNat] at h
  exact h

theorem tabs_length (n : Nat) : (tabs n).length = n := List.length_replicate

theorem arrItem_length (fmt nest last : Bool) (d : Nat) (e : Bytes) :
    (arrItem fmt nest last d e).length ≤ e.length + 2 + (if fmt then 2 + d else 0) := by
  cases fmt <;> cases nest <;> cases last <;> simp [arrItem, tabs_length] <;> omega

theorem arrBody_length (fmt nest : Bool) (d : Nat) (es : List Bytes) :
    (arrBody fmt nest d es).length ≤ (es.map fun e => e.length + 2 + (if fmt then 2 + d else 0)).sum := by
  induction es with
  | nil => exact Nat.zero_le _
  | cons e es ih =>
    rw [List.map_cons, List.sum_cons]
    cases es with
    | nil => exact Nat.le_trans (arrItem_length fmt nest true d e) (Nat.le_add_right _ _)
    | cons e2 es =>
      rw [arrBody, List.length_append]
      exact Nat.add_le_add (arrItem_length fmt nest false d e) ih
      nofun

theorem objItem_length (fmt last : Bool) (d : Nat) (e : Bytes × Option Bytes) :
    (objItem fmt last d e).length ≤
      e.1.length + 1 + (match e.2 with | none => 0 | some t => t.length + 1) + (if fmt then 2 + d else 0) := by
  obtain ⟨k, v⟩ := e
  cases v <;> cases fmt <;> cases last <;> simp [objItem, tabs_length] <;> omega

theorem objBody_length (fmt : Bool) (d : Nat) (es : List (Bytes × Option Bytes)) :
    (objBody fmt d es).length ≤ (es.map fun e =>
      e.1.length + 1 + (match e.2 with | none => 0 | some t => t.length + 1) + (if fmt then 2 + d else 0)).sum := by
  induction es with
  | nil => exact Nat.zero_le _
  | cons e es ih =>
    rw [List.map_cons, List.sum_cons]
    cases es with
    | nil => exact Nat.le_trans (objItem_length fmt true d e) (Nat.le_add_right _ _)
    | cons e2 es =>
      rw [objBody, List.length_append]
      exact Nat.add_le_add (objItem_length fmt false d e) ih
      nofun

/-- C69: every text the writer composes, with its terminating zero, fits into the memory it allocated for it: strings
and names, arrays and objects, in both layouts and at every depth.  (The length of a string is counted in an `int`:
strings that need more than 2^31 bytes are outside this statement.) -/
theorem C69_writer_stays_in_buffer_partial :
    (∀ v : Bytes, (toStr (some v)).length + 1 ≤ strAlloc v) ∧
    (∀ (fmt nest : Bool) (depth : Nat) (es : List Bytes), (arrText fmt nest depth es).length + 1 ≤ arrAlloc fmt depth es) ∧
    (∀ (fmt : Bool) (depth : Nat) (es : List (Bytes × Option Bytes)),
      (objText fmt depth es).length + 1 ≤ objAlloc fmt depth es) := by
  refine ⟨fun v => ?_, fun fmt nest depth es => ?_, fun fmt depth es => ?_⟩
  · have : (v.flatMap escCh).length = (v.map fun c =>
        if c = 34 ∨ c = 92 ∨ c = 8 ∨ c = 12 ∨ c = 10 ∨ c = 13 ∨ c = 9 then 2 else if c < 0x20 then 6 else 1).sum := by
      rw [List.length_flatMap]
      exact congrArg List.sum (List.map_congr_left fun c _ => esc_length c)
    rw [toStr, List.length_cons, List.length_append, this, strAlloc]
    simp
  · have h := arrBody_length fmt nest depth es
    unfold arrText arrAlloc
    cases fmt <;> cases nest <;> simp [tabs_length] at h ⊢ <;> omega
  · have h := objBody_length fmt depth es
    unfold objText objAlloc
    generalize (es.map fun e => e.1.length + 1 + (match e.2 with | none => 0 | some t => t.length + 1)
      + (if fmt then 2 + depth else 0)).sum = S at h ⊢
    cases fmt <;> simp [tabs_length] at h ⊢ <;> omega

example : (toStr (some (str "a\"\n"))).length = 7 ∧ strAlloc (str "a\"\n") = 8 := by decide +kernel

/-! ### C70 -/

/-- C70, the first half: the reader comes to an end on every sequence of bytes. -/
theorem C70_every_text_is_read_partial (s : Bytes) : ∃ r, load s = some r := by
  cases h : load s with
  | none => exact absurd h (load_total s)
  | some r => exact ⟨r, rfl⟩

/-- C70, the second half, fails: texts that are no JSON documents are accepted. -/
theorem C70_violated :
    (load (str "abc") == some (some newNode)) = true ∧
    (load (str "{\"a\":{\"b\":[1,2,") == some none) = false ∧
    (load (str "[1 2 3]") == some none) = false := by decide +kernel

/-! ### C71 -/

/-- The member of that name: names are compared without regard to case. -/
def named (key : Bytes) (c : Node) : Bool := match c.key with | none => false | some k => caseEq k key

/-- The first member of that name. -/
def member (cs : List Node) (key : Bytes) : Option Node := cs.find? (named key)

theorem named_congr {a b : Bytes} (h : caseEq a b = true) (c : Node) : named a c = named b c := by
  cases hk : c.key with
  | none => simp [named, hk]
  | some k =>
    simp only [named, hk]
    rw [Bool.eq_iff_iff]
    exact ⟨fun g => caseEq_trans g h, fun g => caseEq_trans g (caseEq_symm h)⟩

theorem modify_mid (a : List Node) (r : Node) (b : List Node) (f : Node → Node) :
    (a ++ r :: b).modify a.length f = a ++ f r :: b := by
  induction a with
  | nil => rfl
  | cons x a ih => rw [List.cons_append, List.length_cons, List.modify_succ_cons, ih]; rfl

theorem cmp_none {cs : List Node} {key : Bytes} (h : cmpChild cs key = none) : ∀ c ∈ cs, named key c = false := by
  intro c hc
  exact List.findIdx?_eq_none_iff.1 h c hc

theorem cmp_some {cs : List Node} {key : Bytes} {i : Nat} (h : cmpChild cs key = some i) :
    ∃ a r b, cs = a ++ r :: b ∧ a.length = i ∧ named key r = true ∧ ∀ x ∈ a, named key x = false := by
  induction cs generalizing i with
  | nil => cases h
  | cons c cs ih =>
    have hdef : cmpChild (c :: cs) key = if named key c then some 0 else (cmpChild cs key).map (· + 1) := by
      simp only [cmpChild, List.findIdx?_cons]; rfl
    rw [hdef] at h
    cases hn : named key c with
    | true =>
      rw [hn, if_pos rfl] at h
      cases h
      exact ⟨[], c, cs, rfl, rfl, hn, nofun⟩
    | false =>
      rw [hn, if_neg (by nofun), Option.map_eq_some_iff] at h
      obtain ⟨j, hj, rfl⟩ := h
      obtain ⟨a, r, b, rfl, rfl, hr, ha⟩ := ih hj
      refine ⟨c :: a, r, b, rfl, rfl, hr, fun x hx => ?_⟩
      rcases List.mem_cons.1 hx with rfl | hx
      · exact hn
      · exact ha x hx

theorem member_cmp (cs : List Node) (key : Bytes) : (cmpChild cs key).bind (cs[·]?) = member cs key := by
  cases h : cmpChild cs key with
  | none =>
    rw [Option.bind_none, member, eq_comm, List.find?_eq_none]
    exact fun c hc => by rw [cmp_none h c hc]; nofun
  | some i =>
    obtain ⟨a, r, b, rfl, rfl, hr, ha⟩ := cmp_some h
    have h1 : a.find? (named key) = none := List.find?_eq_none.2 fun c hc => by rw [ha c hc]; nofun
    rw [member, List.find?_append, h1, List.find?_cons, hr]
    simp

theorem find_plain {n : Node} {key : Bytes} (h : ∀ c ∈ key, c ≠ 46) :
    findNode (key.length + 1) n key = member n.child key := by
  have h1 : key.dropWhile (· != 46) = [] := by
    induction key with
    | nil => rfl
    | cons c k ih =>
      have hc := h c (List.mem_cons_self ..)
      rw [List.dropWhile_cons, if_pos (by simpa using hc)]
      exact ih fun x hx => h x (List.mem_cons_of_mem _ hx)
  rw [findNode]
  simp only [h1]
  exact member_cmp _ _

theorem member_set (n : Node) (key key2 : Bytes) (ty : Ty) (v : Option Bytes) :
    (member (setMember n key ty v).child key2).bind Node.value =
      if caseEq key key2 then v else (member n.child key2).bind Node.value := by
  unfold setMember
  cases h : cmpChild n.child key with
  | none =>
    show (member (n.child ++ [.mk ty (some key) v []]) key2).bind Node.value = _
    rw [member, List.find?_append]
    cases hk : caseEq key key2 with
    | true =>
      have : n.child.find? (named key2) = none := List.find?_eq_none.2 fun c hc => by
        rw [← named_congr hk, cmp_none h c hc]; nofun
      rw [this]
      simp [named, Node.key, hk, Node.value]
    | false => simp [named, Node.key, hk, member]
  | some i =>
    obtain ⟨a, r, b, hcs, rfl, hr, ha⟩ := cmp_some h
    show (member (n.child.modify a.length _) key2).bind Node.value = _
    rw [hcs]
    have hm : (a ++ r :: b).modify a.length (fun c => Node.mk c.ty c.key v c.child) =
        a ++ .mk r.ty r.key v r.child :: b := by
      exact modify_mid a r b _
    rw [hm, member, member, List.find?_append, List.find?_append]
    have hnr : named key2 (.mk r.ty r.key v r.child) = named key2 r := rfl
    cases hk : caseEq key key2 with
    | true =>
      have : a.find? (named key2) = none := List.find?_eq_none.2 fun c hc => by
        rw [← named_congr hk, ha c hc]; nofun
      rw [this, List.find?_cons, hnr, ← named_congr hk, hr]
      rfl
    | false =>
      have : named key2 r = false := by
        cases hrk : r.key with
        | none => simp [named, hrk]
        | some k =>
          simp only [named, hrk] at hr ⊢
          cases g : caseEq k key2 with
          | false => rfl
          | true => rw [caseEq_trans (caseEq_symm hr) g] at hk; cases hk
      rw [List.find?_cons, List.find?_cons, hnr, this]
      rfl

theorem strdup_len (v : Bytes) : strdup v v.length = v := by
  unfold strdup; split
  · rfl
  · exact List.take_length

theorem cstrOf_cstr {v : Bytes} (h : CStr v) : cstrOf v = v := by
  have := cstrOf_append h []
  simpa [cstrOf] using this

/-- C71, for names without a point, numbers above the smallest one: a number that was set is read back under its name in
any case, and what is read under any other name stays the same. -/
theorem C71_set_int_partial (n : Node) (key key2 : Bytes) (v d : Int) (hv : -2 ^ 63 < v) (hv' : v ≤ 2 ^ 63 - 1)
    (hk : CStr key) (hk2 : CStr key2) (hdot : ∀ c ∈ key2, c ≠ 46) :
    ∃ n', setInt n key v = some n' ∧
      (key.map lower = key2.map lower → getInt n' key2 d = v) ∧
      (key.map lower ≠ key2.map lower → getInt n' key2 d = getInt n key2 d ∧ getStr n' key2 = getStr n key2) := by
  obtain ⟨s, hs, -, -, -, hat, -⟩ := lldtoa_spec v hv hv'
  refine ⟨setMember n key .int (some s), by rw [setInt, hs]; rfl, fun h => ?_, fun h => ?_⟩
  · rw [getInt, find_plain hdot, member_set, if_pos ((caseEq_iff hk hk2).2 h)]
    exact hat
  · have : ¬ caseEq key key2 = true := fun g => h ((caseEq_iff hk hk2).1 g)
    rw [getInt, getInt, getStr, getStr, find_plain hdot, find_plain hdot, member_set, if_neg this]
    exact ⟨rfl, rfl⟩

/-- C71 for texts (given with their length), under the same conditions. -/
theorem C71_set_string_partial (n : Node) (key key2 v : Bytes) (d : Int) (hv : CStr v)
    (hk : CStr key) (hk2 : CStr key2) (hdot : ∀ c ∈ key2, c ≠ 46) :
    (key.map lower = key2.map lower → getStr (setString n key v v.length) key2 = some v) ∧
    (key.map lower ≠ key2.map lower → getStr (setString n key v v.length) key2 = getStr n key2 ∧
      getInt (setString n key v v.length) key2 d = getInt n key2 d) := by
  refine ⟨fun h => ?_, fun h => ?_⟩
  · rw [getStr, find_plain hdot, setString, member_set, if_pos ((caseEq_iff hk hk2).2 h), strdup_len, cstrOf_cstr hv]
  · have : ¬ caseEq key key2 = true := fun g => h ((caseEq_iff hk hk2).1 g)
    rw [getInt, getInt, getStr, getStr, find_plain hdot, find_plain hdot, setString, member_set, if_neg this]
    exact ⟨rfl, rfl⟩

example : ((setInt sample (str "Port") (-50)).map fun n => getInt n (str "PORT") 7) = some (-50) := by decide +kernel

/-- C71 does not hold in general: a member whose name has a point in it is not found again, and a number set where an
object was is not in the written text. -/
theorem C71_violated :
    ((setInt (.mk .object none none []) (str "a.b") 5).map fun n => getInt n (str "a.b") 7) = some 7 ∧
    ((setInt sample (str "rows") 5).map fun n => (outputZip n == outputZip sample)) = some true := by decide +kernel

/-! ### C72 -/

/-- What a path of names leads to. -/
def lookup (cs : List Node) : List Bytes → Option Node
  | [] => none
  | [k] => member cs k
  | k :: p => (member cs k).bind fun c => lookup c.child p

/-- In every object of the document no name stands for two members. -/
inductive Distinct : List Node → Prop
  | mk {cs : List Node} : cs.Pairwise (fun a b => ∀ k, ¬ (named k a = true ∧ named k b = true)) →
      (∀ c ∈ cs, Distinct c.child) → Distinct cs

theorem merge_eq (s : Node) (src : List Node) : merge s src = mergeList s.child src := by
  cases s; rw [merge]; rfl

/-- What becomes of one member of the second document. -/
def put (s : Node) (src : List Node) : List Node :=
  match s.key.bind (cmpChild src) with
  | none => src ++ [s]
  | some i =>
    if s.ty = .object then src.modify i fun x => .mk x.ty x.key x.value (mergeList s.child x.child)
    else src.eraseIdx i ++ [s]

theorem mergeList_cons (s : Node) (cs src : List Node) : mergeList (s :: cs) src = mergeList cs (put s src) := by
  cases s
  rw [mergeList]
  unfold put
  simp only [merge]
  rfl

/-- One member of the result. -/
def over (s r : Option Node) : Option Node :=
  match s, r with
  | none, r => r
  | some s, none => some s
  | some s, some r => if s.ty = .object then some (.mk r.ty r.key r.value (mergeList s.child r.child)) else some s

/-- No name stands for two members. -/
def Flat (cs : List Node) : Prop := cs.Pairwise (fun a b => ∀ k, ¬ (named k a = true ∧ named k b = true))

theorem named_key {s r : Node} {k key : Bytes} (hs : s.key = some key) (hr : named key r = true) : named k r = named k s := by
  cases hrk : r.key with
  | none => simp [named, hrk] at hr
  | some rk =>
    simp only [named, hrk, hs] at hr ⊢
    rw [Bool.eq_iff_iff]
    exact ⟨fun g => caseEq_trans (caseEq_symm hr) g, fun g => caseEq_trans hr g⟩

theorem put_spec (s : Node) (src : List Node) (hf : Flat src) :
    Flat (put s src) ∧ ∀ k, member (put s src) k = over (if named k s then some s else none) (member src k) := by
  unfold put
  cases h : s.key.bind (cmpChild src) with
  | none =>
    have hno : ∀ k, named k s = true → ∀ c ∈ src, named k c = false := by
      intro k hk c hc
      cases hs : s.key with
      | none => simp [named, hs] at hk
      | some key =>
        rw [hs] at h
        have h1 := cmp_none h c hc
        simp only [named, hs] at hk
        rw [← named_congr hk]; exact h1
    refine ⟨List.pairwise_append.2 ⟨hf, List.pairwise_singleton _ _, fun a ha b hb k hab => ?_⟩, fun k => ?_⟩
    · rw [List.mem_singleton.1 hb] at hab
      rw [hno k hab.2 a ha] at hab
      exact absurd hab.1 (by nofun)
    · rw [member, List.find?_append]
      cases hk : named k s with
      | true =>
        have : src.find? (named k) = none := List.find?_eq_none.2 fun c hc => by rw [hno k hk c hc]; nofun
        simp [this, member, hk, over]
      | false => simp [hk, member, over]
  | some i =>
    cases hs : s.key with
    | none => rw [hs] at h; cases h
    | some key =>
      rw [hs] at h
      obtain ⟨a, r, b, rfl, rfl, hr, ha⟩ := cmp_some h
      have hsame : ∀ k, named k r = named k s := fun k => named_key hs hr
      obtain ⟨pa, prb, pab⟩ := List.pairwise_append.1 hf
      obtain ⟨pr, pb⟩ := List.pairwise_cons.1 prb
      have hna : ∀ k, named k s = true → a.find? (named k) = none := fun k hk =>
        List.find?_eq_none.2 fun c hc g => pab c hc r (List.mem_cons_self ..) k ⟨g, (hsame k).trans hk⟩
      have hnb : ∀ k, named k s = true → b.find? (named k) = none := fun k hk =>
        List.find?_eq_none.2 fun c hc g => pr c hc k ⟨(hsame k).trans hk, g⟩
      by_cases ho : s.ty = .object
      · simp only [ho, if_true]
        have hm : (a ++ r :: b).modify a.length (fun x => Node.mk x.ty x.key x.value (mergeList s.child x.child)) =
            a ++ .mk r.ty r.key r.value (mergeList s.child r.child) :: b := by
          exact modify_mid a r b _
        rw [hm]
        refine ⟨List.pairwise_append.2 ⟨pa, List.pairwise_cons.2 ⟨pr, pb⟩, fun x hx y hy k hxy => ?_⟩, fun k => ?_⟩
        · rcases List.mem_cons.1 hy with rfl | hy
          · exact pab x hx r (List.mem_cons_self ..) k hxy
          · exact pab x hx y (List.mem_cons_of_mem _ hy) k hxy
        · rw [member, member, List.find?_append, List.find?_append, List.find?_cons, List.find?_cons]
          have e1 : named k (.mk r.ty r.key r.value (mergeList s.child r.child)) = named k s := hsame k
          rw [e1, hsame k]
          cases hk : named k s with
          | true => rw [hna k hk]; simp [over, ho]
          | false => simp [over]
      · simp only [ho, if_false]
        have hm : (a ++ r :: b).eraseIdx a.length = a ++ b := by
          rw [List.eraseIdx_append_of_length_le (Nat.le_refl _)]; simp
        rw [hm]
        refine ⟨List.pairwise_append.2 ⟨List.pairwise_append.2 ⟨pa, pb, fun x hx y hy => pab x hx y (List.mem_cons_of_mem _ hy)⟩,
          List.pairwise_singleton _ _, fun x hx y hy k hxy => ?_⟩, fun k => ?_⟩
        · rw [List.mem_singleton.1 hy, ← hsame k] at hxy
          rcases List.mem_append.1 hx with hx | hx
          · exact pab x hx r (List.mem_cons_self ..) k hxy
          · exact pr x hx k ⟨hxy.2, hxy.1⟩
        · rw [member, member, List.find?_append, List.find?_append, List.find?_append, List.find?_cons, List.find?_cons, hsame k]
          cases hk : named k s with
          | true => rw [hna k hk, hnb k hk]; simp [over, ho]
          | false => simp [over]

theorem member_merge (son src : List Node) (hson : Flat son) (hsrc : Flat src) :
    Flat (mergeList son src) ∧ ∀ k, member (mergeList son src) k = over (member son k) (member src k) := by
  induction son generalizing src with
  | nil => rw [mergeList]; exact ⟨hsrc, fun k => rfl⟩
  | cons s cs ih =>
    obtain ⟨p1, p2⟩ := List.pairwise_cons.1 hson
    obtain ⟨f1, f2⟩ := put_spec s src hsrc
    obtain ⟨g1, g2⟩ := ih (put s src) p2 f1
    rw [mergeList_cons]
    refine ⟨g1, fun k => ?_⟩
    rw [g2 k, f2 k]
    have hd : member (s :: cs) k = if named k s then some s else member cs k := by
      rw [member, List.find?_cons]; cases named k s <;> rfl
    rw [hd]
    cases hk : named k s with
    | true =>
      have : member cs k = none := List.find?_eq_none.2 fun c hc g => p1 c hc k ⟨hk, g⟩
      rw [this]; simp [over]
    | false => simp [over]

theorem Distinct.flat {cs : List Node} : Distinct cs → Flat cs | .mk h _ => h
theorem Distinct.sub {cs : List Node} : Distinct cs → ∀ c ∈ cs, Distinct c.child | .mk _ h => h
theorem Distinct.member {cs : List Node} (h : Distinct cs) {k : Bytes} {c : Node} (hc : member cs k = some c) :
    Distinct c.child := h.sub c (List.mem_of_find?_eq_some hc)

theorem second_wins (son src : List Node) (hson : Distinct son) (hsrc : Distinct src) (path : List Bytes)
    (c : Node) (hc : lookup son path = some c) (hty : c.ty ≠ .object) :
    lookup (mergeList son src) path = some c := by
  induction path generalizing son src with
  | nil => cases hc
  | cons k p ih =>
    have hm := (member_merge son src hson.flat hsrc.flat).2 k
    cases p with
    | nil =>
      rw [lookup] at hc ⊢
      rw [hm, hc]
      cases member src k with
      | none => rfl
      | some r => simp [over, hty]
    | cons k2 p =>
      rw [lookup, Option.bind_eq_some_iff] at hc
      · obtain ⟨s, hs, hc⟩ := hc
        rw [lookup]
        · rw [hm, hs]
          cases hr : member src k with
          | none => exact hc
          | some r =>
            by_cases ho : s.ty = .object
            · simp only [over, ho, if_true, Option.bind_some]
              exact ih s.child r.child (hson.member hs) (hsrc.member hr) hc
            · simpa [over, ho] using hc
        · nofun
      · nofun

theorem first_kept (son src : List Node) (hson : Distinct son) (hsrc : Distinct src) (path : List Bytes)
    (hno : lookup son path = none)
    (hobj : ∀ (p q : List Bytes) (c : Node), path = p ++ q → q ≠ [] → lookup son p = some c → c.ty = .object)
    (hin : lookup src path ≠ none) :
    lookup (mergeList son src) path = lookup src path := by
  induction path generalizing son src with
  | nil => rfl
  | cons k p ih =>
    have hm := (member_merge son src hson.flat hsrc.flat).2 k
    cases p with
    | nil =>
      rw [lookup] at hno ⊢
      rw [hm, hno]; rfl
    | cons k2 p =>
      have e : ∀ cs : List Node, lookup cs (k :: k2 :: p) = (member cs k).bind fun c => lookup c.child (k2 :: p) := fun cs => by
        rw [lookup]; nofun
      rw [e] at hno hin
      rw [e, e, hm]
      cases hr : member src k with
      | none => rw [hr] at hin; exact absurd rfl hin
      | some r =>
        cases hs : member son k with
        | none => rfl
        | some s =>
          have ho := hobj [k] (k2 :: p) s rfl (by nofun) hs
          rw [hs] at hno
          rw [hr] at hin
          simp only [over, ho, if_true, Option.bind_some]
          refine ih s.child r.child (hson.member hs) (hsrc.member hr) hno (fun p' q c hp hq hc => ?_) hin
          refine hobj (k :: p') q c (by rw [hp]; rfl) hq ?_
          cases p' with
          | nil => cases hc
          | cons x y =>
            rw [lookup]
            · rw [hs]; exact hc
            · nofun

/-- C72: merging a second configuration into a first one: everything of the second one that is not an object is in the
result under its path, whatever the first one has there. -/
theorem C72_second_wins_partial (son src : Node) (hson : Distinct son.child) (hsrc : Distinct src.child) (path : List Bytes)
    (c : Node) (hc : lookup son.child path = some c) (hty : c.ty ≠ .object) :
    lookup (merge son src.child) path = some c := by
  rw [merge_eq]; exact second_wins _ _ hson hsrc path c hc hty

/-- C72: what the second configuration does not mention stays as it was: at the path itself it has nothing, and on the
way there it has either nothing or objects. -/
theorem C72_first_kept_partial (son src : Node) (hson : Distinct son.child) (hsrc : Distinct src.child) (path : List Bytes)
    (hno : lookup son.child path = none)
    (hobj : ∀ (p q : List Bytes) (c : Node), path = p ++ q → q ≠ [] → lookup son.child p = some c → c.ty = .object)
    (hin : lookup src.child path ≠ none) :
    lookup (merge son src.child) path = lookup src.child path := by
  rw [merge_eq]; exact first_kept _ _ hson hsrc path hno hobj hin

/-- Two small configurations. -/
def cfgA : List Node :=
  [.mk .int (some (str "port")) (some (str "7329")) [],
   .mk .object (some (str "log")) none [.mk .int (some (str "level")) (some (str "5")) [], .mk .string (some (str "path")) (some (str "a/")) []]]
def cfgB : List Node :=
  [.mk .object (some (str "LOG")) none [.mk .int (some (str "level")) (some (str "9")) []]]

theorem distinct_cfg : Distinct cfgA ∧ Distinct cfgB := by
  have key : ∀ {a b : Bytes}, caseEq a b = false → ∀ (t u : Ty) (x y : Option Bytes) (c d : List Node) (k : Bytes),
      ¬ (named k (.mk t (some a) x c) = true ∧ named k (.mk u (some b) y d) = true) := by
    intro a b h t u x y c d k hk
    have := caseEq_trans hk.1 (caseEq_symm hk.2)
    rw [h] at this; cases this
  have nil : Distinct [] := .mk List.Pairwise.nil nofun
  constructor
  · refine .mk (List.pairwise_cons.2 ⟨fun b hb => ?_, List.pairwise_singleton _ _⟩) fun c hc => ?_
    · rw [List.mem_singleton.1 hb]; exact fun k => key (by decide +kernel) _ _ _ _ _ _ k
    · simp only [cfgA, List.mem_cons, List.not_mem_nil, or_false] at hc
      rcases hc with rfl | rfl
      · exact nil
      · refine .mk (List.pairwise_cons.2 ⟨fun b hb => ?_, List.pairwise_singleton _ _⟩) fun c hc => ?_
        · rw [List.mem_singleton.1 hb]; exact fun k => key (by decide +kernel) _ _ _ _ _ _ k
        · simp only [Node.child, List.mem_cons, List.not_mem_nil, or_false] at hc
          rcases hc with rfl | rfl <;> exact nil
  · refine .mk (List.pairwise_singleton _ _) fun c hc => ?_
    rw [List.mem_singleton.1 hc]
    refine .mk (List.pairwise_singleton _ _) fun c hc => ?_
    rw [List.mem_singleton.1 hc]
    exact nil

example : (lookup (mergeList cfgB cfgA) [str "log", str "level"]).bind Node.value = some (str "9") ∧
    (lookup (mergeList cfgB cfgA) [str "log", str "path"]).bind Node.value = some (str "a/") ∧
    (lookup cfgB [str "log", str "path"]).isNone := by decide +kernel

/-- C72 does not hold in general: an object of the second configuration that meets a number of the first one is put
below that number, and is not in the written configuration. -/
theorem C72_violated :
    let src : Node := .mk .object none none [.mk .int (some (str "log")) (some (str "1")) []]
    let son : Node := .mk .object none none cfgB
    (outputZip (.mk .object none none (merge son src.child)) == outputZip src) = true := by decide +kernel

end Sis.Json
