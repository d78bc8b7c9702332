import Verif.Net.Msg
/-
Properties of the messages between clients and server: C31 (what is sent is received), C32 (relayed messages keep their
payload), C73 (decoding stays inside the received bytes).
-/
namespace Sis.Msg
open Sis Num Json

/-! ### Specification -/

/-- What a message says: its name and those fields that are switched on.  An absent text and an empty one are the
same. -/
structure Content where
  name : Bytes
  sno : Option Int
  service : Option Bytes
  cmd : Option Bytes
  subject : Option Bytes
  tag : Option Int
  info : Option Bytes
deriving DecidableEq

/-- What a message says. -/
def content (m : Msg) : Content :=
  { name := m.name.getD [],
    sno := if m.sw.sno then some m.sno else none,
    service := if m.sw.service then some (m.service.getD []) else none,
    cmd := if m.sw.cmd then some (m.cmd.getD []) else none,
    subject := if m.sw.subject then some (m.subject.getD []) else none,
    tag := if m.sw.tag then some m.tag else none,
    info := if m.sw.info then some (m.info.getD []) else none }

/-- A name that can be told from what follows it: at most 127 bytes, no colon, no brackets or braces, no zero. -/
def goodName (n : Bytes) : Prop :=
  n.length ≤ 127 ∧ ∀ c ∈ n, c ≠ 58 ∧ c ≠ 123 ∧ c ≠ 125 ∧ c ≠ 91 ∧ c ≠ 93 ∧ c ≠ 0

/-- The tags that announce a list: 5 (texts) and 7 (binary). -/
def listTag (t : Int) : Prop := t = 5 ∨ t = 7

/-- The text has fewer than 2^64 bytes, as every text in memory. -/
def short (s : Option Bytes) : Prop := (s.getD []).length < 2 ^ 64

/-! ### Helpers -/

theorem ofByte_toByte (s : Sw) : Sw.ofByte s.toByte = s := by
  rcases s with ⟨a, b, c, d, e, f, g, h⟩
  cases a <;> cases b <;> cases c <;> cases d <;> cases e <;> cases f <;> cases g <;> cases h <;> rfl

theorem toInt32_id {v : Int} (h1 : -2147483648 ≤ v) (h2 : v < 2147483648) : toInt32 v = v := by
  unfold toInt32; omega

theorem toInt8_id {v : Int} (h1 : -128 ≤ v) (h2 : v < 128) : toInt8 v = v := by
  unfold toInt8; omega

theorem strPos_name (n r : Bytes) (h : goodName n) : strPos ((n ++ 58 :: r).take 128) = some n.length := by
  obtain ⟨h1, h2⟩ := h
  have e : (n ++ 58 :: r).take 128 = n ++ 58 :: r.take (127 - n.length) := by
    rw [List.take_append, List.take_of_length_le (by omega), show 128 - n.length = (127 - n.length) + 1 by omega,
      List.take_succ_cons]
  rw [e]
  clear e h1
  generalize r.take (127 - n.length) = r
  induction n with
  | nil => rfl
  | cons c n ih =>
    have hc := h2 c (List.mem_cons_self ..)
    have := ih fun x hx => h2 x (List.mem_cons_of_mem _ hx)
    rw [List.cons_append, strPos, if_neg (by simp [hc]), if_neg hc.1, this]
    rfl

theorem getNum_putInt (on : Bool) (v : Int) (r : Bytes) (h : on = true → -2147483648 ≤ v ∧ v < 2147483648) :
    getNum on (putInt on v ++ r) = some (if on then v else 0, r) := by
  cases on with
  | false => rfl
  | true =>
    have hv := h rfl
    have hid := toInt32_id hv.1 hv.2
    simp only [getNum, putInt, if_true, hid]
    by_cases h0 : v = 0
    · subst h0
      rw [if_neg (by simp), C01_ssize_roundtrip 0 (by decide)]
      rfl
    · obtain ⟨s, hs, hne, hlen, hcs, hat, -⟩ := lldtoa_spec v (by omega) (by omega)
      have hl : 0 < s.length := List.length_pos_iff.2 hne
      rw [if_pos h0]
      simp only [hs, Option.getD_some]
      rw [List.append_assoc, C01_ssize_roundtrip _ (by omega)]
      simp only [Option.bind_some]
      rw [if_pos hl, Nat.min_eq_right hlen, takeBytes_append]
      simp [cstrOf_cstr hcs, hat]

/-- The text as it arrives: empty ones are absent. -/
def norm (on : Bool) (s : Option Bytes) : Option Bytes :=
  if on then s.bind fun v => if v = [] then none else some v else none

theorem norm_getD (on : Bool) (s : Option Bytes) :
    (if on then some ((norm on s).getD []) else none) = (if on then some (s.getD []) else none) := by
  cases on with
  | false => rfl
  | true =>
    cases s with
    | none => rfl
    | some v => by_cases h : v = [] <;> simp [norm, h]

theorem getSds_putStr (on : Bool) (s : Option Bytes) (r : Bytes) (h : short s) :
    getSds on (putStr on s ++ r) = some (norm on s, r) := by
  cases on with
  | false => rfl
  | true =>
    cases s with
    | none =>
      simp only [getSds, putStr, if_true]
      rw [C01_ssize_roundtrip 0 (by decide)]
      rfl
    | some v =>
      simp only [getSds, putStr, if_true]
      rw [List.append_assoc, C01_ssize_roundtrip v.length h]
      simp only [Option.bind_some]
      by_cases hv : v = []
      · subst hv; rfl
      · rw [if_pos (List.length_pos_iff.2 hv), takeBytes_append]
        simp [norm, hv]

theorem isList_iff (t : Int) : isList t = true ↔ listTag t := by
  simp [isList, listTag]

theorem decBytes_enc (name : Option Bytes) (m : Msg)
    (hsno : m.sw.sno = true → -2147483648 ≤ m.sno ∧ m.sno < 2147483648) (htag : -128 ≤ m.tag ∧ m.tag < 128)
    (hlist : listTag m.tag → m.sw.tag = true)
    (h1 : short m.service) (h2 : short m.cmd) (h3 : short m.subject) (h4 : short m.info) :
    ∃ b r, encBytes m = b :: r ∧ Sw.ofByte b = { m.sw with mark := true } ∧
      decBytes name b r = some ⟨name, true, { m.sw with mark := true },
        if m.sw.sno then m.sno else 0, norm m.sw.service m.service, norm m.sw.cmd m.cmd,
        norm m.sw.subject m.subject, if m.sw.tag then m.tag else 0,
        if isList m.tag then none else norm m.sw.info m.info, none⟩ := by
  refine ⟨_, _, rfl, ofByte_toByte _, ?_⟩
  have ht : toInt8 (if m.sw.tag then m.tag else 0) = if m.sw.tag then m.tag else 0 := by
    split
    · exact toInt8_id htag.1 htag.2
    · rfl
  unfold decBytes
  simp only [ofByte_toByte]
  rw [List.append_assoc, List.append_assoc, List.append_assoc, List.append_assoc, getNum_putInt _ _ _ hsno]
  simp only [Option.bind_some]
  rw [getSds_putStr _ _ _ h1]
  simp only [Option.bind_some]
  rw [getSds_putStr _ _ _ h2]
  simp only [Option.bind_some]
  rw [getSds_putStr _ _ _ h3]
  simp only [Option.bind_some]
  rw [getNum_putInt _ _ _ fun _ => ⟨by omega, by omega⟩]
  simp only [Option.bind_some, ht]
  cases hl : isList m.tag with
  | true =>
    have := hlist ((isList_iff _).1 hl)
    simp only [this, if_true, hl, Option.map_some]
  | false =>
    have : isList (if m.sw.tag then m.tag else 0) = false := by
      cases m.sw.tag
      · rfl
      · exact hl
    simp only [this, Bool.false_eq_true, if_false]
    have e := getSds_putStr m.sw.info m.info [] h4
    rw [List.append_nil] at e
    rw [e]
    rfl

theorem decode_head (name : Option Bytes) (b : UInt8) (r : Bytes) (h : goodName (name.getD [])) :
    decode (name.getD [] ++ [58] ++ b :: r) =
      if (Sw.ofByte b).mark then (decBytes (name.bind fun v => if v = [] then none else some v) b r).map some
      else (load (b :: r)).map fun n => n.map (ofJson (name.bind fun v => if v = [] then none else some v)) := by
  have e : name.getD [] ++ [58] ++ b :: r = name.getD [] ++ 58 :: (b :: r) := by simp
  rw [e]
  unfold decode
  rw [strPos_name _ _ h]
  have e2 : (name.getD [] ++ 58 :: (b :: r)).drop ((name.getD []).length + 1) = b :: r := by
    rw [← List.drop_drop, List.drop_left]; rfl
  simp only [e2]
  have e3 : (if (name.getD []).length > 0 then some ((name.getD [] ++ 58 :: (b :: r)).take (name.getD []).length) else none)
      = name.bind fun v => if v = [] then none else some v := by
    rw [List.take_left]
    cases name with
    | none => rfl
    | some v => by_cases hv : v = [] <;> simp [hv, List.length_pos_iff]
  rw [e3]

theorem name_norm (name : Option Bytes) : (name.bind fun v => if v = [] then none else some v).getD [] = name.getD [] := by
  cases name with
  | none => rfl
  | some v => by_cases hv : v = [] <;> simp [hv]

/-! ### C31 -/

/-- C31 for binary messages that announce no list: every field that is switched on arrives, the number if it has 32
bits. -/
theorem C31_binary_partial (m : Msg) (hb : m.bytes = true) (hname : goodName (m.name.getD []))
    (hsno : m.sw.sno = true → -2 ^ 31 ≤ m.sno ∧ m.sno < 2 ^ 31) (htag : -128 ≤ m.tag ∧ m.tag < 128)
    (hlist : ¬ listTag m.tag) (h1 : short m.service) (h2 : short m.cmd) (h3 : short m.subject) (h4 : short m.info) :
    ∃ t m', encode m = some t ∧ decode t = some (some m') ∧ content m' = content m ∧ m'.bytes = true := by
  obtain ⟨b, r, he, hsw, hd⟩ := decBytes_enc (m.name.bind fun v => if v = [] then none else some v) m hsno htag
    (fun h => absurd h hlist) h1 h2 h3 h4
  refine ⟨m.name.getD [] ++ [58] ++ encBytes m, _, by simp [encode, hb], by
    rw [he, decode_head _ _ _ hname, hsw, hd]; rfl, ?_, rfl⟩
  have hl : isList m.tag = false := by
    cases h : isList m.tag with
    | false => rfl
    | true => exact absurd ((isList_iff _).1 h) hlist
  simp only [content, hl, Bool.false_eq_true, if_false, name_norm, norm_getD]
  congr 1
  · cases m.sw.sno <;> rfl
  · cases m.sw.tag <;> rfl

/-- C31 for binary messages that announce a list: everything but the list arrives. -/
theorem C31_binary_list_partial (m : Msg) (hb : m.bytes = true) (hname : goodName (m.name.getD []))
    (hsno : m.sw.sno = true → -2 ^ 31 ≤ m.sno ∧ m.sno < 2 ^ 31) (htag : listTag m.tag) (hsw : m.sw.tag = true)
    (h1 : short m.service) (h2 : short m.cmd) (h3 : short m.subject) (h4 : short m.info) :
    ∃ t m', encode m = some t ∧ decode t = some (some m') ∧
      { content m' with info := none } = { content m with info := none } ∧ m'.bytes = true := by
  obtain ⟨b, r, he, hs, hd⟩ := decBytes_enc (m.name.bind fun v => if v = [] then none else some v) m hsno
    (by rcases htag with h | h <;> rw [h] <;> decide) (fun _ => hsw) h1 h2 h3 h4
  refine ⟨m.name.getD [] ++ [58] ++ encBytes m, _, by simp [encode, hb], by
    rw [he, decode_head _ _ _ hname, hs, hd]; rfl, ?_, rfl⟩
  simp only [content, name_norm, norm_getD]
  congr 1
  · cases m.sw.sno <;> rfl
  · cases m.sw.tag <;> rfl

/-! Text messages -/

/-- A member if the switch is on. -/
def opt (on : Bool) (x : Node) : List Node := if on then [x] else []

theorem fresh_opt {on : Bool} {ty : Ty} {k key : Bytes} {v : Option Bytes} (h : caseEq k key = false) :
    ∀ c ∈ opt on (.mk ty (some k) v []), named key c = false := by
  intro c hc
  cases on with
  | false => cases hc
  | true => rw [List.mem_singleton.1 hc]; exact h

theorem fresh_app {a b : List Node} {key : Bytes} (ha : ∀ c ∈ a, named key c = false) (hb : ∀ c ∈ b, named key c = false) :
    ∀ c ∈ a ++ b, named key c = false := fun c hc => (List.mem_append.1 hc).elim (ha c) (hb c)

theorem setMember_new {L : List Node} {key : Bytes} (ty : Ty) (v : Option Bytes) (h : ∀ c ∈ L, named key c = false) :
    setMember (.mk .object none none L) key ty v = .mk .object none none (L ++ [.mk ty (some key) v []]) := by
  unfold setMember
  have : cmpChild L key = none := List.findIdx?_eq_none_iff.2 fun c hc => h c hc
  simp only [Node.child, this]
  rfl

theorem setStr_opt {on : Bool} {L : List Node} {key : Bytes} {s : Option Bytes} (hs : on = true → ∃ v, s = some v ∧ CStr v)
    (h : ∀ c ∈ L, named key c = false) :
    setStr on key s (.mk .object none none L) = .mk .object none none (L ++ opt on (.mk .string (some key) s [])) := by
  cases on with
  | false => simp [setStr, opt]
  | true =>
    obtain ⟨v, rfl, hv⟩ := hs rfl
    simp only [setStr, if_true, setString, strdup_len, cstrOf_cstr hv, opt]
    exact setMember_new _ _ h

theorem setNum_opt {on : Bool} {L : List Node} {key : Bytes} {v : Int} (t : Bytes) (ht : on = true → lldtoa v 32 = some t)
    (h : ∀ c ∈ L, named key c = false) :
    setNum on key v (.mk .object none none L) = some (.mk .object none none (L ++ opt on (.mk .int (some key) (some t) []))) := by
  cases on with
  | false => simp [setNum, opt]
  | true =>
    simp only [setNum, if_true, setInt, ht rfl, opt, Option.map_some]
    rw [setMember_new _ _ h]

/-- A member that survives in every place. -/
def Simple (c : Node) : Prop := (∃ k, c.key = some k ∧ okKey k) ∧ ∀ last, Ok last c

theorem ok_members (L : List Node) (h : ∀ c ∈ L, Simple c) : OkMembers L := by
  induction L with
  | nil => exact trivial
  | cons c L ih =>
    have hc := h c (List.mem_cons_self ..)
    have := ih fun x hx => h x (List.mem_cons_of_mem _ hx)
    cases c with
    | mk ty key value child => exact ⟨hc.1, hc.2 _, this⟩

theorem simple_opt {on : Bool} {x : Node} (h : on = true → Simple x) : ∀ c ∈ opt on x, Simple c := by
  intro c hc
  cases on with
  | false => cases hc
  | true => rw [List.mem_singleton.1 hc]; exact h rfl

theorem simple_app {a b : List Node} (ha : ∀ c ∈ a, Simple c) (hb : ∀ c ∈ b, Simple c) : ∀ c ∈ a ++ b, Simple c :=
  fun c hc => (List.mem_append.1 hc).elim (ha c) (hb c)

theorem isFloat_noPoint {s : Bytes} (h : ∀ c ∈ s, c ≠ 46) : isFloat s = false := by
  induction s with
  | nil => rfl
  | cons c s ih =>
    cases s with
    | nil => rfl
    | cons d s =>
      rw [isFloat, ih fun x hx => h x (List.mem_cons_of_mem _ hx)]
      simp [h c (List.mem_cons_self ..)]

theorem okNum_lldtoa {v : Int} {t : Bytes} (h1 : -9223372036854775808 < v) (h2 : v ≤ 9223372036854775807)
    (ht : lldtoa v 32 = some t) : okNum false t ∧ atoll t = v := by
  obtain ⟨s, hs, hne, -, -, hat, hform⟩ := lldtoa_spec v h1 h2
  rw [ht] at hs
  cases hs
  have hdig : ∀ n : Fin 256, isDigit (UInt8.ofNat n.val) = true →
      UInt8.ofNat n.val ≠ 46 ∧ numCh (UInt8.ofNat n.val) = true := by decide +kernel
  have hd : ∀ c : UInt8, isDigit c = true → c ≠ 46 ∧ numCh c = true := by
    intro c hc
    have := hdig ⟨c.toNat, c.toNat_lt⟩
    simp only [UInt8.ofNat_toNat] at this
    exact this hc
  refine ⟨?_, hat⟩
  rcases hform with ⟨r, rfl, hr, -, hr2⟩ | ⟨-, hall⟩
  · refine okNum_iff.2 ⟨⟨45, r, rfl, .inl rfl⟩, fun c hc => ?_, isFloat_noPoint fun c hc => ?_⟩
    · rcases List.mem_cons.1 hc with rfl | hc
      · decide
      · exact (hd c (hr2 c hc)).2
    · rcases List.mem_cons.1 hc with rfl | hc
      · decide
      · exact (hd c (hr2 c hc)).1
  · cases t with
    | nil => exact absurd rfl hne
    | cons c r =>
      exact okNum_iff.2 ⟨⟨c, r, rfl, .inr (hall c (List.mem_cons_self ..))⟩, fun x hx => (hd x (hall x hx)).2,
        isFloat_noPoint fun x hx => (hd x (hall x hx)).1⟩

theorem member_opt {on : Bool} {x : Node} {L : List Node} {k : Bytes} :
    member (opt on x ++ L) k = if on && named k x then some x else member L k := by
  cases on with
  | false => simp [opt, member]
  | true =>
    simp only [opt, if_true, member, List.singleton_append, List.find?_cons]
    cases named k x <;> rfl

theorem cmp_isSome (cs : List Node) (k : Bytes) : (cmpChild cs k).isSome = (member cs k).isSome := by
  rw [← member_cmp]
  cases h : cmpChild cs k with
  | none => rfl
  | some i =>
    obtain ⟨a, r, b, rfl, rfl, -, -⟩ := cmp_some h
    simp

/-- The document a message becomes. -/
def blocks (m : Msg) (ts tt : Bytes) : List Node :=
  opt m.sw.sno (.mk .int (some kSno) (some ts) []) ++ (opt m.sw.service (.mk .string (some kService) m.service []) ++
    (opt m.sw.cmd (.mk .string (some kCmd) m.cmd []) ++ (opt m.sw.subject (.mk .string (some kSubject) m.subject []) ++
      (opt m.sw.tag (.mk .int (some kTag) (some tt) []) ++ (opt m.sw.info (.mk .string (some kInfo) m.info []) ++ [])))))

/-- A switched text is there and survives JSON. -/
def goodText (on : Bool) (s : Option Bytes) : Prop := on = true → ∃ v, s = some v ∧ okStr v

theorem okStr_cstr {v : Bytes} (h : okStr v) : CStr v := by
  intro c hc
  have key : ∀ n : Fin 256, 0x20 ≤ UInt8.ofNat n.val → UInt8.ofNat n.val ≠ 0 := by decide +kernel
  have kx := key ⟨c.toNat, c.toNat_lt⟩
  simp only [UInt8.ofNat_toNat] at kx
  exact kx (h c hc).1

theorem goodText.cstr {on : Bool} {s : Option Bytes} (h : goodText on s) : on = true → ∃ v, s = some v ∧ CStr v := fun ho =>
  let ⟨v, h1, h2⟩ := h ho; ⟨v, h1, okStr_cstr h2⟩

theorem charsNode_eq (m : Msg) (ts tt : Bytes) (hts : m.sw.sno = true → lldtoa m.sno 32 = some ts)
    (htt : m.sw.tag = true → lldtoa m.tag 32 = some tt) (hl : isList m.tag = false)
    (h1 : goodText m.sw.service m.service) (h2 : goodText m.sw.cmd m.cmd) (h3 : goodText m.sw.subject m.subject)
    (h4 : goodText m.sw.info m.info) : charsNode m = some (.mk .object none none (blocks m ts tt)) := by
  have no : ∀ {key : Bytes}, ∀ c ∈ ([] : List Node), named key c = false := fun c hc => nomatch hc
  unfold charsNode
  rw [setNum_opt ts hts no]
  simp only [Option.bind_some]
  rw [setStr_opt h1.cstr, setStr_opt h2.cstr, setStr_opt h3.cstr, setNum_opt tt htt]
  · simp only [Option.map_some, hl, Bool.false_eq_true, if_false]
    rw [setStr_opt h4.cstr]
    · simp [blocks]
    · exact fresh_app (fresh_app (fresh_app (fresh_app (fresh_app no (fresh_opt (by decide))) (fresh_opt (by decide)))
        (fresh_opt (by decide))) (fresh_opt (by decide))) (fresh_opt (by decide))
  · exact fresh_app (fresh_app (fresh_app (fresh_app no (fresh_opt (by decide))) (fresh_opt (by decide)))
        (fresh_opt (by decide))) (fresh_opt (by decide))
  · exact fresh_app (fresh_app (fresh_app no (fresh_opt (by decide))) (fresh_opt (by decide))) (fresh_opt (by decide))
  · exact fresh_app (fresh_app no (fresh_opt (by decide))) (fresh_opt (by decide))
  · exact fresh_app no (fresh_opt (by decide))

theorem simple_str {k : Bytes} {on : Bool} {s : Option Bytes} (hk : okKey k) (h : goodText on s) :
    on = true → Simple (.mk .string (some k) s []) := fun ho => by
  obtain ⟨v, rfl, hv⟩ := h ho
  exact ⟨⟨k, rfl, hk⟩, fun _ => ⟨⟨v, rfl, hv⟩, rfl⟩⟩

theorem simple_int {k : Bytes} {t : Bytes} (hk : okKey k) (h : okNum false t) : Simple (.mk .int (some k) (some t) []) :=
  ⟨⟨k, rfl, hk⟩, fun _ => ⟨⟨t, rfl, h⟩, rfl⟩⟩

theorem okKeys : okKey kSno ∧ okKey kService ∧ okKey kCmd ∧ okKey kSubject ∧ okKey kTag ∧ okKey kInfo := by
  unfold okKey; decide

/-- C31 for text messages that announce no list: every field that is switched on arrives, if the texts are there and
have no control characters and no backslashes. -/
theorem C31_text_partial (m : Msg) (hb : m.bytes = false) (hname : goodName (m.name.getD []))
    (hsno : m.sw.sno = true → -2 ^ 63 < m.sno ∧ m.sno < 2 ^ 63) (htag : -128 ≤ m.tag ∧ m.tag < 128)
    (hlist : ¬ listTag m.tag)
    (h1 : goodText m.sw.service m.service) (h2 : goodText m.sw.cmd m.cmd) (h3 : goodText m.sw.subject m.subject)
    (h4 : goodText m.sw.info m.info) :
    ∃ t m', encode m = some t ∧ decode t = some (some m') ∧ content m' = content m ∧ m'.bytes = false := by
  have hl : isList m.tag = false := by
    cases h : isList m.tag with
    | false => rfl
    | true => exact absurd ((isList_iff _).1 h) hlist
  obtain ⟨ts, hts⟩ : ∃ ts, m.sw.sno = true → lldtoa m.sno 32 = some ts := by
    cases ho : m.sw.sno with
    | false => exact ⟨[], nofun⟩
    | true =>
      obtain ⟨s, hs, -⟩ := lldtoa_spec m.sno (hsno ho).1 (by have := (hsno ho).2; omega)
      exact ⟨s, fun _ => hs⟩
  obtain ⟨tt, htt, -⟩ := lldtoa_spec m.tag (by omega) (by omega)
  have hn := charsNode_eq m ts tt hts (fun _ => htt) hl h1 h2 h3 h4
  have oks : m.sw.sno = true → okNum false ts ∧ atoll ts = m.sno := fun ho =>
    okNum_lldtoa (hsno ho).1 (by have := (hsno ho).2; omega) (hts ho)
  have okt := okNum_lldtoa (v := m.tag) (by omega) (by omega) htt
  have hok : Ok true (.mk .object none none (blocks m ts tt)) := by
    refine ⟨rfl, ok_members _ ?_⟩
    exact simple_app (simple_opt fun ho => simple_int okKeys.1 (oks ho).1) (simple_app (simple_opt (simple_str okKeys.2.1 h1))
      (simple_app (simple_opt (simple_str okKeys.2.2.1 h2)) (simple_app (simple_opt (simple_str okKeys.2.2.2.1 h3))
        (simple_app (simple_opt fun _ => simple_int okKeys.2.2.2.2.1 okt.1)
          (simple_app (simple_opt (simple_str okKeys.2.2.2.2.2 h4)) nofun)))))
  obtain ⟨t, ht, hload⟩ := load_text (fmt := false) hok (.inr rfl) []
  rw [List.append_nil] at hload
  obtain ⟨r, rfl⟩ : ∃ r, t = 123 :: r := by
    simp only [toValue] at ht
    split at ht <;> cases ht
    · exact ⟨_, rfl⟩
    · exact ⟨_, rfl⟩
  have hm : (Sw.ofByte 123).mark = false := by decide
  refine ⟨m.name.getD [] ++ [58] ++ 123 :: r, ofJson (m.name.bind fun v => if v = [] then none else some v)
    (.mk .object none none (blocks m ts tt)), ?_, ?_, ?_, rfl⟩
  · simp only [encode, hb, Bool.false_eq_true, if_false, encChars, hn, Option.bind_some]
    rw [outputZip, ht]
    rfl
  · rw [decode_head _ _ _ hname, hm, hload]
    rfl
  · have c0 : ∀ k, member [] k = none := fun _ => rfl
    have e1 : member (blocks m ts tt) kSno = if m.sw.sno then some (.mk .int (some kSno) (some ts) []) else none := by
      simp only [blocks, member_opt, c0, named, Node.key, show caseEq kSno kSno = true by decide,
        show caseEq kService kSno = false by decide, show caseEq kCmd kSno = false by decide,
        show caseEq kSubject kSno = false by decide, show caseEq kTag kSno = false by decide,
        show caseEq kInfo kSno = false by decide, Bool.and_true, Bool.and_false, Bool.false_eq_true, if_false]
    have e2 : member (blocks m ts tt) kService = if m.sw.service then some (.mk .string (some kService) m.service []) else none := by
      simp only [blocks, member_opt, c0, named, Node.key, show caseEq kSno kService = false by decide,
        show caseEq kService kService = true by decide, show caseEq kCmd kService = false by decide,
        show caseEq kSubject kService = false by decide, show caseEq kTag kService = false by decide,
        show caseEq kInfo kService = false by decide, Bool.and_true, Bool.and_false, Bool.false_eq_true, if_false]
    have e3 : member (blocks m ts tt) kCmd = if m.sw.cmd then some (.mk .string (some kCmd) m.cmd []) else none := by
      simp only [blocks, member_opt, c0, named, Node.key, show caseEq kSno kCmd = false by decide,
        show caseEq kService kCmd = false by decide, show caseEq kCmd kCmd = true by decide,
        show caseEq kSubject kCmd = false by decide, show caseEq kTag kCmd = false by decide,
        show caseEq kInfo kCmd = false by decide, Bool.and_true, Bool.and_false, Bool.false_eq_true, if_false]
    have e4 : member (blocks m ts tt) kSubject = if m.sw.subject then some (.mk .string (some kSubject) m.subject []) else none := by
      simp only [blocks, member_opt, c0, named, Node.key, show caseEq kSno kSubject = false by decide,
        show caseEq kService kSubject = false by decide, show caseEq kCmd kSubject = false by decide,
        show caseEq kSubject kSubject = true by decide, show caseEq kTag kSubject = false by decide,
        show caseEq kInfo kSubject = false by decide, Bool.and_true, Bool.and_false, Bool.false_eq_true, if_false]
    have e5 : member (blocks m ts tt) kTag = if m.sw.tag then some (.mk .int (some kTag) (some tt) []) else none := by
      simp only [blocks, member_opt, c0, named, Node.key, show caseEq kSno kTag = false by decide,
        show caseEq kService kTag = false by decide, show caseEq kCmd kTag = false by decide,
        show caseEq kSubject kTag = false by decide, show caseEq kTag kTag = true by decide,
        show caseEq kInfo kTag = false by decide, Bool.and_true, Bool.and_false, Bool.false_eq_true, if_false]
    have e6 : member (blocks m ts tt) kInfo = if m.sw.info then some (.mk .string (some kInfo) m.info []) else none := by
      simp only [blocks, member_opt, c0, named, Node.key, show caseEq kSno kInfo = false by decide,
        show caseEq kService kInfo = false by decide, show caseEq kCmd kInfo = false by decide,
        show caseEq kSubject kInfo = false by decide, show caseEq kTag kInfo = false by decide,
        show caseEq kInfo kInfo = true by decide, Bool.and_true, Bool.and_false, Bool.false_eq_true, if_false]
    have g1 : getInt (.mk .object none none (blocks m ts tt)) kSno 0 = if m.sw.sno then m.sno else 0 := by
      rw [getInt, find_plain (by decide), Node.child, e1]
      cases ho : m.sw.sno with
      | false => rfl
      | true => exact (oks ho).2
    have g5 : getInt (.mk .object none none (blocks m ts tt)) kTag 0 = if m.sw.tag then m.tag else 0 := by
      rw [getInt, find_plain (by decide), Node.child, e5]
      cases m.sw.tag with
      | false => rfl
      | true => exact okt.2
    have t8 : toInt8 m.tag = m.tag := toInt8_id htag.1 htag.2
    simp only [content, ofJson, jsonSds, member_cmp, cmp_isSome, Node.child, e1, e2, e3, e4, e5, e6, g1, g5, name_norm]
    congr 1
    · cases m.sw.sno <;> rfl
    · cases m.sw.service <;> rfl
    · cases m.sw.cmd <;> rfl
    · cases m.sw.subject <;> rfl
    · cases m.sw.tag <;> simp [t8]
    · cases m.sw.info <;> rfl

/-- A binary and a text message. -/
def binMsg : Msg :=
  { name := some (str "u1.77"), bytes := true, sw := { sno := true, cmd := true, subject := true, tag := true, info := true },
    sno := -12, cmd := some (str "set"), subject := some (str "k.t"), tag := 6, info := some [0, 255, 58, 123] }
def textMsg : Msg :=
  { binMsg with bytes := false, sno := 5000000000, tag := 4, info := some (str "say \"hi\": {1,2}") }

example : goodName (binMsg.name.getD []) ∧ ¬ listTag binMsg.tag ∧ short binMsg.info ∧
    ((encode binMsg).bind decode).map (·.map content) = some (some (content binMsg)) := by
  unfold goodName listTag short; decide +kernel

example : goodText textMsg.sw.info textMsg.info ∧ goodText textMsg.sw.cmd textMsg.cmd ∧
    ((encode textMsg).bind decode).map (·.map content) = some (some (content textMsg)) := by
  refine ⟨fun _ => ⟨_, rfl, ?_⟩, fun _ => ⟨_, rfl, ?_⟩, by decide +kernel⟩ <;> unfold okStr <;> decide +kernel

/-- C31 does not hold in general: a binary message's number loses its upper 32 bits; a list never arrives; a name with a
colon is cut there and all fields are lost; a line feed in a text message arrives as two characters; a text that is there but empty arrives as
an absent one. -/
theorem C31_violated :
    ((encode { binMsg with sno := 4294967301 }).bind decode).map (·.map Msg.sno) = some (some 5) ∧
    ((encode { binMsg with tag := 7, argvs := some [[1, 2], [3]] }).bind decode).map (·.map Msg.argvs) = some (some none) ∧
    ((encode { textMsg with tag := 5, argvs := some [[65], [66]] }).bind decode).map (·.map Msg.argvs) = some (some none) ∧
    ((encode { textMsg with name := some (str "a:b") }).bind decode).map (·.map content) =
      some (some ⟨str "a", none, none, none, none, none, none⟩) ∧
    ((encode { textMsg with info := some (str "a\nb") }).bind decode).map (·.map Msg.info) = some (some (some (str "a\\nb"))) ∧
    ((encode { binMsg with info := some [] }).bind decode).map (·.map Msg.info) = some (some none) := by decide +kernel

/-! ### C32 -/

/-- C32 for messages that announce no list: what a subscriber decodes from the relayed message has the number, the tag
and the payload of the original, and the new name, service, command and subject. -/
theorem C32_relay_partial (m : Msg) (name service cmd subject : Option Bytes) (hname : goodName (name.getD []))
    (hsno : m.sw.sno = true → -2 ^ 31 ≤ m.sno ∧ m.sno < 2 ^ 31) (htag : -128 ≤ m.tag ∧ m.tag < 128)
    (hlist : ¬ listTag m.tag) (h1 : short service) (h2 : short cmd) (h3 : short subject) (h4 : short m.info) :
    ∃ t m', encode { relay m name service cmd subject with bytes := true } = some t ∧ decode t = some (some m') ∧
      content m' = ⟨name.getD [], (content m).sno, service, cmd, subject, (content m).tag, m.info⟩ := by
  obtain ⟨t, m', e1, e2, e3, -⟩ := C31_binary_partial { relay m name service cmd subject with bytes := true } rfl hname
    hsno htag hlist h1 h2 h3 h4
  refine ⟨t, m', e1, e2, ?_⟩
  rw [e3]
  have : ∀ s : Option Bytes, (if s.isSome then some (s.getD []) else none) = s := by
    intro s; cases s <;> rfl
  simp only [content, relay]
  congr 1 <;> exact this _

example : (content (relay binMsg (some (str "u2")) none none (some (str "k.t")))).info = some [0, 255, 58, 123] := by
  decide +kernel

/-- C32 does not hold for lists: the relayed message has none, and what is sent announces a list of no elements. -/
theorem C32_violated :
    let m := { binMsg with tag := 7, argvs := some [[1, 2], [3]] }
    (relay m none none none none).argvs = none ∧
    encode { relay m none none none none with bytes := true } =
      encode { relay { m with argvs := some [] } none none none none with bytes := true } := by decide +kernel

/-! ### C73 -/

theorem strPos_some {s : Bytes} {k : Nat} (h : strPos s = some k) :
    ∃ r, s = s.take k ++ 58 :: r ∧ (s.take k).length = k ∧
      ∀ c ∈ s.take k, c ≠ 58 ∧ c ≠ 123 ∧ c ≠ 125 ∧ c ≠ 91 ∧ c ≠ 93 ∧ c ≠ 0 := by
  induction s generalizing k with
  | nil => cases h
  | cons c s ih =>
    rw [strPos] at h
    split at h
    · cases h
    · rename_i hc
      split at h
      · rename_i h58
        cases h
        subst h58
        exact ⟨s, rfl, rfl, nofun⟩
      · rename_i h58
        rw [Option.map_eq_some_iff] at h
        obtain ⟨j, hj, rfl⟩ := h
        obtain ⟨r, h1, h2, h3⟩ := ih hj
        refine ⟨r, ?_, ?_, ?_⟩
        · rw [List.take_succ_cons, List.cons_append, ← h1]
        · rw [List.take_succ_cons, List.length_cons, h2]
        · intro x hx
          rw [List.take_succ_cons] at hx
          rcases List.mem_cons.1 hx with rfl | hx
          · simp only [not_or] at hc
            exact ⟨h58, hc⟩
          · exact h3 x hx

/-- C73, for everything but binary messages: if decoding a received message reads behind its last byte, the message is a
name and a colon, followed by nothing or by a byte that announces a binary message. -/
theorem C73_text_partial (s : Bytes) (h : decode s = none) :
    ∃ name r, s = name ++ 58 :: r ∧ goodName name ∧ (r = [] ∨ ∃ b t, r = b :: t ∧ 128 ≤ b) := by
  unfold decode at h
  cases hp : strPos (s.take 128) with
  | none => rw [hp] at h; cases h
  | some k =>
    rw [hp] at h
    obtain ⟨r, h1, h2, h3⟩ := strPos_some hp
    have hk : k < 128 := by
      have := congrArg List.length h1
      simp only [List.length_append, List.length_cons, h2] at this
      have h4 := List.length_take_le 128 s
      omega
    rw [List.take_take, Nat.min_eq_left (by omega)] at h1 h2 h3
    have hs : s = s.take k ++ 58 :: (r ++ s.drop 128) := by
      have e := List.take_append_drop 128 s
      rw [h1, List.append_assoc] at e
      exact e.symm
    have hd : s.drop (k + 1) = r ++ s.drop 128 := by
      have e : s.drop (k + 1) = (s.take k ++ 58 :: (r ++ s.drop 128)).drop (k + 1) := congrArg (List.drop (k + 1)) hs
      rw [e, ← List.drop_drop, List.drop_left' h2]
      rfl
    refine ⟨s.take k, r ++ s.drop 128, hs, ⟨by omega, h3⟩, ?_⟩
    simp only [hd] at h
    cases hr : r ++ s.drop 128 with
    | nil => exact .inl rfl
    | cons b t =>
      refine .inr ⟨b, t, rfl, ?_⟩
      rw [hr] at h
      simp only at h
      cases hm : (Sw.ofByte b).mark with
      | true =>
        have key : ∀ n : Fin 256, (Sw.ofByte (UInt8.ofNat n.val)).mark = true → 128 ≤ UInt8.ofNat n.val := by decide +kernel
        have := key ⟨b.toNat, b.toNat_lt⟩
        simp only [UInt8.ofNat_toNat] at this
        exact this hm
      | false =>
        rw [hm] at h
        simp only [Bool.false_eq_true, if_false, Option.map_eq_none_iff] at h
        exact absurd h (load_total _)

example : decode (str "n:{\"cmd\":\"get\"") ≠ none ∧ decode (str "no colon here") = some none := by decide +kernel

/-- C73 does not hold for binary messages: one that ends after its colon, one whose text is shorter than announced, and
one that ends before its last field. -/
theorem C73_violated :
    decode (str "u:") = none ∧ decode (str "u:" ++ [130, 5, 65, 66]) = none ∧ decode (str "u:" ++ [132]) = none := by
  decide +kernel

end Sis.Msg
