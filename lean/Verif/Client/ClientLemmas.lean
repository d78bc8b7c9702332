import Verif.Client.ClientSpec
import Verif.Rec.ReadLemmas
import Mathlib.Data.List.Induction
namespace Sis.Cli
open Sis Msg Json

theorem takeWhile_cstr {s : Bytes} (h : CStr s) : s.takeWhile (· != 0) = s := by
  induction s with
  | nil => rfl
  | cons a s ih =>
    have : (a != 0) = true := by simpa using h a (by simp)
    rw [List.takeWhile_cons, if_pos this, ih fun c hc => h c (by simp [hc])]

theorem cstr_upTo0 (s : Bytes) : CStr (upTo0 s) := by
  unfold upTo0
  induction s with
  | nil => intro c hc; simp at hc
  | cons a s ih =>
    rw [List.takeWhile_cons]
    by_cases h : (a != 0) = true
    · rw [if_pos h]
      intro c hc
      rcases List.mem_cons.1 hc with rfl | hc
      · simpa using h
      · exact ih c hc
    · rw [if_neg h]; intro c hc; simp at hc

theorem serial_dec {n : Nat} (h : n ≤ 0xFFFFFF) : serial n = Rec.dec n := Rec.llutoa_dec (by omega)

theorem lower_digit {c : UInt8} (h : Num.isDigit (lower c) = true) : lower c = c := by
  have : ∀ n : Fin 256, Num.isDigit (lower (UInt8.ofNat n.val)) = true → lower (UInt8.ofNat n.val) = UInt8.ofNat n.val := by
    decide +kernel
  have h2 := this ⟨c.toNat, c.toNat_lt⟩
  simp only [UInt8.ofNat_toNat] at h2
  exact h2 h

theorem map_lower_digits {s d : Bytes} (hd : ∀ c ∈ d, Num.isDigit c = true) (h : s.map lower = d) : s = d := by
  rw [← h]
  rw [← h] at hd
  clear h d
  induction s with
  | nil => rfl
  | cons a s ih =>
    have h1 : lower a = a := lower_digit (hd _ (by simp))
    have h2 := ih fun c hc => hd c (by simp only [List.map_cons, List.mem_cons]; exact .inr hc)
    rw [List.map_cons, h1, ← h2]

theorem caseEq_serial {k : Nat} (hk : k ≤ 0xFFFFFF) (n : Bytes) : caseEq n (serial k) = true ↔ upTo0 n = Rec.dec k := by
  rw [caseEq_cut, serial_dec hk, takeWhile_cstr (Rec.dec_cstr k).1, Rec.dec_lower]
  constructor
  · exact fun h => map_lower_digits (Rec.dec_facts k).2.1 h
  · intro h
    show (upTo0 n).map lower = _
    rw [h, Rec.dec_lower]

theorem ll2str_nat (k : Nat) : Csv.ll2str k = some (Rec.dec k) := by
  rw [Csv.ll2str_dec (by omega), Rec.decInt, if_neg (by omega)]
  rfl

/-! ### Which commands subscribe -/

theorem isSub_iff {cmd : Option Bytes} {b : Bool} (h : isSub cmd = some b) : b = true ↔ Subscribes cmd := by
  cases cmd with
  | none => simp only [isSub, Option.some.injEq] at h; subst h; simp [Subscribes]
  | some c =>
    simp only [isSub] at h
    split at h
    · simp only [Option.some.injEq] at h
      subst h
      have hk : CStr (Sub.after (cstrOf c)) := by
        intro x hx
        refine cstr_upTo0 c x ?_
        have := List.mem_of_mem_tail hx
        exact (List.dropWhile_sublist _).subset this
      have e : right (upTo0 c) = Sub.after (cstrOf c) := by
        simp [right, Sub.after, List.drop_one, cstrOf, upTo0, Sub.dot]
      simp only [Subscribes, Option.some.injEq, exists_eq_left', e]
      generalize Sub.after (cstrOf c) = k at hk
      have l1 : str "sub" = [115, 117, 98] := by decide +kernel
      have l2 : str "zsub" = [122, 115, 117, 98] := by decide +kernel
      have l3 : str "hsub" = [104, 115, 117, 98] := by decide +kernel
      have hl : str "sub,zsub,hsub" = [115, 117, 98, 44, 122, 115, 117, 98, 44, 104, 115, 117, 98] := by decide +kernel
      have o1 := Sub.okItem (strict := true) (it := [115, 117, 98]) (tail := [44, 122, 115, 117, 98, 44, 104, 115, 117, 98]) hk
        (by unfold CStr; decide +kernel) (by simp)
      have o2 := Sub.okItem (strict := true) (it := [122, 115, 117, 98]) (tail := [44, 104, 115, 117, 98]) hk
        (by unfold CStr; decide +kernel) (by simp)
      have o3 := Sub.okItem (strict := true) (it := [104, 115, 117, 98]) (tail := []) hk (by unfold CStr; decide +kernel) (by simp)
      rw [l1, l2, l3, hl]
      simp only [Sub.subcmp, Sub.subLoop, Sub.comma]
      simp only [List.length_cons, List.length_nil, List.cons_append, List.nil_append, if_true] at o1 o2 o3
      have w1 : Sub.low [115, 117, 98] = [115, 117, 98] := by decide +kernel
      have w2 : Sub.low [122, 115, 117, 98] = [122, 115, 117, 98] := by decide +kernel
      have w3 : Sub.low [104, 115, 117, 98] = [104, 115, 117, 98] := by decide +kernel
      rw [w1] at o1
      rw [w2] at o2
      rw [w3] at o3
      have n1 : ((115 : UInt8) = 44) = False := by simp
      have n2 : ((117 : UInt8) = 44) = False := by simp
      have n3 : ((98 : UInt8) = 44) = False := by simp
      have n4 : ((122 : UInt8) = 44) = False := by simp
      have n5 : ((104 : UInt8) = 44) = False := by simp
      simp only [n1, n2, n3, n4, n5, if_false, if_true, Bool.or_eq_true, List.mem_cons, List.not_mem_nil, or_false]
      have p4 : decide (0 + 1 + 1 + 1 + 1 > 0) = true := by decide
      rw [p4, Bool.true_and]
      have e1 : ∀ x : Bytes, (x = Sub.low k) ↔ (k.map lower = x) := fun x => ⟨fun h => h.symm, fun h => h.symm⟩
      rw [e1] at o1 o2 o3
      exact or_congr o1 (or_congr o2 o3)
    · cases h

/-! ### Messages -/

theorem filled_some (v : Bytes) : filled (some v) = if v = [] then none else some v := by
  cases v <;> simp [filled]

theorem content_message (a : Ask) : content (message a) = question a.sno a.q := by
  obtain ⟨id, sno, sub, ⟨cmd, key, val, bytes, wait, cb⟩, back⟩ := a
  have hf : ∀ o : Option Bytes, (if o.isSome then some (o.getD []) else none) = o := by intro o; cases o <;> simp
  have hb : buf val = filled val := by
    cases val with
    | none => rfl
    | some v => rw [filled_some]; rfl
  have hc : ∀ c : Bytes, service c = if 46 ∈ c then filled (some (left c)) else none := by
    intro c
    unfold service
    by_cases h : 46 ∈ c
    · rw [if_pos (by simpa using h), if_pos h]
      rw [filled_some]; rfl
    · rw [if_neg (by simpa using h), if_neg h]
  have hm : ∀ c : Bytes, command c = filled (some (if 46 ∈ c then right c else c)) := by
    intro c
    unfold command
    by_cases h : 46 ∈ c
    · rw [if_pos (by simpa using h), if_pos h]
      have e : right c = Sub.after c := by simp [right, Sub.after, Sub.dot, List.drop_one]
      rw [e]
      rw [filled_some]; rfl
    · rw [if_neg (by simpa using h), if_neg h]
      rw [filled_some]; rfl
  unfold content question message
  simp only [hf, ll2str_nat, Option.getD_some, hb]
  cases cmd with
  | none => simp [filled]; congr
  | some c =>
    have e0 : cstrOf c = upTo0 c := rfl
    simp only [Option.map_some, Option.bind_some, Option.getD_some, hc, hm, e0]
    congr

theorem told_tells (m : Msg) : told m = tells m := rfl

/-! ### The invariant -/

/-- How many questions are asked in a life. -/
def askedIn (tr : Life) : Nat := asked (tr.map Prod.fst)

/-- What is known of a client after a life in which fewer questions were asked than there are numbers. -/
structure Inv (tr : Life) (s : St) : Prop where
  next : s.next = s.count
  le : s.count ≤ askedIn tr
  ids : ∀ a ∈ s.asks, a.sno = a.id ∧ a.id < s.count
  inc : s.asks.Pairwise (·.id < ·.id)
  took : ∀ a ∈ s.asks, ∃ x ∈ tr, Took x a.id a.q
  sub : ∀ a ∈ s.asks, isSub a.q.cmd = some a.sub
  fresh : ∀ a ∈ s.asks, a.sub = false → a.back = false ∧ ∀ x ∈ tr, ∀ t k v, Out.call a.id t k v ∉ x.2
  calls : ∀ x ∈ tr, ∀ id t k v, Out.call id t k v ∈ x.2 → id < s.count
  taken : ∀ x ∈ tr, ∀ id, Out.taken id ∈ x.2 → id < s.count
  list : (s.asks.filter Ask.sub).map (fun a => (a.id, a.q)) = subsOf tr
  live : ∀ pre x post id q, tr = pre ++ x :: post → Took x id q →
    (Subscribes q.cmd → ∀ y ∈ post, ∀ n, y.1 = .unsub n → upTo0 n ≠ Rec.dec id) →
    (¬ Subscribes q.cmd → ∀ y ∈ post, ∀ m, y.1 = .recv m → m.sw.tag = true → ¬ Named m id) →
    ∃ a ∈ s.asks, a.id = id ∧ a.q = q

theorem inv_start (user pass : Bytes) : Inv [] (start user pass) where
  next := rfl
  le := Nat.zero_le _
  ids := by intro a ha; simp [start] at ha
  inc := by simp [start]
  took := by intro a ha; simp [start] at ha
  sub := by intro a ha; simp [start] at ha
  fresh := by intro a ha; simp [start] at ha
  calls := by intro x hx; simp at hx
  taken := by intro x hx; simp at hx
  list := by simp [start, subsOf]
  live := by intro pre x post id q h; simp at h

theorem subsOf_snoc (tr : Life) (x) : subsOf (tr ++ [x]) = subsStep (subsOf tr) x := by
  simp [subsOf, List.foldl_append]

theorem askedIn_snoc (tr : Life) (x) : askedIn tr ≤ askedIn (tr ++ [x]) := by
  simp only [askedIn, asked, List.map_append, List.countP_append]
  omega

theorem snoc_split {α : Type} {tr pre post : List α} {x y : α} (h : tr ++ [y] = pre ++ x :: post) :
    (post = [] ∧ x = y ∧ pre = tr) ∨ ∃ p, post = p ++ [y] ∧ tr = pre ++ x :: p := by
  rcases List.eq_nil_or_concat post with rfl | ⟨p, z, rfl⟩
  · left
    have := List.append_inj' h (by simp)
    simp only [List.cons.injEq, and_true] at this
    exact ⟨rfl, this.2.symm, this.1.symm⟩
  · right
    rw [List.concat_eq_append] at h ⊢
    have h2 : tr ++ [y] = (pre ++ x :: p) ++ [z] := by simpa using h
    have := List.append_inj' h2 (by simp)
    simp only [List.cons.injEq, and_true] at this
    exact ⟨p, by rw [this.2], this.1⟩

/-- The questions stay. -/
theorem inv_keep {tr : Life} {s s' : St} (h : Inv tr s) (e : Ev) (o : List Out) (h1 : s'.asks = s.asks) (h2 : s'.next = s.next)
    (h3 : s'.count = s.count) (ht : ∀ id, Out.taken id ∉ o) (hc : ∀ id t k v, Out.call id t k v ∉ o)
    (hs : subsStep (subsOf tr) (e, o) = subsOf tr) : Inv (tr ++ [(e, o)]) s' where
  next := by rw [h2, h3, h.next]
  le := by rw [h3]; exact Nat.le_trans h.le (askedIn_snoc tr _)
  ids := by rw [h1, h3]; exact h.ids
  inc := by rw [h1]; exact h.inc
  took := by
    rw [h1]
    intro a ha
    obtain ⟨x, hx, hT⟩ := h.took a ha
    exact ⟨x, by simp [hx], hT⟩
  sub := by rw [h1]; exact h.sub
  fresh := by
    rw [h1]
    intro a ha hb
    refine ⟨(h.fresh a ha hb).1, fun x hx => ?_⟩
    rcases List.mem_append.1 hx with hx | hx
    · exact (h.fresh a ha hb).2 x hx
    · simp only [List.mem_singleton] at hx
      subst hx
      exact fun t k v => hc _ t k v
  calls := by
    rw [h3]
    intro x hx
    rcases List.mem_append.1 hx with hx | hx
    · exact h.calls x hx
    · simp only [List.mem_singleton] at hx
      subst hx
      exact fun id t k v hm => absurd hm (hc id t k v)
  taken := by
    rw [h3]
    intro x hx
    rcases List.mem_append.1 hx with hx | hx
    · exact h.taken x hx
    · simp only [List.mem_singleton] at hx
      subst hx
      exact fun id hm => absurd hm (ht id)
  list := by rw [h1, subsOf_snoc, hs, h.list]
  live := by
    rw [h1]
    intro pre x post id q he hT hsub hnot
    rcases snoc_split he with ⟨-, rfl, -⟩ | ⟨p, rfl, he'⟩
    · exact absurd hT.2 (ht id)
    · exact h.live pre x p id q he' hT (fun hq y hy => hsub hq y (by simp [hy])) (fun hq y hy => hnot hq y (by simp [hy]))

theorem inc_eq {l : List Ask} (h : l.Pairwise (·.id < ·.id)) {a b : Ask} (ha : a ∈ l) (hb : b ∈ l) (e : a.id = b.id) : a = b := by
  induction l with
  | nil => simp at ha
  | cons x l ih =>
    rw [List.pairwise_cons] at h
    rcases List.mem_cons.1 ha with h1 | h1 <;> rcases List.mem_cons.1 hb with h2 | h2
    · rw [h1, h2]
    · have := h.1 b h2; rw [h1] at e; omega
    · have := h.1 a h1; rw [h2] at e; omega
    · exact ih h.2 h1 h2

theorem find_iff {tr : Life} {s : St} (h : Inv tr s) (hn : s.count ≤ 0xFFFFFF) (n : Bytes) (a : Ask) :
    find s (some n) = some a ↔ a ∈ s.asks ∧ upTo0 n = Rec.dec a.id := by
  have key : ∀ b ∈ s.asks, (caseEq n (serial b.sno) = true ↔ upTo0 n = Rec.dec b.id) := by
    intro b hb
    obtain ⟨h1, h2⟩ := h.ids b hb
    rw [h1]
    exact caseEq_serial (by omega) n
  simp only [find, Option.bind_some]
  constructor
  · intro hf
    have hm := List.mem_of_find?_eq_some hf
    exact ⟨hm, (key a hm).1 (List.find?_some (p := fun b : Ask => caseEq n (serial b.sno)) hf)⟩
  · rintro ⟨ha, he⟩
    cases hf : s.asks.find? fun b => caseEq n (serial b.sno) with
    | none =>
      rw [List.find?_eq_none] at hf
      exact absurd ((key a ha).2 he) (hf a ha)
    | some b =>
      have hb := List.mem_of_find?_eq_some hf
      have := (key b hb).1 (List.find?_some (p := fun b : Ask => caseEq n (serial b.sno)) hf)
      rw [inc_eq h.inc hb ha (Rec.dec_inj (this.symm.trans he))]

theorem find_named {tr : Life} {s : St} (h : Inv tr s) (hn : s.count ≤ 0xFFFFFF) {m : Msg} {a : Ask} :
    find s m.name = some a ↔ a ∈ s.asks ∧ Named m a.id := by
  cases hm : m.name with
  | none => simp [find, Named, hm]
  | some n => rw [find_iff h hn]; simp [Named, hm]

/-- A question goes. -/
theorem inv_drop {tr : Life} {s : St} (h : Inv tr s) (a : Ask) (ha : a ∈ s.asks) (e : Ev) (o : List Out)
    (ht : ∀ id, Out.taken id ∉ o) (hc : ∀ id t k v, Out.call id t k v ∈ o → id = a.id)
    (hw : (a.sub = false ∧ ∃ m, e = .recv m ∧ m.sw.tag = true ∧ Named m a.id) ∨ (a.sub = true ∧ ∃ n, e = .unsub n ∧ upTo0 n = Rec.dec a.id)) :
    Inv (tr ++ [(e, o)]) (drop s a.sno) := by
  have hmem : ∀ b, b ∈ (drop s a.sno).asks ↔ b ∈ s.asks ∧ b.id ≠ a.id := by
    intro b
    simp only [drop, List.mem_filter, Bool.not_eq_true', decide_eq_false_iff_not]
    constructor
    · rintro ⟨h1, h2⟩
      exact ⟨h1, fun he => h2 (by rw [(h.ids b h1).1, (h.ids a ha).1, he])⟩
    · rintro ⟨h1, h2⟩
      exact ⟨h1, fun he => h2 (by rw [← (h.ids b h1).1, ← (h.ids a ha).1, he])⟩
  refine ⟨h.next, Nat.le_trans h.le (askedIn_snoc tr _), fun b hb => h.ids b ((hmem b).1 hb).1, h.inc.filter _, ?_,
    fun b hb => h.sub b ((hmem b).1 hb).1, ?_, ?_, ?_, ?_, ?_⟩
  · intro b hb
    obtain ⟨x, hx, hT⟩ := h.took b ((hmem b).1 hb).1
    exact ⟨x, by simp [hx], hT⟩
  · intro b hb hs
    obtain ⟨h1, h2⟩ := (hmem b).1 hb
    refine ⟨(h.fresh b h1 hs).1, fun x hx => ?_⟩
    rcases List.mem_append.1 hx with hx | hx
    · exact (h.fresh b h1 hs).2 x hx
    · simp only [List.mem_singleton] at hx
      subst hx
      exact fun t k v hm => h2 (hc _ t k v hm)
  · intro x hx
    rcases List.mem_append.1 hx with hx | hx
    · exact h.calls x hx
    · simp only [List.mem_singleton] at hx
      subst hx
      intro id t k v hm
      rw [hc id t k v hm]
      exact (h.ids a ha).2
  · intro x hx
    rcases List.mem_append.1 hx with hx | hx
    · exact h.taken x hx
    · simp only [List.mem_singleton] at hx
      subst hx
      exact fun id hm => absurd hm (ht id)
  · rw [subsOf_snoc, ← h.list]
    rcases hw with ⟨hs, m, rfl, -, -⟩ | ⟨hs, n, rfl, hn⟩
    · have : (drop s a.sno).asks.filter Ask.sub = s.asks.filter Ask.sub := by
        simp only [drop, List.filter_filter]
        apply List.filter_congr
        intro b hb
        by_cases hbs : b.sub = true
        · have : b.sno ≠ a.sno := by
            intro he
            rw [(h.ids b hb).1, (h.ids a ha).1] at he
            rw [inc_eq h.inc hb ha he, hs] at hbs
            simp at hbs
          simp [hbs, this]
        · simp [hbs]
      rw [this]
      rfl
    · simp only [subsStep, drop, List.filter_map, List.filter_filter]
      congr 1
      apply List.filter_congr
      intro b hb
      have : (Rec.dec b.id ≠ upTo0 n) ↔ b.sno ≠ a.sno := by
        rw [hn, (h.ids b hb).1, (h.ids a ha).1]
        exact ⟨fun h1 h2 => h1 (by rw [h2]), fun h1 h2 => h1 (Rec.dec_inj h2)⟩
      simp only [Function.comp, this]
      by_cases h1 : b.sno = a.sno <;> simp [h1]
  · intro pre x post id q he hT hsub hnot
    rcases snoc_split he with ⟨-, rfl, -⟩ | ⟨p, rfl, he'⟩
    · exact absurd hT.2 (ht id)
    · obtain ⟨b, hb, h1, h2⟩ := h.live pre x p id q he' hT (fun hq y hy => hsub hq y (by simp [hy]))
        (fun hq y hy => hnot hq y (by simp [hy]))
      refine ⟨b, (hmem b).2 ⟨hb, fun hid => ?_⟩, h1, h2⟩
      have hab := inc_eq h.inc hb ha hid
      subst hab
      have hiff := isSub_iff (h.sub b hb)
      rw [h2] at hiff
      rcases hw with ⟨hs, m, rfl, htag, hnm⟩ | ⟨hs, n, rfl, hn⟩
      · exact hnot (fun hq => by rw [hs] at hiff; exact absurd (hiff.2 hq) (by simp)) (Ev.recv m, o) (by simp) m rfl htag (h1 ▸ hnm)
      · exact hsub (hiff.1 hs) (Ev.unsub n, o) (by simp) n rfl (h1 ▸ hn)

/-- A subscription is answered. -/
theorem inv_mark {tr : Life} {s : St} (h : Inv tr s) (a : Ask) (ha : a ∈ s.asks) (hsb : a.sub = true) (m : Msg) (o : List Out)
    (ht : ∀ id, Out.taken id ∉ o) (hc : ∀ id t k v, Out.call id t k v ∈ o → id = a.id) :
    Inv (tr ++ [(.recv m, o)])
      { s with asks := s.asks.map fun b => if b.sno = a.sno then { b with back := b.back || b.q.wait } else b } := by
  have hf : ∀ b : Ask, (if b.sno = a.sno then { b with back := b.back || b.q.wait } else b).id = b.id ∧
      (if b.sno = a.sno then { b with back := b.back || b.q.wait } else b).sno = b.sno ∧
      (if b.sno = a.sno then { b with back := b.back || b.q.wait } else b).sub = b.sub ∧
      (if b.sno = a.sno then { b with back := b.back || b.q.wait } else b).q = b.q := by
    intro b
    split <;> exact ⟨rfl, rfl, rfl, rfl⟩
  refine ⟨h.next, Nat.le_trans h.le (askedIn_snoc tr _), ?_, ?_, ?_, ?_, ?_, ?_, ?_, ?_, ?_⟩
  · intro b hb
    obtain ⟨c, hc1, rfl⟩ := List.mem_map.1 hb
    obtain ⟨f1, f2, -, -⟩ := hf c
    rw [f1, f2]
    exact h.ids c hc1
  · rw [List.pairwise_map]
    refine h.inc.imp fun {x y} hxy => ?_
    rw [(hf x).1, (hf y).1]
    exact hxy
  · intro b hb
    obtain ⟨c, hc1, rfl⟩ := List.mem_map.1 hb
    obtain ⟨x, hx, hT⟩ := h.took c hc1
    rw [(hf c).1, (hf c).2.2.2]
    exact ⟨x, by simp [hx], hT⟩
  · intro b hb
    obtain ⟨c, hc1, rfl⟩ := List.mem_map.1 hb
    rw [(hf c).2.2.1, (hf c).2.2.2]
    exact h.sub c hc1
  · intro b hb hs
    obtain ⟨c, hc1, rfl⟩ := List.mem_map.1 hb
    rw [(hf c).2.2.1] at hs
    have hne : c.sno ≠ a.sno := by
      intro he
      rw [(h.ids c hc1).1, (h.ids a ha).1] at he
      rw [inc_eq h.inc hc1 ha he, hsb] at hs
      simp at hs
    rw [if_neg hne]
    refine ⟨(h.fresh c hc1 hs).1, fun x hx => ?_⟩
    rcases List.mem_append.1 hx with hx | hx
    · exact (h.fresh c hc1 hs).2 x hx
    · simp only [List.mem_singleton] at hx
      subst hx
      intro t k v hm
      have := hc _ t k v hm
      rw [← (h.ids c hc1).1, ← (h.ids a ha).1] at this
      exact hne this
  · intro x hx
    rcases List.mem_append.1 hx with hx | hx
    · exact h.calls x hx
    · simp only [List.mem_singleton] at hx
      subst hx
      intro id t k v hm
      rw [hc id t k v hm]
      exact (h.ids a ha).2
  · intro x hx
    rcases List.mem_append.1 hx with hx | hx
    · exact h.taken x hx
    · simp only [List.mem_singleton] at hx
      subst hx
      exact fun id hm => absurd hm (ht id)
  · rw [subsOf_snoc, ← h.list]
    simp only [subsStep, List.filter_map, List.map_map]
    have : (s.asks.filter (Ask.sub ∘ fun b => if b.sno = a.sno then { b with back := b.back || b.q.wait } else b)) =
        s.asks.filter Ask.sub := List.filter_congr fun b _ => (hf b).2.2.1
    rw [this]
    apply List.map_congr_left
    intro b _
    simp only [Function.comp, (hf b).1, (hf b).2.2.2]
  · intro pre x post id q he hT hsub hnot
    rcases snoc_split he with ⟨-, rfl, -⟩ | ⟨p, rfl, he'⟩
    · exact absurd hT.2 (ht id)
    · obtain ⟨b, hb, h1, h2⟩ := h.live pre x p id q he' hT (fun hq y hy => hsub hq y (by simp [hy]))
        (fun hq y hy => hnot hq y (by simp [hy]))
      exact ⟨_, List.mem_map.2 ⟨b, hb, rfl⟩, (hf b).1.trans h1, (hf b).2.2.2.trans h2⟩

/-- A question is asked. -/
theorem inv_ask {tr : Life} {s : St} (h : Inv tr s) (q : Query) (b : Bool) (hb : isSub q.cmd = some b) (hn : s.count < 0xFFFFFF) :
    number s = s.count ∧ (drop s (number s)).asks = s.asks ∧
      Inv (tr ++ [(.ask q, [.taken s.count, .send (message (put s b q).2)])]) (put s b q).1 := by
  have h1 : number s = s.count := by
    rw [number, h.next, Nat.mod_eq_of_lt hn]
  have h2 : (drop s (number s)).asks = s.asks := by
    simp only [drop]
    rw [List.filter_eq_self]
    intro a ha
    obtain ⟨e1, e2⟩ := h.ids a ha
    have : a.sno ≠ number s := by omega
    simp [this]
  refine ⟨h1, h2, ?_⟩
  have hasks : (put s b q).1.asks = s.asks ++ [⟨s.count, s.count, b, q, false⟩] := by
    simp only [put, h2]
    rw [h1]
  have hcount : (put s b q).1.count = s.count + 1 := rfl
  refine ⟨?_, ?_, ?_, ?_, ?_, ?_, ?_, ?_, ?_, ?_, ?_⟩
  · show (s.next + 1) % 4294967296 = s.count + 1
    rw [h.next, Nat.mod_eq_of_lt (by omega)]
  · rw [hcount]
    have := h.le
    have e : askedIn (tr ++ [(.ask q, [.taken s.count, .send (message (put s b q).2)])]) = askedIn tr + 1 := by
      simp [askedIn, asked]
    omega
  · rw [hasks, hcount]
    intro a ha
    rcases List.mem_append.1 ha with ha | ha
    · have := h.ids a ha
      exact ⟨this.1, by omega⟩
    · simp only [List.mem_singleton] at ha
      subst ha
      exact ⟨rfl, Nat.lt_succ_self _⟩
  · rw [hasks, List.pairwise_append]
    refine ⟨h.inc, by simp, fun a ha c hc => ?_⟩
    simp only [List.mem_singleton] at hc
    subst hc
    exact (h.ids a ha).2
  · rw [hasks]
    intro a ha
    rcases List.mem_append.1 ha with ha | ha
    · obtain ⟨x, hx, hT⟩ := h.took a ha
      exact ⟨x, by simp [hx], hT⟩
    · simp only [List.mem_singleton] at ha
      subst ha
      exact ⟨_, List.mem_append_right _ (List.mem_singleton.2 rfl), rfl, by simp⟩
  · rw [hasks]
    intro a ha
    rcases List.mem_append.1 ha with ha | ha
    · exact h.sub a ha
    · simp only [List.mem_singleton] at ha
      subst ha
      exact hb
  · rw [hasks]
    intro a ha hs
    rcases List.mem_append.1 ha with ha | ha
    · refine ⟨(h.fresh a ha hs).1, fun x hx => ?_⟩
      rcases List.mem_append.1 hx with hx | hx
      · exact (h.fresh a ha hs).2 x hx
      · simp only [List.mem_singleton] at hx
        subst hx
        intro t k v hm
        simp at hm
    · simp only [List.mem_singleton] at ha
      subst ha
      refine ⟨rfl, fun x hx => ?_⟩
      rcases List.mem_append.1 hx with hx | hx
      · intro t k v hm
        exact absurd (h.calls x hx _ t k v hm) (Nat.lt_irrefl _)
      · simp only [List.mem_singleton] at hx
        subst hx
        intro t k v hm
        simp at hm
  · rw [hcount]
    intro x hx
    rcases List.mem_append.1 hx with hx | hx
    · intro id t k v hm
      have := h.calls x hx id t k v hm
      omega
    · simp only [List.mem_singleton] at hx
      subst hx
      intro id t k v hm
      simp at hm
  · rw [hcount]
    intro x hx
    rcases List.mem_append.1 hx with hx | hx
    · intro id hm
      have := h.taken x hx id hm
      omega
    · simp only [List.mem_singleton] at hx
      subst hx
      intro id hm
      simp only [List.mem_cons, Out.taken.injEq, reduceCtorEq, List.not_mem_nil, or_false] at hm
      omega
  · rw [hasks, subsOf_snoc, List.filter_append, List.map_append, h.list]
    simp only [subsStep]
    cases b with
    | false =>
      have : ¬ Subscribes q.cmd := fun hq => absurd ((isSub_iff hb).2 hq) (by simp)
      rw [if_neg this]
      simp
    | true =>
      rw [if_pos ((isSub_iff hb).1 rfl)]
      simp
  · rw [hasks]
    intro pre x post id q' he hT hsub hnot
    rcases snoc_split he with ⟨-, rfl, -⟩ | ⟨p, rfl, he'⟩
    · obtain ⟨e1, e2⟩ := hT
      simp only [Ev.ask.injEq] at e1
      simp only [List.mem_cons, Out.taken.injEq, reduceCtorEq, List.not_mem_nil, or_false] at e2
      exact ⟨_, List.mem_append_right _ (List.mem_singleton.2 rfl), e2.symm, e1⟩
    · obtain ⟨c, hc, h1, h2⟩ := h.live pre x p id q' he' hT (fun hq y hy => hsub hq y (by simp [hy]))
        (fun hq y hy => hnot hq y (by simp [hy]))
      exact ⟨c, List.mem_append_left _ hc, h1, h2⟩

theorem mem_reply {a : Ask} {m : Msg} {id : Nat} {t : Int} {k v : Option Bytes} (h : Out.call id t k v ∈ reply a m) : id = a.id := by
  unfold reply at h
  split at h
  · split at h
    · simp at h
    · simp at h; exact h.1
  · split at h
    · simp at h; exact h.1
    · simp at h

theorem reply_taken {a : Ask} {m : Msg} (id : Nat) : Out.taken id ∉ reply a m := by
  unfold reply
  split
  · split <;> simp
  · split <;> simp

theorem inv_step {tr : Life} {s s' : St} {e : Ev} {o : List Out} (h : Inv tr s) (hn : askedIn (tr ++ [(e, o)]) ≤ 0xFFFFFF)
    (hs : step s e = some (s', o)) : Inv (tr ++ [(e, o)]) s' := by
  have hc : s.count ≤ 0xFFFFFF := Nat.le_trans h.le (Nat.le_trans (askedIn_snoc tr _) hn)
  cases e with
  | connected =>
    simp only [step, Option.some.injEq] at hs
    unfold connect at hs
    split at hs
    · cases hs; exact inv_keep h _ _ rfl rfl rfl (by simp) (by simp) rfl
    · cases hs; exact inv_keep h _ _ rfl rfl rfl (by simp) (by simp) rfl
    · split at hs
      · cases hs; exact inv_keep h _ _ rfl rfl rfl (by simp) (by simp) rfl
      · cases hs; exact inv_keep h _ _ rfl rfl rfl (by simp) (by simp) rfl
  | disconnect =>
    simp only [step, Option.some.injEq] at hs
    cases hs; exact inv_keep h _ _ rfl rfl rfl (by simp) (by simp) rfl
  | close =>
    simp only [step, Option.some.injEq] at hs
    cases hs; exact inv_keep h _ _ rfl rfl rfl (by simp) (by simp) rfl
  | recv m =>
    simp only [step, Option.some.injEq] at hs
    unfold recv at hs
    split at hs
    · split at hs
      · rename_i a hf
        obtain ⟨ha, hnm⟩ := (find_named h hc).1 hf
        split at hs
        · rename_i htag
          unfold answer at hs
          split at hs
          · rename_i hsb
            cases hs
            exact inv_mark h a ha hsb m _ reply_taken (fun id t k v hm => mem_reply hm)
          · rename_i hsb
            cases hs
            exact inv_drop h a ha _ _ reply_taken (fun id t k v hm => mem_reply hm)
              (.inl ⟨by simpa using hsb, m, rfl, htag, hnm⟩)
        · cases hs; exact inv_keep h _ _ rfl rfl rfl (by simp) (by simp) rfl
      · cases hs; exact inv_keep h _ _ rfl rfl rfl (by simp) (by simp) rfl
    · split at hs
      · cases hs; exact inv_keep h _ _ rfl rfl rfl (by simp) (by simp) rfl
      · cases hs; exact inv_keep h _ _ rfl rfl rfl (by simp) (by simp) rfl
    · cases hs; exact inv_keep h _ _ rfl rfl rfl (by simp) (by simp) rfl
  | ask q =>
    simp only [step] at hs
    unfold ask at hs
    split at hs
    · cases hb : isSub q.cmd with
      | none => rw [hb] at hs; simp at hs
      | some b =>
        rw [hb] at hs
        simp only [Option.map_some, Option.some.injEq] at hs
        have hlt : s.count < 0xFFFFFF := by
          have := h.le
          have e : askedIn (tr ++ [(.ask q, o)]) = askedIn tr + 1 := by simp [askedIn, asked]
          omega
        cases hs
        exact (inv_ask h q b hb hlt).2.2
    · cases hs
      refine inv_keep h _ _ rfl rfl rfl (by simp) (by simp) ?_
      simp [subsStep]
  | unsub n =>
    simp only [step, Option.some.injEq] at hs
    unfold unsub at hs
    have keep : (∀ a ∈ s.asks, a.sub = true → upTo0 n ≠ Rec.dec a.id) → Inv (tr ++ [(.unsub n, [])]) s := by
      intro hk
      refine inv_keep h _ _ rfl rfl rfl (by simp) (by simp) ?_
      simp only [subsStep]
      rw [List.filter_eq_self, ← h.list]
      intro y hy
      obtain ⟨a, ha, rfl⟩ := List.mem_map.1 hy
      rw [List.mem_filter] at ha
      have := hk a ha.1 ha.2
      simpa using fun e => this e.symm
    split at hs
    · rename_i a hf
      obtain ⟨ha, he⟩ := (find_iff h hc n a).1 hf
      split at hs
      · rename_i hsb
        cases hs
        exact inv_drop h a ha _ _ (by simp) (by simp) (.inr ⟨hsb, n, rfl, he⟩)
      · rename_i hsb
        cases hs
        refine keep fun b hb hbs hbe => hsb ?_
        rw [← inc_eq h.inc hb ha (Rec.dec_inj (hbe.symm.trans he))]
        exact hbs
    · rename_i hf
      cases hs
      refine keep fun b hb hbs hbe => ?_
      have := (find_iff h hc n b).2 ⟨hb, hbe⟩
      rw [hf] at this
      simp at this

theorem run_length {s s' : St} {evs : List Ev} {outs} (h : run s evs = some (s', outs)) : outs.length = evs.length := by
  induction evs generalizing s outs with
  | nil => simp only [run, Option.some.injEq, Prod.mk.injEq] at h; rw [← h.2]; rfl
  | cons e es ih =>
    simp only [run] at h
    cases hs : step s e with
    | none => rw [hs] at h; simp at h
    | some x =>
      rw [hs] at h
      simp only [Option.bind_some] at h
      cases hr : run x.1 es with
      | none => rw [hr] at h; simp at h
      | some y =>
        rw [hr] at h
        simp only [Option.map_some, Option.some.injEq, Prod.mk.injEq] at h
        rw [← h.2, List.length_cons, List.length_cons, ih (outs := y.2) (hr.trans (by rw [← h.1]))]

theorem run_snoc {s s' : St} {evs : List Ev} {e : Ev} {outs} (h : run s (evs ++ [e]) = some (s', outs)) :
    ∃ t o p, run s evs = some (t, o) ∧ step t e = some (s', p) ∧ outs = o ++ [p] := by
  induction evs generalizing s outs with
  | nil =>
    simp only [List.nil_append, run] at h
    cases hs : step s e with
    | none => rw [hs] at h; simp at h
    | some x =>
      rw [hs] at h
      simp only [Option.bind_some, Option.map_some, Option.some.injEq, Prod.mk.injEq] at h
      exact ⟨s, [], x.2, rfl, by rw [hs, ← h.1], by rw [← h.2]; rfl⟩
  | cons f es ih =>
    simp only [List.cons_append, run] at h
    cases hs : step s f with
    | none => rw [hs] at h; simp at h
    | some x =>
      rw [hs] at h
      simp only [Option.bind_some] at h
      cases hr : run x.1 (es ++ [e]) with
      | none => rw [hr] at h; simp at h
      | some y =>
        rw [hr] at h
        simp only [Option.map_some, Option.some.injEq, Prod.mk.injEq] at h
        obtain ⟨t, o, p, h1, h2, h3⟩ := ih (s := x.1) (outs := y.2) (hr.trans (by rw [← h.1]))
        exact ⟨t, x.2 :: o, p, by simp [run, hs, h1], h2, by rw [← h.2, h3]; rfl⟩

theorem zip_snoc {evs : List Ev} {outs : List (List Out)} (h : outs.length = evs.length) (e : Ev) (o : List Out) :
    (evs ++ [e]).zip (outs ++ [o]) = evs.zip outs ++ [(e, o)] := by
  rw [List.zip_append h.symm]; rfl

theorem inv_run {user pass : Bytes} {evs : List Ev} {s : St} {outs} (h : run (start user pass) evs = some (s, outs))
    (hn : asked evs ≤ 0xFFFFFF) : Inv (evs.zip outs) s := by
  induction evs using List.reverseRecOn generalizing s outs with
  | nil =>
    simp only [run, Option.some.injEq, Prod.mk.injEq] at h
    rw [← h.1, ← h.2]
    exact inv_start user pass
  | append_singleton es e ih =>
    obtain ⟨t, o, p, h1, h2, rfl⟩ := run_snoc h
    have hle : asked es ≤ 0xFFFFFF := by
      simp only [asked, List.countP_append] at hn ⊢
      omega
    rw [zip_snoc (run_length h1)]
    refine inv_step (ih h1 hle) ?_ h2
    rw [← zip_snoc (run_length h1), askedIn, List.map_fst_zip (by simp [run_length h1])]
    exact hn

theorem takenIn_snoc (outs : List (List Out)) (o : List Out) :
    takenIn (outs ++ [o]) = takenIn outs + o.countP isTaken := by
  simp [takenIn, List.countP_append]

theorem step_count {s s' : St} {e : Ev} {o : List Out} (h : step s e = some (s', o)) :
    s'.count = s.count + o.countP isTaken ∧ s'.user = s.user ∧ s'.pass = s.pass := by
  cases e with
  | connected =>
    simp only [step, Option.some.injEq] at h
    unfold connect at h
    split at h
    · cases h; simp [isTaken]
    · cases h; simp [isTaken]
    · split at h <;> cases h <;> simp [isTaken]
  | disconnect => simp only [step, Option.some.injEq] at h; cases h; simp [isTaken]
  | close => simp only [step, Option.some.injEq] at h; cases h; simp [isTaken]
  | recv m =>
    simp only [step, Option.some.injEq] at h
    have hrep : ∀ a, (reply a m).countP isTaken = 0 := by
      intro a
      rw [List.countP_eq_zero]
      intro x hx
      cases x with
      | taken id => exact absurd hx (reply_taken id)
      | _ => simp [isTaken]
    unfold recv at h
    split at h
    · split at h
      · split at h
        · unfold answer at h
          split at h <;> cases h <;> simp [hrep, drop]
        · cases h; simp [isTaken]
      · cases h; simp [isTaken]
    · split at h
      · cases h; simp; exact fun _ _ _ => rfl
      · cases h; simp [isTaken]
    · cases h; simp [isTaken]
  | ask q =>
    simp only [step] at h
    unfold ask at h
    split at h
    · cases hb : isSub q.cmd with
      | none => rw [hb] at h; simp at h
      | some b =>
        rw [hb] at h
        simp only [Option.map_some, Option.some.injEq] at h
        cases h
        exact ⟨rfl, rfl, rfl⟩
    · cases h; simp [isTaken]
  | unsub n =>
    simp only [step, Option.some.injEq] at h
    unfold unsub at h
    split at h
    · split at h
      · cases h; simp [drop, isTaken]
      · cases h; simp [isTaken]
    · cases h; simp [isTaken]

theorem run_count {user pass : Bytes} {evs : List Ev} {s : St} {outs} (h : run (start user pass) evs = some (s, outs)) :
    s.count = takenIn outs ∧ s.user = cut32 user ∧ s.pass = cut32 pass := by
  induction evs using List.reverseRecOn generalizing s outs with
  | nil =>
    simp only [run, Option.some.injEq, Prod.mk.injEq] at h
    rw [← h.1, ← h.2]
    exact ⟨rfl, rfl, rfl⟩
  | append_singleton es e ih =>
    obtain ⟨t, o, p, h1, h2, rfl⟩ := run_snoc h
    obtain ⟨e1, e2, e3⟩ := ih h1
    obtain ⟨f1, f2, f3⟩ := step_count h2
    exact ⟨by rw [takenIn_snoc, f1, e1], by rw [f2, e2], by rw [f3, e3]⟩

/-! ### The state of the connection -/

theorem lately_snoc (evs : List Ev) (e : Ev) : lately (evs ++ [e]) = if e = .disconnect then [] else lately evs ++ [e] := by
  unfold lately
  rw [List.reverse_append]
  simp only [List.reverse_cons, List.reverse_nil, List.nil_append, List.singleton_append, List.takeWhile_cons]
  by_cases h : e = .disconnect <;> simp [h]

/-- Connected, and then an answer that says yes. -/
def Greeted (c : List Ev) : Prop := ∃ a b m, c = a ++ .connected :: b ∧ .recv m ∈ b ∧ m.sw.tag = true ∧ m.tag = 0

theorem greeted_snoc (c : List Ev) (e : Ev) :
    Greeted (c ++ [e]) ↔ Greeted c ∨ (.connected ∈ c ∧ ∃ m, e = .recv m ∧ m.sw.tag = true ∧ m.tag = 0) := by
  constructor
  · rintro ⟨a, b, m, h1, h2, h3, h4⟩
    rcases snoc_split h1 with ⟨rfl, -, -⟩ | ⟨p, rfl, rfl⟩
    · simp at h2
    · rcases List.mem_append.1 h2 with h2 | h2
      · exact .inl ⟨a, p, m, rfl, h2, h3, h4⟩
      · exact .inr ⟨by simp, m, (List.mem_singleton.1 h2).symm, h3, h4⟩
  · rintro (⟨a, b, m, h1, h2, h3, h4⟩ | ⟨h1, m, rfl, h3, h4⟩)
    · exact ⟨a, b ++ [e], m, by rw [h1]; simp, by simp [h2], h3, h4⟩
    · obtain ⟨a, b, rfl⟩ := List.append_of_mem h1
      exact ⟨a, b ++ [.recv m], m, by simp, by simp, h3, h4⟩

/-- Which state the client is in. -/
structure Where (creds : Bool) (c : List Ev) (t : Status) : Prop where
  exit : t = .exit ↔ .close ∈ c
  work : t = .work ↔ .close ∉ c ∧ if creds then Greeted c else .connected ∈ c
  init : t = .init ↔ .close ∉ c ∧ .connected ∉ c

theorem greeted_conn {c : List Ev} (h : Greeted c) : .connected ∈ c := by
  obtain ⟨a, b, m, rfl, -⟩ := h
  simp

theorem where_step {creds : Bool} {c : List Ev} {s s' : St} {e : Ev} {o : List Out} (hc : s.auth = creds) (h : Where creds c s.status)
    (hs : step s e = some (s', o)) : Where creds (if e = .disconnect then [] else c ++ [e]) s'.status := by
  have hng : ¬ Greeted [] := by rintro ⟨a, b, m, h1, -⟩; simp at h1
  have keep : ∀ t : Status, t = s.status → (∀ m, e ≠ .recv m) ∨ s.status = .work ∨ .connected ∉ c ∨ (∀ m, e = .recv m → ¬ (m.sw.tag = true ∧ m.tag = 0)) ∨ creds = false ∨ .close ∈ c →
      e ≠ .close → (e = .connected → s.status = .work ∨ s.status = .exit) → Where creds (c ++ [e]) t := by
    rintro t rfl hr h1 h2
    have hcl : (.close ∈ c ++ [e] ↔ .close ∈ c) := by
      simp only [List.mem_append, List.mem_singleton]
      exact ⟨fun x => x.resolve_right (fun y => h1 y.symm), .inl⟩
    have hco : (.close ∉ c) → (.connected ∈ c ++ [e] ↔ .connected ∈ c) := by
      intro hnc
      simp only [List.mem_append, List.mem_singleton]
      refine ⟨fun x => x.elim id fun y => ?_, .inl⟩
      rcases h2 y.symm with hw | hw
      · have := (h.work.1 hw).2
        split at this
        · exact greeted_conn this
        · exact this
      · exact absurd (h.exit.1 hw) hnc
    refine ⟨by rw [hcl]; exact h.exit, ?_, ?_⟩
    · rw [hcl, h.work]
      refine and_congr_right fun hnc => ?_
      split
      · rename_i hcr
        rw [greeted_snoc]
        refine ⟨.inl, fun x => x.elim id fun ⟨y1, m, y2, y3, y4⟩ => ?_⟩
        rcases hr with hr | hr | hr | hr | hr | hr
        · exact absurd y2 (hr m)
        · have := (h.work.1 hr).2
          rwa [if_pos hcr] at this
        · exact absurd y1 hr
        · exact absurd ⟨y3, y4⟩ (hr m y2)
        · rw [hr] at hcr; simp at hcr
        · exact absurd hr hnc
      · exact (hco hnc).symm
    · rw [hcl, h.init]
      refine and_congr_right fun hnc => ?_
      rw [hco hnc]
  cases e with
  | disconnect =>
    simp only [step, Option.some.injEq] at hs
    cases hs
    rw [if_pos rfl]
    refine ⟨by simp, ?_, by simp⟩
    cases creds <;> simp [hng]
  | close =>
    simp only [step, Option.some.injEq] at hs
    cases hs
    rw [if_neg (by simp)]
    exact ⟨by simp, by simp, by simp⟩
  | connected =>
    rw [if_neg (by simp)]
    simp only [step, Option.some.injEq] at hs
    unfold connect at hs
    split at hs
    · rename_i hw
      cases hs
      exact keep _ rfl (.inl (by simp)) (by simp) (fun _ => .inl hw)
    · rename_i hw
      cases hs
      exact keep _ rfl (.inl (by simp)) (by simp) (fun _ => .inr hw)
    · rename_i hw hx
      have hnc : .close ∉ c := fun y => hx (h.exit.2 y)
      split at hs
      · rename_i hau
        cases hs
        have hcr : creds = true := by rw [← hc, hau]
        have hg : ¬ Greeted c := by
          intro hg
          refine hw (h.work.2 ⟨hnc, ?_⟩)
          rw [if_pos hcr]; exact hg
        refine ⟨by simp [hnc], ?_, by simp⟩
        rw [if_pos hcr, greeted_snoc]
        simp [hg]
      · rename_i hau
        cases hs
        have hcr : creds = false := by rw [← hc]; simpa using hau
        refine ⟨by simp [hnc], by simp [hcr, hnc], by simp⟩
  | ask q =>
    rw [if_neg (by simp)]
    simp only [step] at hs
    unfold ask at hs
    split at hs
    · cases hb : isSub q.cmd with
      | none => rw [hb] at hs; simp at hs
      | some b =>
        rw [hb] at hs
        simp only [Option.map_some, Option.some.injEq] at hs
        cases hs
        exact keep _ rfl (.inl (by simp)) (by simp) (by simp)
    · cases hs; exact keep _ rfl (.inl (by simp)) (by simp) (by simp)
  | unsub n =>
    rw [if_neg (by simp)]
    simp only [step, Option.some.injEq] at hs
    unfold unsub at hs
    split at hs
    · split at hs
      · cases hs; exact keep _ rfl (.inl (by simp)) (by simp) (by simp)
      · cases hs; exact keep _ rfl (.inl (by simp)) (by simp) (by simp)
    · cases hs; exact keep _ rfl (.inl (by simp)) (by simp) (by simp)
  | recv m =>
    rw [if_neg (by simp)]
    simp only [step, Option.some.injEq] at hs
    unfold recv at hs
    split at hs
    · rename_i hw
      split at hs
      · split at hs
        · unfold answer at hs
          split at hs
          · cases hs; exact keep _ rfl (.inr (.inl hw)) (by simp) (by simp)
          · cases hs; exact keep _ rfl (.inr (.inl hw)) (by simp) (by simp)
        · cases hs; exact keep _ rfl (.inr (.inl hw)) (by simp) (by simp)
      · cases hs; exact keep _ rfl (.inr (.inl hw)) (by simp) (by simp)
    · rename_i hw
      have hnc : .close ∉ c := fun y => by rw [h.exit.2 y] at hw; simp at hw
      have hcon : .connected ∈ c := by
        refine Decidable.byContradiction fun y => ?_
        rw [h.init.2 ⟨hnc, y⟩] at hw
        simp at hw
      split at hs
      · rename_i hok
        cases hs
        refine ⟨by simp [hnc], ?_, by simp [hcon]⟩
        simp only [List.mem_append, hnc, List.mem_singleton, reduceCtorEq, or_self, not_false_eq_true, true_and, true_iff]
        split
        · rw [greeted_snoc]; exact .inr ⟨hcon, m, rfl, hok⟩
        · simp [hcon]
      · rename_i hok
        cases hs
        exact keep _ rfl (.inr (.inr (.inr (.inl fun m' hm => by cases hm; exact hok)))) (by simp) (by simp)
    · rename_i hw1 hw2
      cases hs
      refine keep _ rfl ?_ (by simp) (by simp)
      cases hst : s.status with
      | work => exact absurd hst hw1
      | auth => exact absurd hst hw2
      | init => exact .inr (.inr (.inl (h.init.1 hst).2))
      | exit => exact .inr (.inr (.inr (.inr (.inr (h.exit.1 hst)))))

end Sis.Cli
