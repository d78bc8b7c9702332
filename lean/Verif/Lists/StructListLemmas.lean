import Verif.Lists.StructList
/-
Helper lemmas: every operation of the record array on a buffer that holds the list `l`.
-/
namespace Sis.SL

variable {α : Type}

/-- The buffer holds exactly the records of `l`. -/
structure Rep (s : SList α) (l : List α) : Prop where
  count : s.count = l.length
  fit : s.start + l.length ≤ s.buf.length
  data : (s.buf.drop s.start).take l.length = l.map some

theorem blit_eq {buf src : List (Option α)} {dst : Nat} (h : dst + src.length ≤ buf.length) :
    blit buf dst src = some (buf.take dst ++ src ++ buf.drop (dst + src.length)) := if_pos h

theorem slots_eq {buf : List (Option α)} {a n : Nat} (h : a + n ≤ buf.length) :
    slots buf a n = some ((buf.drop a).take n) := if_pos h

theorem Rep.slots {s : SList α} {l : List α} (r : Rep s l) : slots s.buf s.start s.count = some (l.map some) := by
  rw [r.count, slots_eq r.fit, r.data]

/-- A buffer that starts with the records. -/
theorem rep_front {s : SList α} {l : List α} {rest : List (Option α)} (hb : s.buf = l.map some ++ rest) (hs : s.start = 0)
    (hc : s.count = l.length) : Rep s l := by
  refine ⟨hc, by simp [hb, hs], ?_⟩
  rw [hb, hs, List.drop_zero, List.take_append_of_le_length (by simp)]
  rw [List.take_of_length_le (by simp)]

/-- Another way to read `Rep`: before the records, the records, behind them. -/
theorem rep_iff {s : SList α} {l : List α} :
    Rep s l ↔ s.count = l.length ∧ ∃ a b, a.length = s.start ∧ s.buf = a ++ l.map some ++ b := by
  constructor
  · intro r
    refine ⟨r.count, s.buf.take s.start, s.buf.drop (s.start + l.length), ?_, ?_⟩
    · simp; have := r.fit; omega
    · have h1 := List.take_append_drop s.start s.buf
      have h2 := List.take_append_drop l.length (s.buf.drop s.start)
      rw [r.data, List.drop_drop] at h2
      rw [List.append_assoc, h2, h1]
  · rintro ⟨hc, a, b, ha, hb⟩
    refine ⟨hc, by simp [hb]; omega, ?_⟩
    rw [hb, ← ha, List.append_assoc, List.drop_left, List.take_append_of_le_length (by simp),
      List.take_of_length_le (by simp)]

theorem split_at (a b : List (Option α)) (l : List α) (k : Nat) :
    a ++ l.map some ++ b = (a ++ (l.take k).map some) ++ ((l.drop k).map some ++ b) := by
  conv => lhs; rw [← List.take_append_drop k l]
  simp only [List.map_append, List.append_assoc]

theorem le_newMax (n : Nat) : n ≤ newMax n := by
  unfold newMax
  repeat (split <;> try omega)

theorem newMax_le (n : Nat) (h : 1 ≤ n) : newMax n ≤ 16 * n := by
  unfold newMax
  split; · omega
  split
  · omega
  split; · omega
  split; · omega
  split; · omega
  omega

theorem compact_spec {s : SList α} {l : List α} (r : Rep s l) :
    ∃ s', compact s = some s' ∧ Rep s' l ∧ s'.start = 0 ∧ s'.len = s.len := by
  unfold compact
  rw [r.slots]
  simp only [Option.bind_eq_bind, Option.bind_some]
  rw [blit_eq (by have := r.fit; simp; omega)]
  exact ⟨_, rfl, rep_front (rest := s.buf.drop (0 + (l.map some).length)) (by simp) rfl r.count, rfl, rfl⟩

theorem enlarge_spec {s : SList α} {l : List α} (r : Rep s l) (add : Nat)
    (h0 : s.start = 0 ∨ s.start + l.length + add ≤ s.buf.length)
    (hsz : newMax (l.length + add) * s.len < intMax) :
    ∃ s', enlarge s add = some s' ∧ Rep s' l ∧ s'.start + l.length + add ≤ s'.buf.length ∧ s'.len = s.len := by
  have hc1 := r.count
  unfold enlarge
  by_cases h2 : s.start + s.count + add ≤ s.buf.length
  · simp only [if_pos h2]
    exact ⟨s, rfl, r, by omega, rfl⟩
  · simp only [if_neg h2]
    have h0 : s.start = 0 := by rcases h0 with h | h <;> omega
    have hn : s.start + s.count + add = l.length + add := by omega
    rw [hn, if_pos hsz]
    have hle := le_newMax (l.length + add)
    by_cases hpos : s.count > 0
    · rw [if_pos hpos, r.slots]
      simp only [Option.bind_eq_bind, Option.bind_some]
      rw [blit_eq (by simp; omega)]
      refine ⟨_, rfl, rep_front (rest := List.drop (0 + (l.map some).length) (List.replicate (newMax (l.length + add)) none)) (by simp) rfl hc1, ?_, rfl⟩
      simp; omega
    · rw [if_neg hpos]
      have hl : l = [] := List.length_eq_zero_iff.1 (by omega)
      refine ⟨_, rfl, rep_front (rest := List.replicate (newMax (l.length + add)) none) (by simp [hl]) rfl hc1, ?_, rfl⟩
      simp [hl] at hle ⊢; omega

/-- `_struct_list_grow` keeps the records and makes room. -/
theorem grow_spec {s : SList α} {l : List α} (r : Rep s l) (add : Nat)
    (hsz : newMax (l.length + add) * s.len < intMax) :
    ∃ s', grow s add = some s' ∧ Rep s' l ∧ s'.start + l.length + add ≤ s'.buf.length ∧ s'.len = s.len := by
  have hc := r.count
  unfold grow
  by_cases hcond : s.start + s.count + add > s.buf.length ∧ s.start > 0
  · rw [if_pos hcond]
    obtain ⟨s1, he, r1, h0, hlen⟩ := compact_spec r
    rw [he, Option.bind_some]
    obtain ⟨s2, h1, h2, h3, h4⟩ := enlarge_spec r1 add (Or.inl h0) (by rw [hlen]; exact hsz)
    exact ⟨s2, h1, h2, h3, h4.trans hlen⟩
  · rw [if_neg hcond]
    exact enlarge_spec r add (by omega) hsz

theorem pushs_spec {s : SList α} {l : List α} (r : Rep s l) (rs : List α)
    (hsz : newMax (l.length + rs.length) * s.len < intMax) :
    ∃ s', pushs s rs = some (s', ((l ++ rs).length : Int) - 1) ∧ Rep s' (l ++ rs) ∧ s'.len = s.len := by
  obtain ⟨s1, he, r1, hroom, hlen⟩ := grow_spec r rs.length hsz
  unfold pushs
  simp only [he, Option.bind_eq_bind, Option.bind_some]
  have hc := r1.count
  rw [blit_eq (by simp; omega)]
  simp only [Option.bind_some, List.length_append]
  rw [← hc]
  push_cast
  refine ⟨_, rfl, ?_, hlen⟩
  obtain ⟨_, a, b, ha, hb⟩ := rep_iff.1 r1
  refine rep_iff.2 ⟨by simp [hc], a, b.drop rs.length, ha, ?_⟩
  have e1 : s1.count + s1.start = (a ++ l.map some).length := by simp [ha]; omega
  simp only
  rw [e1, hb, List.take_left, List.length_map, List.drop_append]
  simp

theorem update_spec {s : SList α} {l : List α} (r : Rep s l) (i : Int) (x : α) :
    ∃ s', update s i x = some (s', if 0 ≤ i ∧ i < l.length then i else -1) ∧
      Rep s' (if 0 ≤ i ∧ i < l.length then l.set i.toNat x else l) ∧ s'.len = s.len := by
  unfold update
  rw [r.count]
  by_cases h : 0 ≤ i ∧ i < l.length
  · simp only [if_pos h]
    have hfit := r.fit
    obtain ⟨hc, a, b, ha, hb⟩ := rep_iff.1 r
    have hi : i.toNat < l.length := by omega
    rw [blit_eq (by simp; omega)]
    refine ⟨_, rfl, rep_iff.2 ⟨by simp [hc], a, b, ha, ?_⟩, rfl⟩
    simp only [Option.bind_eq_bind, List.length_singleton]
    obtain ⟨l1, y, l2, rfl, hl1⟩ : ∃ l1 y l2, l = l1 ++ y :: l2 ∧ l1.length = i.toNat :=
      ⟨l.take i.toNat, l[i.toNat], l.drop (i.toNat + 1), by simp, by simp; omega⟩
    have e1 : i.toNat + s.start = (a ++ l1.map some).length := by simp [ha]; omega
    rw [← hl1] at e1 ⊢
    have hb' : s.buf = (a ++ l1.map some) ++ (some y :: (l2.map some ++ b)) := by rw [hb]; simp
    rw [e1, hb', List.take_left, List.drop_append]
    simp
  · simp only [if_neg h]
    exact ⟨s, rfl, r, rfl⟩

theorem inserts_spec {s : SList α} {l : List α} (r : Rep s l) (i : Int) (rs : List α)
    (hsz : newMax (l.length + rs.length) * s.len < intMax) :
    ∃ s', inserts s i rs = some (s', if l.length < 1 ∨ i > (l.length : Int) - 1 then ((l ++ rs).length : Int) - 1
        else if i < 0 then 0 else i) ∧
      Rep s' (l.take i.toNat ++ rs ++ l.drop i.toNat) ∧ s'.len = s.len := by
  unfold inserts
  rw [r.count]
  by_cases h : l.length < 1 ∨ i > (l.length : Int) - 1
  · rw [if_pos h, if_pos h]
    obtain ⟨s', h1, h2, h3⟩ := pushs_spec r rs hsz
    refine ⟨s', h1, ?_, h3⟩
    have : l.take i.toNat = l ∧ l.drop i.toNat = [] := by
      rcases h with h | h
      · have : l = [] := List.length_eq_zero_iff.1 (by omega)
        simp [this]
      · constructor
        · rw [List.take_of_length_le (by omega)]
        · rw [List.drop_eq_nil_iff]; omega
    rw [this.1, this.2, List.append_nil]
    exact h2
  · rw [if_neg h, if_neg h]
    obtain ⟨s1, he, r1, hroom, hlen⟩ := grow_spec r rs.length hsz
    simp only [he, Option.bind_eq_bind, Option.bind_some]
    have hi : (if i < 0 then 0 else i.toNat) = i.toNat := by split <;> omega
    have hi2 : ((if i < 0 then 0 else i.toNat : Nat) : Int) = if i < 0 then 0 else i := by split <;> omega
    simp only [hi] at hi2 ⊢
    obtain ⟨k, hk⟩ : ∃ k, i.toNat = k := ⟨_, rfl⟩
    rw [hk] at hi2 ⊢
    have hkl : k < l.length := by omega
    obtain ⟨hc, a, b, ha, hb⟩ := rep_iff.1 r1
    rw [slots_eq (by omega)]
    simp only [Option.bind_some]
    have hb' : s1.buf = (a ++ (l.take k).map some) ++ ((l.drop k).map some ++ b) := by
      exact hb.trans (split_at a b l _)
    have e1 : k + s1.start = (a ++ (l.take k).map some).length := by simp [ha]; omega
    have e2 : (List.drop (k + s1.start) s1.buf).take (s1.count - k) = (l.drop k).map some := by
      rw [hb', e1, List.drop_left, List.take_append_of_le_length (by simp; omega), List.take_of_length_le (by simp; omega)]
    rw [e2, blit_eq (by simp; omega)]
    simp only [Option.bind_some]
    obtain ⟨c, hcdef⟩ : ∃ c, List.take rs.length ((l.drop k).map some ++ b) = c := ⟨_, rfl⟩
    have hbl : rs.length ≤ b.length := by
      have := congrArg List.length hb
      simp at this; omega
    have hclen : c.length = rs.length := by rw [← hcdef]; simp; omega
    have e3 : List.take (k + s1.start + rs.length) s1.buf = a ++ (l.take k).map some ++ c := by
      rw [hb', e1, List.take_append, List.take_of_length_le (by omega), Nat.add_sub_cancel_left, hcdef]
    rw [e3, blit_eq (by simp [ha]; omega)]
    rw [← hi2]
    simp only [Option.bind_some]
    obtain ⟨t, ht⟩ : ∃ t, List.drop (k + s1.start + rs.length + (List.map some (List.drop k l)).length) s1.buf = t := ⟨_, rfl⟩
    rw [ht, e1]
    refine ⟨_, rfl, rep_iff.2 ⟨by simp [hc]; omega, a, t, ha, ?_⟩, hlen⟩
    simp only [List.append_assoc (a ++ List.map some (List.take k l))]
    rw [List.take_left, List.length_map, ← List.drop_drop, List.drop_left, ← hclen, List.append_assoc c, List.drop_left]
    simp

theorem get_spec {s : SList α} {l : List α} (r : Rep s l) (i : Int) :
    get s i = some (if 0 ≤ i then l[i.toNat]? else none) := by
  unfold get
  rw [r.count]
  by_cases h : 0 ≤ i ∧ i < l.length
  · rw [if_pos h, if_pos h.1]
    obtain ⟨_, a, b, ha, hb⟩ := rep_iff.1 r
    have hi : i.toNat < l.length := by omega
    have : s.buf[i.toNat + s.start]? = some (some l[i.toNat]) := by
      rw [hb, ← ha, List.append_assoc, List.getElem?_append_right (by omega), Nat.add_sub_cancel,
        List.getElem?_append_left (by simpa using hi), List.getElem?_map, List.getElem?_eq_getElem hi]
      rfl
    rw [this, List.getElem?_eq_getElem hi]
  · rw [if_neg h]
    split
    · rw [List.getElem?_eq_none (by omega)]
    · rfl

theorem pop_spec {s : SList α} {l : List α} (r : Rep s l) :
    ∃ s', pop s = some (s', l.head?) ∧ Rep s' l.tail ∧ s'.len = s.len := by
  obtain ⟨hc, a, b, ha, hb⟩ := rep_iff.1 r
  unfold pop
  cases l with
  | nil => rw [if_neg (by simp [hc])]; exact ⟨s, rfl, r, rfl⟩
  | cons x l =>
    rw [if_pos (by simp [hc])]
    have : s.buf[s.start]? = some (some x) := by rw [hb, ← ha]; simp
    rw [this]
    refine ⟨_, rfl, rep_iff.2 ⟨by simp [hc], a ++ [some x], b, by simp [ha], by simp [hb]⟩, rfl⟩

theorem delete_spec {s : SList α} {l : List α} (r : Rep s l) (i n : Int) :
    ∃ s', delete s i n = some (s', if i < 0 ∨ n < 1 ∨ i + n > l.length then 0 else n) ∧
      Rep s' (if i < 0 ∨ n < 1 ∨ i + n > l.length then l else l.take i.toNat ++ l.drop (i + n).toNat) ∧ s'.len = s.len := by
  unfold delete
  rw [r.count]
  by_cases h : i < 0 ∨ n < 1 ∨ i + n > l.length
  · simp only [if_pos h]; exact ⟨s, rfl, r, rfl⟩
  · simp only [if_neg h]
    have h1 : ∃ s1 : SList α, front s = some s1 ∧ Rep s1 l ∧ s1.start = 0 ∧ s1.len = s.len := by
      unfold front
      by_cases hs : s.start > 0
      · rw [if_pos hs]; exact compact_spec r
      · rw [if_neg hs]; exact ⟨s, rfl, r, by omega, rfl⟩
    obtain ⟨s1, he, r1, h0, hlen⟩ := h1
    simp only [he, Option.bind_eq_bind, Option.bind_some]
    obtain ⟨hc, a, b, ha, hb⟩ := rep_iff.1 r1
    have ha0 : a = [] := List.length_eq_zero_iff.1 (by omega)
    subst ha0
    rw [List.nil_append] at hb
    obtain ⟨k, hk⟩ : ∃ k, i.toNat = k := ⟨_, rfl⟩
    obtain ⟨m, hm⟩ : ∃ m, n.toNat = m := ⟨_, rfl⟩
    have hkm : (i + n).toNat = k + m := by omega
    rw [hk, hm, hkm]
    have hbl := congrArg List.length hb
    simp only [List.length_append, List.length_map] at hbl
    rw [slots_eq (by omega)]
    simp only [Option.bind_some]
    have e2 : (List.drop (k + m) s1.buf).take (s1.count - m - k) = (l.drop (k + m)).map some := by
      rw [hb, List.drop_append_of_le_length (by simp; omega), List.take_append_of_le_length (by simp; omega),
        List.take_of_length_le (by simp; omega), List.map_drop]
    rw [e2, blit_eq (by simp; omega)]
    refine ⟨_, rfl, rep_iff.2 ⟨by simp [hc]; omega, [], s1.buf.drop (k + ((l.drop (k + m)).map some).length), h0.symm, ?_⟩, hlen⟩
    simp only [List.nil_append]
    rw [List.map_append, hb, List.take_append_of_le_length (by simp; omega), List.map_take]

theorem clear_spec {s : SList α} : Rep (clear s) ([] : List α) := ⟨rfl, by simp [clear], by simp⟩

theorem rect_spec {s : SList α} {l : List α} (r : Rep s l) (n : Int) :
    ∃ s', rect s n = some s' ∧ Rep s' (if n < 1 ∨ n > l.length then l else l.drop (l.length - n.toNat)) ∧ s'.len = s.len := by
  unfold rect
  rw [r.count]
  by_cases h : n < 1 ∨ n > l.length
  · simp only [if_pos h]; exact ⟨s, rfl, r, rfl⟩
  · simp only [if_neg h]
    obtain ⟨hc, a, b, ha, hb⟩ := rep_iff.1 r
    obtain ⟨m, hm⟩ : ∃ m, n.toNat = m := ⟨_, rfl⟩
    rw [hm]
    have hml : m ≤ l.length := by omega
    have hb' : s.buf = (a ++ (l.take (l.length - m)).map some) ++ ((l.drop (l.length - m)).map some ++ b) := by
      exact hb.trans (split_at a b l _)
    have hlen1 : (a ++ (l.take (l.length - m)).map some).length = s.start + l.length - m := by simp [ha]; omega
    by_cases h2 : s.start + l.length - m > m
    · rw [if_pos h2, slots_eq (by have := r.fit; omega)]
      simp only [Option.bind_eq_bind, Option.bind_some]
      have e2 : (List.drop (s.start + l.length - m) s.buf).take m = (l.drop (l.length - m)).map some := by
        rw [hb', ← hlen1, List.drop_left, List.take_append_of_le_length (by simp; omega),
          List.take_of_length_le (by simp; omega)]
      rw [e2, blit_eq (by have := r.fit; simp; omega)]
      exact ⟨_, rfl, rep_front (rest := s.buf.drop (0 + ((l.drop (l.length - m)).map some).length)) (by simp) rfl (by simp; omega), rfl⟩
    · rw [if_neg h2]
      exact ⟨_, rfl, rep_iff.2 ⟨by simp; omega, _, b, hlen1, by rw [hb']; simp only [List.append_assoc]⟩, rfl⟩

theorem limit_spec {s : SList α} {l : List α} (r : Rep s l) (n : Int) :
    Rep (limit s n) (if n < 1 ∨ n > l.length then l else l.drop (l.length - n.toNat)) ∧ (limit s n).len = s.len := by
  unfold limit
  rw [r.count]
  by_cases h : n < 1 ∨ n > l.length
  · simp only [if_pos h]; exact ⟨r, trivial⟩
  · simp only [if_neg h]
    obtain ⟨hc, a, b, ha, hb⟩ := rep_iff.1 r
    obtain ⟨m, hm⟩ : ∃ m, n.toNat = m := ⟨_, rfl⟩
    rw [hm]
    have hml : m ≤ l.length := by omega
    refine ⟨rep_iff.2 ⟨by simp; omega, a ++ (l.take (l.length - m)).map some, b, by simp [ha]; omega, ?_⟩, trivial⟩
    simp only
    rw [List.append_assoc]
    exact hb.trans (split_at a b l _)

theorem pack_spec {s : SList α} {l : List α} (r : Rep s l) :
    ∃ s', pack s = some (s', (l.length : Int)) ∧ Rep s' l ∧ s'.len = s.len := by
  unfold pack
  by_cases h : s.count > 0
  · rw [if_pos h, r.slots]
    simp only [Option.bind_eq_bind, Option.bind_some]
    rw [r.count]
    exact ⟨_, rfl, rep_front (rest := []) (by simp) rfl rfl, rfl⟩
  · rw [if_neg h]
    have hl : l = [] := List.length_eq_zero_iff.1 (by have := r.count; omega)
    subst hl
    exact ⟨_, rfl, rep_front (rest := []) (by simp) rfl rfl, rfl⟩

theorem set_spec (s : SList α) {l : List α} (r : Rep s l) (rs : List α) (hsz : rs.length * s.len < intMax) :
    ∃ s', set s rs = some (s', (rs.length : Int)) ∧ Rep s' (if rs = [] then l else rs) ∧ s'.len = s.len := by
  unfold set
  cases rs with
  | nil => exact ⟨s, by simp, by simpa using r, rfl⟩
  | cons x rs =>
    rw [if_neg (by simp), if_pos hsz, blit_eq (by simp)]
    refine ⟨_, rfl, ?_, rfl⟩
    rw [if_neg (by simp)]
    exact rep_front (rest := []) (by simp) rfl rfl

theorem mapM_id_some (l : List α) : (l.map some).mapM id = some l := by
  induction l with
  | nil => rfl
  | cons x l ih => simp [List.mapM_cons, ih]

theorem clone_spec {src s : SList α} {l0 l : List α} (r0 : Rep src l0) (r : Rep s l) (hsz : l0.length * s.len < intMax) :
    ∃ s', clone src s = some (s', (l0.length : Int)) ∧ Rep s' (if l0 = [] then l else l0) ∧ s'.len = s.len := by
  obtain ⟨s', h1, h2, h3⟩ := set_spec s r l0 hsz
  unfold clone
  rw [r0.slots]
  simp only [Option.bind_eq_bind, Option.bind_some, mapM_id_some, h1]
  exact ⟨s', by rw [r0.count], h2, h3⟩

end Sis.SL
