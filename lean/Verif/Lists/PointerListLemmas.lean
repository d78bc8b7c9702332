import Verif.Lists.PointerList
/-
Helper lemmas: every operation of the pointer array on a buffer that holds the list `l`.
-/
namespace Sis.PL
open Sis.SL (blit slots intMax blit_eq slots_eq mapM_id_some split_at)

variable {α : Type}

/-- The buffer holds exactly the elements of `l`. -/
def Rep (s : PList α) (l : List α) : Prop := s.count = l.length ∧ ∃ b, s.buf = l.map some ++ b

theorem Rep.count {s : PList α} {l : List α} (r : Rep s l) : s.count = l.length := r.1

theorem Rep.fit {s : PList α} {l : List α} (r : Rep s l) : l.length ≤ s.buf.length := by
  obtain ⟨_, b, h⟩ := r
  rw [h]; simp

theorem rep_create (vf : Bool) : Rep (create vf : PList α) [] := ⟨rfl, [], rfl⟩

theorem elems_spec {s : PList α} {l : List α} (r : Rep s l) (a n : Nat) (h : a + n ≤ l.length) :
    elems s a n = some ((l.drop a).take n) := by
  obtain ⟨hc, b, hb⟩ := r
  unfold elems
  rw [slots_eq (by rw [hb]; simp; omega), Option.bind_some, hb, List.drop_append_of_le_length (by simp; omega),
    List.take_append_of_le_length (by simp; omega), ← List.map_drop, ← List.map_take, mapM_id_some]

theorem elems_all {s : PList α} {l : List α} (r : Rep s l) : elems s 0 s.count = some l := by
  rw [elems_spec r 0 s.count (by rw [r.1]; omega), r.1, List.drop_zero, List.take_length]

theorem clear_spec {s : PList α} {l : List α} (r : Rep s l) :
    ∃ s', clear s = some (s', freed s.vf l) ∧ Rep s' [] ∧ s'.vf = s.vf := by
  unfold clear
  rw [elems_all r]
  exact ⟨_, rfl, ⟨rfl, s.buf, rfl⟩, rfl⟩

theorem grow_spec {s : PList α} {l : List α} (r : Rep s l) (n : Nat) (hsz : (n + 1280) * 8 < intMax) :
    ∃ s', grow s n = some s' ∧ Rep s' l ∧ n ≤ s'.buf.length ∧ s'.vf = s.vf := by
  obtain ⟨hc, b, hb⟩ := r
  unfold grow
  by_cases h : n < s.buf.length
  · rw [if_pos h]; exact ⟨s, rfl, ⟨hc, b, hb⟩, by omega, rfl⟩
  · simp only [if_neg h]
    obtain ⟨m, hm⟩ : ∃ m, (if n < 256 then 256 else n + 1024) = m := ⟨_, rfl⟩
    have hmn : n ≤ m ∧ m ≤ n + 1280 := by split at hm <;> omega
    rw [hm, if_pos (by omega), blit_eq (by simp; omega)]
    simp only [Option.bind_eq_bind, Option.bind_some]
    refine ⟨_, rfl, ⟨hc, b ++ List.drop (0 + s.buf.length) (List.replicate m none), by simp [hb]⟩, ?_, rfl⟩
    simp only [List.length_append, List.length_take, List.length_drop, List.length_replicate]; omega

theorem grow_spec' {s : PList α} {l : List α} (r : Rep s l) (hsz : (l.length + 1281) * 8 < intMax) :
    ∃ s', grow s (s.count + 1) = some s' ∧ Rep s' l ∧ l.length + 1 ≤ s'.buf.length ∧ s'.vf = s.vf := by
  have hc := r.1
  obtain ⟨s', h1, h2, h3, h4⟩ := grow_spec r (s.count + 1) (by rw [hc, Nat.add_assoc]; exact hsz)
  exact ⟨s', h1, h2, by omega, h4⟩

theorem push_spec {s : PList α} {l : List α} (r : Rep s l) (x : α) (hsz : (l.length + 1281) * 8 < intMax) :
    ∃ s', push s x = some (s', (l.length : Int) + 1) ∧ Rep s' (l ++ [x]) ∧ s'.vf = s.vf := by
  obtain ⟨s1, h1, ⟨hc, b, hb⟩, h3, h4⟩ := grow_spec' r hsz
  unfold push
  simp only [h1, Option.bind_eq_bind, Option.bind_some]
  rw [blit_eq (by simp; omega)]
  simp only [Option.bind_some, hc]
  refine ⟨_, rfl, ⟨by simp, b.drop 1, ?_⟩, h4⟩
  simp only [hb]
  rw [List.take_append_of_le_length (by simp), List.take_of_length_le (by simp), List.drop_append]
  simp

theorem update_spec {s : PList α} {l : List α} (r : Rep s l) (i : Int) (x : α) :
    ∃ s', update s i x = some (s', if 0 ≤ i ∧ i < l.length then i else -1,
        if 0 ≤ i ∧ i < l.length then freed s.vf ((l.drop i.toNat).take 1) else []) ∧
      Rep s' (if 0 ≤ i ∧ i < l.length then l.set i.toNat x else l) ∧ s'.vf = s.vf := by
  unfold update
  rw [r.1]
  by_cases h : 0 ≤ i ∧ i < l.length
  · simp only [if_pos h]
    have hi : i.toNat < l.length := by omega
    have hfit := r.fit
    rw [elems_spec r i.toNat 1 (by omega), blit_eq (by simp; omega)]
    simp only [Option.bind_eq_bind, Option.bind_some]
    obtain ⟨hc, b, hb⟩ := r
    refine ⟨_, rfl, ⟨by simp [hc], b, ?_⟩, rfl⟩
    simp only
    obtain ⟨l1, y, l2, rfl, hl1⟩ : ∃ l1 y l2, l = l1 ++ y :: l2 ∧ l1.length = i.toNat :=
      ⟨l.take i.toNat, l[i.toNat], l.drop (i.toNat + 1), by simp, by simp; omega⟩
    rw [← hl1, hb]
    simp [List.take_append, List.drop_append]
  · simp only [if_neg h]
    exact ⟨s, rfl, r, rfl⟩

theorem insert_spec {s : PList α} {l : List α} (r : Rep s l) (i : Int) (x : α) (hsz : (l.length + 1281) * 8 < intMax) :
    ∃ s', insert s i x = some (s', if l.length < 1 then 1 else if i < 0 ∨ i > (l.length : Int) - 1 then -1 else i) ∧
      Rep s' (if l.length < 1 then [x] else if i < 0 ∨ i > (l.length : Int) - 1 then l
        else l.take i.toNat ++ x :: l.drop i.toNat) ∧ s'.vf = s.vf := by
  unfold insert
  rw [r.1]
  by_cases h : l.length < 1
  · simp only [if_pos h]
    have hl : l = [] := List.length_eq_zero_iff.1 (by omega)
    subst hl
    exact push_spec r x hsz
  · simp only [if_neg h]
    by_cases h2 : i < 0 ∨ i > (l.length : Int) - 1
    · simp only [if_pos h2]; exact ⟨s, rfl, r, rfl⟩
    · simp only [if_neg h2]
      have hg := grow_spec' r hsz
      rw [r.1] at hg
      obtain ⟨s1, h1, ⟨hc, b, hb⟩, h3, h4⟩ := hg
      simp only [h1, Option.bind_eq_bind, Option.bind_some]
      obtain ⟨k, hk⟩ : ∃ k, i.toNat = k := ⟨_, rfl⟩
      rw [hk]
      have hkl : k < l.length := by omega
      rw [slots_eq (by omega)]
      simp only [Option.bind_some]
      have hb' : s1.buf = (l.take k).map some ++ ((l.drop k).map some ++ b) := by
        have := split_at [] b l k
        simp only [List.nil_append] at this
        exact hb.trans this
      have e1 : k = ((l.take k).map some).length := by simp; omega
      have e2 : (List.drop k s1.buf).take (s1.count - k) = (l.drop k).map some := by
        rw [hb', List.drop_append, List.drop_eq_nil_iff.2 (Nat.le_of_eq e1.symm), ← e1, Nat.sub_self, List.nil_append,
          List.drop_zero, List.take_append_of_le_length (by simp; omega), List.take_of_length_le (by simp; omega)]
      rw [e2, blit_eq (by simp; omega)]
      simp only [Option.bind_some]
      obtain ⟨c, hcd⟩ : ∃ c, List.take (k + 1) s1.buf = (l.take k).map some ++ [c] := by
        obtain ⟨c, hcd⟩ : ∃ c, s1.buf[k]? = some c := ⟨s1.buf[k]'(by omega), List.getElem?_eq_getElem (by omega)⟩
        refine ⟨c, ?_⟩
        rw [List.take_add_one, hcd, hb', List.take_append_of_le_length (by omega), List.take_of_length_le (by omega)]
        rfl
      rw [hcd, blit_eq (by simp; omega)]
      simp only [Option.bind_some]
      obtain ⟨t, ht⟩ : ∃ t, List.drop (k + 1 + (List.map some (List.drop k l)).length) s1.buf = t := ⟨_, rfl⟩
      rw [ht]
      refine ⟨_, rfl, ⟨by simp [hc]; omega, t, ?_⟩, h4⟩
      simp only [List.append_assoc, List.map_append, List.map_cons]
      rw [List.take_append_of_le_length (by omega), List.take_of_length_le (by omega), ← List.drop_drop,
        List.drop_append (l₁ := (l.take k).map some), List.drop_eq_nil_iff.2 (Nat.le_of_eq e1.symm), ← e1]
      simp

theorem get_spec {s : PList α} {l : List α} (r : Rep s l) (i : Int) :
    get s i = some (if 0 ≤ i then l[i.toNat]? else none) := by
  unfold get
  rw [r.1]
  by_cases h : 0 ≤ i ∧ i < l.length
  · rw [if_pos h, if_pos h.1]
    obtain ⟨hc, b, hb⟩ := r
    have hi : i.toNat < l.length := by omega
    have : s.buf[i.toNat]? = some (some l[i.toNat]) := by
      rw [hb, List.getElem?_append_left (by simpa using hi), List.getElem?_map, List.getElem?_eq_getElem hi]
      rfl
    rw [this, List.getElem?_eq_getElem hi]
  · rw [if_neg h]
    split
    · rw [List.getElem?_eq_none (by omega)]
    · rfl

theorem cut_spec {s : PList α} {l : List α} (r : Rep s l) (k m : Nat) (h : k + m ≤ l.length) :
    ∃ b, (slots s.buf (k + m) (s.count - m - k)).bind (blit s.buf k) = some b ∧
      Rep { s with buf := b, count := s.count - m } (l.take k ++ l.drop (k + m)) := by
  obtain ⟨hc, b, hb⟩ := r
  have hbl := congrArg List.length hb
  simp only [List.length_append, List.length_map] at hbl
  rw [slots_eq (by omega), Option.bind_some]
  have e2 : (List.drop (k + m) s.buf).take (s.count - m - k) = (l.drop (k + m)).map some := by
    rw [hb, List.drop_append_of_le_length (by simp; omega), List.take_append_of_le_length (by simp; omega),
      List.take_of_length_le (by simp; omega), List.map_drop]
  rw [e2, blit_eq (by simp; omega)]
  refine ⟨_, rfl, by simp [hc]; omega, List.drop (k + (List.map some (List.drop (k + m) l)).length) s.buf, ?_⟩
  simp only [List.map_append]
  rw [hb, List.take_append_of_le_length (by simp; omega), List.map_take]

theorem delete_spec {s : PList α} {l : List α} (r : Rep s l) (i n : Int) :
    ∃ s', delete s i n = some (s', if i < 0 ∨ n < 1 ∨ i + n > l.length then 0 else n,
        if i < 0 ∨ n < 1 ∨ i + n > l.length then [] else freed s.vf ((l.drop i.toNat).take n.toNat)) ∧
      Rep s' (if i < 0 ∨ n < 1 ∨ i + n > l.length then l else l.take i.toNat ++ l.drop (i + n).toNat) ∧ s'.vf = s.vf := by
  unfold delete
  by_cases h : i < 0 ∨ n < 1 ∨ i + n > l.length
  · simp only [r.1, if_pos h]; exact ⟨s, rfl, r, rfl⟩
  · obtain ⟨b, hb, rb⟩ := cut_spec r i.toNat n.toNat (by omega)
    rw [if_neg (by rw [r.1]; exact h)]
    simp only [if_neg h]
    have hkm : (i + n).toNat = i.toNat + n.toNat := by omega
    rw [elems_spec r _ _ (by omega), hkm]
    simp only [Option.bind_eq_bind, Option.bind_some]
    rw [← Option.bind_assoc, hb]
    exact ⟨_, rfl, rb, rfl⟩

/-- The first position of `x`, -1 when there is none. -/
def firstIdx [BEq α] (l : List α) (x : α) : Int := match l.findIdx? (· == x) with | some i => i | none => -1

theorem indexof_spec [BEq α] {s : PList α} {l : List α} (r : Rep s l) (x : α) : indexof s x = some (firstIdx l x) := by
  unfold indexof firstIdx
  rw [elems_all r]
  simp only [Option.bind_eq_bind, Option.bind_some]
  cases l.findIdx? (· == x) <;> rfl

theorem firstIdx_lt [BEq α] (l : List α) (x : α) : firstIdx l x < l.length ∧ -1 ≤ firstIdx l x := by
  unfold firstIdx
  split
  · rename_i i h
    have := (List.findIdx?_eq_some_iff_getElem.1 h).1
    omega
  · omega

theorem findAndDelete_spec [BEq α] {s : PList α} {l : List α} (r : Rep s l) (x : α) :
    ∃ s', findAndDelete s x = some (s', if firstIdx l x < 0 then 0 else firstIdx l x,
        if firstIdx l x < 0 then [] else freed s.vf ((l.drop (firstIdx l x).toNat).take 1)) ∧
      Rep s' (if firstIdx l x < 0 then l else l.eraseIdx (firstIdx l x).toNat) ∧ s'.vf = s.vf := by
  unfold findAndDelete
  rw [indexof_spec r]
  have hlt := (firstIdx_lt l x).1
  simp only [Option.bind_eq_bind, Option.bind_some]
  by_cases h : firstIdx l x < 0
  · simp only [if_pos h]; exact ⟨s, rfl, r, rfl⟩
  · simp only [if_neg h]
    obtain ⟨b, hb, rb⟩ := cut_spec r (firstIdx l x).toNat 1 (by omega)
    rw [elems_spec r _ _ (by omega)]
    simp only [Option.bind_some]
    rw [← Option.bind_assoc, hb]
    refine ⟨_, rfl, ?_, rfl⟩
    rw [List.eraseIdx_eq_take_drop_succ]
    exact rb

end Sis.PL
