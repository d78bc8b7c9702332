import Verif.Strs.SdsSpec
namespace Sis.Sds
open Sis

/-- The string holds the bytes `x`, and `z` behind them. -/
def Holds (z : Option UInt8) (s : Sds) (x : Bytes) : Prop :=
  s.typ ≤ 4 ∧ s.len = x.length ∧ x.length < cap s.typ ∧ (s.typ ≠ 0 → s.alloc < cap s.typ ∧ s.mem.length = s.alloc + 1) ∧
    ∃ r, s.mem = x.map some ++ z :: r

/-- The string holds the bytes `x`. -/
abbrev Good (s : Sds) (x : Bytes) : Prop := Holds (some 0) s x

theorem req_cap (n : Nat) (h : n < 2 ^ 64) : n < cap (reqType n) ∧ reqType n ≤ 4 := by
  unfold reqType
  split
  · simpa [cap] using ‹_›
  split
  · simpa [cap] using ‹_›
  split
  · simpa [cap] using ‹_›
  split
  · simpa [cap] using ‹_›
  · simpa [cap] using h

theorem req1_cap (n : Nat) (h : n < 2 ^ 64) : n < cap (if reqType n = 0 then 1 else reqType n) ∧ (if reqType n = 0 then 1 else reqType n) ≤ 4 ∧
    (if reqType n = 0 then 1 else reqType n) ≠ 0 := by
  have := req_cap n h
  split
  · rename_i e
    rw [e] at this
    simp [cap] at this ⊢; omega
  · exact ⟨this.1, this.2, ‹_›⟩

theorem setAt_length (m : List (Option UInt8)) (i : Nat) (b) (h : i + b.length ≤ m.length) : (setAt m i b).length = m.length := by
  simp [setAt]; omega

theorem setAt_app (X Y T : List (Option UInt8)) (i : Nat) (hi : i = X.length) : setAt (X ++ Y) i T = X ++ T ++ Y.drop T.length := by
  subst hi
  simp [setAt, List.drop_append]

theorem good_room {z : Option UInt8} {s : Sds} {x : Bytes} (h : Holds z s x) : x.length + 1 ≤ s.mem.length := by
  obtain ⟨_, _, _, _, r, hr⟩ := h
  rw [hr]; simp

theorem good_avail {z : Option UInt8} {s : Sds} {x : Bytes} (h : Holds z s x) : avail s = if s.typ = 0 then 0 else s.mem.length - 1 - x.length := by
  have hm := good_room h
  obtain ⟨_, h2, _, h4, _⟩ := h
  unfold avail
  split
  · rfl
  · rename_i ht
    have := h4 ht
    rw [if_pos (by omega)]; omega

theorem setAlloc_ne (s : Sds) (n : Nat) (h : s.typ ≠ 0) : setAlloc s n = { s with alloc := n % cap s.typ } := if_neg h

theorem setAlloc_0 (s : Sds) (n : Nat) (h : s.typ = 0) : setAlloc s n = s := if_pos h

theorem poke_eq (s : Sds) (i : Nat) (b) (h : i + b.length ≤ s.mem.length) : poke s i b = some { s with mem := setAt s.mem i b } := if_pos h

theorem good_take {z : Option UInt8} {s : Sds} {x : Bytes} (h : Holds z s x) : s.mem.take (s.len + 1) = x.map some ++ [z] := by
  obtain ⟨_, h2, _, _, r, hr⟩ := h
  have e : x.map some ++ z :: r = (x.map some ++ [z]) ++ r := by simp
  rw [hr, e, List.take_left' (by simp [h2])]

/-- There is room for `n` more bytes. -/
def Room (s : Sds) (k : Nat) : Prop := k < cap s.typ ∧ k + 1 ≤ s.mem.length

theorem good_addLen (s : Sds) (x : Bytes) (n : Nat) {z : Option UInt8} (h : Holds z s x) (hn : x.length + n < 2 ^ 63) :
    ∃ s', addLen s n = some s' ∧ Holds z s' x ∧ n ≤ avail s' ∧ Room s' (x.length + n) := by
  have hm := good_room h
  have ha := good_avail h
  unfold addLen
  by_cases h0 : n ≤ avail s
  · rw [if_pos h0]
    refine ⟨s, rfl, h, h0, ?_⟩
    by_cases ht : s.typ = 0
    · rw [ha, if_pos ht] at h0
      have : n = 0 := by omega
      subst this
      exact ⟨h.2.2.1, hm⟩
    · rw [ha, if_neg ht] at h0
      have := h.2.2.2.1 ht
      exact ⟨by omega, by omega⟩
  · rw [if_neg h0]
    have htk := good_take h
    obtain ⟨h1, h2, h3, h4, r, hr⟩ := h
    dsimp only
    generalize hM : (if s.len + n < 1048576 then (s.len + n) * 2 else s.len + n + 1048576) = M
    have hM1 : x.length + n ≤ M ∧ M < 2 ^ 64 := by
      rw [← hM]; split <;> omega
    obtain ⟨hc, ht4, ht0⟩ := req1_cap M hM1.2
    generalize (if reqType M = 0 then 1 else reqType M) = t at hc ht4 ht0
    by_cases ht : s.typ = t
    · rw [if_pos ht]
      subst ht
      have hl : s.mem.length ≤ M + 1 := by
        have := h4 ht0
        rw [ha, if_neg ht0] at h0; omega
      have hlen : (realloc s.mem (M + 1)).length = M + 1 := by simp [realloc]; omega
      rw [setAlloc_ne { s with mem := realloc s.mem (M + 1) } _ ht0]
      have hg : Holds z { s with mem := realloc s.mem (M + 1), alloc := M % cap s.typ } x := by
        refine ⟨h1, h2, h3, fun _ => ⟨Nat.mod_lt _ (by omega), ?_⟩, ?_⟩
        · simp only [hlen, Nat.mod_eq_of_lt hc]
        · refine ⟨r ++ List.replicate (M + 1 - s.mem.length) none, ?_⟩
          simp only [realloc]
          rw [List.take_of_length_le hl]
          rw [hr]; simp
      refine ⟨_, rfl, hg, ?_, ?_, ?_⟩
      · rw [good_avail hg]; simp only [hlen, if_neg ht0]; omega
      · simp only []; omega
      · simp only [hlen]; omega
    · rw [if_neg ht]
      have hp : peek s (s.len + 1) = some (x.map some ++ [z]) := by
        unfold peek
        rw [if_pos (by omega), htk]
      rw [hp, Option.bind_some]
      have hk : poke ⟨t, 0, 0, List.replicate (M + 1) none⟩ 0 (x.map some ++ [z]) =
          some ⟨t, 0, 0, x.map some ++ z :: List.replicate (M - x.length) none⟩ := by
        rw [poke_eq _ _ _ (by simp; omega)]
        simp [setAt]
      rw [hk, Option.map_some, setAlloc_ne _ _ ht0]
      have hx : s.len % cap t = x.length := by rw [h2]; exact Nat.mod_eq_of_lt (by omega)
      have hg : Holds z ⟨t, s.len % cap t, M % cap t, x.map some ++ z :: List.replicate (M - x.length) none⟩ x := by
        refine ⟨ht4, hx, by simp only []; omega, fun _ => ⟨Nat.mod_lt _ (by omega), ?_⟩, _, rfl⟩
        simp [Nat.mod_eq_of_lt hc]; omega
      refine ⟨_, rfl, hg, ?_, ?_, ?_⟩
      · refine Nat.le_trans ?_ (Nat.le_of_eq (good_avail hg).symm)
        simp only [if_neg ht0]; simp; omega
      · show x.length + n < cap t; omega
      · simp [setLen]; omega

/-- Bytes and a zero written behind the first bytes. -/
theorem good_write (s : Sds) (X : Bytes) (Y : List (Option UInt8)) (b : Bytes) (h1 : s.typ ≤ 4) (hr : Room s (X.length + b.length))
    (h4 : s.typ ≠ 0 → s.alloc < cap s.typ ∧ s.mem.length = s.alloc + 1) (hm : s.mem = X.map some ++ Y) :
    ∃ s', (poke s X.length (b.map some)).bind (fun s' => poke (setLen s' (X.length + b.length)) (X.length + b.length) [some 0]) = some s' ∧ Good s' (X ++ b) := by
  obtain ⟨ha, hb⟩ := hr
  have hY : b.length + 1 ≤ Y.length := by rw [hm] at hb; simp at hb; omega
  unfold poke
  rw [if_pos (by simp; omega), Option.bind_some]
  have e1 : setAt s.mem X.length (b.map some) = (X ++ b).map some ++ Y.drop b.length := by
    rw [hm, setAt_app _ _ _ _ (by simp)]; simp
  obtain ⟨y, Y', hy⟩ := List.exists_cons_of_ne_nil (l := Y.drop b.length) (by intro e; have := congrArg List.length e; simp at this; omega)
  simp only [setLen, e1, hy]
  have e2 : setAt ((X ++ b).map some ++ y :: Y') (X.length + b.length) [some 0] = (X ++ b).map some ++ some 0 :: Y' := by
    rw [setAt_app _ _ _ _ (by simp)]; simp
  have hl : ((X ++ b).map some ++ y :: Y').length = s.mem.length := by
    rw [← hy, hm]; simp; omega
  rw [if_pos (by rw [hl]; simpa using hb)]
  refine ⟨_, rfl, h1, ?_, by simpa using ha, fun ht => ⟨(h4 ht).1, ?_⟩, Y', e2⟩
  · simp [Nat.mod_eq_of_lt ha]
  · simp only [e2]
    rw [← (h4 ht).2, ← hl]; simp

theorem good_cat (s : Sds) (x b : Bytes) (h : Good s x) (hn : x.length + b.length < 2 ^ 63) : ∃ s', catLen s b = some s' ∧ Good s' (x ++ b) := by
  obtain ⟨s1, e1, hg, _, hr⟩ := good_addLen s x b.length h hn
  obtain ⟨g1, g2, g3, g4, r, gr⟩ := hg
  unfold catLen
  rw [e1, Option.bind_some, h.2.1]
  exact good_write s1 x _ b g1 hr g4 gr

theorem good_cpy (s : Sds) (x b : Bytes) (h : Good s x) (hn : b.length < 2 ^ 62) : ∃ s', cpyLen s b = some s' ∧ Good s' b := by
  have key : ∀ s1, s1.typ ≤ 4 → Room s1 b.length → (s1.typ ≠ 0 → s1.alloc < cap s1.typ ∧ s1.mem.length = s1.alloc + 1) →
      ∃ s', ((poke s1 0 (b.map some)).bind fun s => (poke s b.length [some 0]).map fun s => setLen s b.length) = some s' ∧ Good s' b := by
    intro s1 g1 hr g4
    obtain ⟨s', e, hg⟩ := good_write s1 [] s1.mem b g1 (by simpa using hr) g4 rfl
    refine ⟨s', ?_, by simpa using hg⟩
    rw [← e]
    simp only [List.length_nil, Nat.zero_add]
    cases poke s1 0 (b.map some) with
    | none => rfl
    | some q =>
      simp only [Option.bind_some]
      by_cases hh : b.length + 1 ≤ q.mem.length
      · rw [poke_eq q _ _ hh, poke_eq (setLen q b.length) _ _ hh]; rfl
      · have e1 : poke q b.length [some 0] = none := if_neg hh
        have e2 : poke (setLen q b.length) b.length [some 0] = none := if_neg hh
        rw [e1, e2]; rfl
  unfold cpyLen
  have hm := good_room h
  by_cases ha : allocOf s < b.length
  · have hle : x.length ≤ allocOf s := by
      unfold allocOf
      split
      · exact Nat.le_of_eq h.2.1.symm
      · rename_i ht; have := h.2.2.2.1 ht; omega
    obtain ⟨s1, e1, hg, _, hr⟩ := good_addLen s x (b.length - x.length) h (by omega)
    rw [if_pos ha, h.2.1, e1, Option.bind_some]
    have : x.length + (b.length - x.length) = b.length := by omega
    rw [this] at hr
    exact key s1 hg.1 hr hg.2.2.2.1
  · rw [if_neg ha, Option.bind_some]
    refine key s h.1 ?_ h.2.2.2.1
    unfold allocOf at ha
    have h2 := h.2.1
    by_cases ht : s.typ = 0
    · rw [if_pos ht] at ha
      have := h.2.2.1
      exact ⟨by omega, by omega⟩
    · rw [if_neg ht] at ha
      have := h.2.2.2.1 ht
      exact ⟨by omega, by omega⟩

theorem good_grow (s : Sds) (x : Bytes) (n : Nat) (h : Good s x) (hn : n < 2 ^ 62) :
    ∃ s', growZero s n = some s' ∧ Good s' (x ++ List.replicate (n - x.length) 0) := by
  unfold growZero
  rw [h.2.1]
  by_cases h0 : n ≤ x.length
  · rw [if_pos h0]
    refine ⟨s, rfl, ?_⟩
    have : n - x.length = 0 := by omega
    rw [this]; simpa using h
  · rw [if_neg h0]
    obtain ⟨s1, e1, ⟨g1, g2, g3, g4, r, gr⟩, _, hr1, hr2⟩ := good_addLen s x (n - x.length) h (by omega)
    have hk : x.length + (n - x.length) = n := by omega
    rw [hk] at hr1 hr2
    rw [e1, Option.bind_some]
    unfold poke
    rw [if_pos (by simp; omega)]
    have e2 : setAt s1.mem x.length (List.replicate (n - x.length + 1) (some 0)) = (x ++ List.replicate (n - x.length) 0).map some ++ some 0 :: r.drop (n - x.length) := by
      rw [gr, setAt_app _ _ _ _ (by simp), List.replicate_succ']; simp
    have hl := setAt_length s1.mem x.length (List.replicate (n - x.length + 1) (some 0)) (by simp; omega)
    simp only [Option.map_some, setLen]
    refine ⟨_, rfl, g1, ?_, by simp; omega, fun ht => ⟨(g4 ht).1, ?_⟩, _, e2⟩
    · simp [Nat.mod_eq_of_lt hr1]; omega
    · simp only [hl]; exact (g4 ht).2

theorem cap_pos (t : Nat) : 0 < cap t := by
  unfold cap; split <;> simp

theorem good_clear (s : Sds) (x : Bytes) (h : Good s x) : ∃ s', clear s = some s' ∧ Good s' [] := by
  have hm := good_room h
  obtain ⟨h1, h2, h3, h4, r, hr⟩ := h
  unfold clear
  rw [poke_eq _ _ _ (by simp [setLen]; omega)]
  have hl := setAt_length s.mem 0 [some 0] (by simp; omega)
  refine ⟨_, rfl, h1, by simp [setLen], cap_pos _, fun ht => ⟨(h4 ht).1, ?_⟩, s.mem.drop 1, by simp [setAt, setLen]⟩
  simp only [setLen, hl]; exact (h4 ht).2

theorem good_shrink (s : Sds) (x : Bytes) (h : Good s x) (hx : x.length < 2 ^ 62) : ∃ s', shrink s = some s' ∧ Good s' x := by
  have hm := good_room h
  have htk := good_take h
  obtain ⟨h1, h2, h3, h4, r, hr⟩ := h
  unfold shrink
  dsimp only
  obtain ⟨hc, ht4⟩ := req_cap s.len (by omega)
  split
  · refine ⟨_, rfl, ?_⟩
    have e : realloc s.mem (s.len + 1) = x.map some ++ [some 0] := by
      unfold realloc
      rw [htk]
      have : s.len + 1 - s.mem.length = 0 := by omega
      rw [this]; simp
    rw [e]
    by_cases ht : s.typ = 0
    · rw [setAlloc_0 { s with mem := x.map some ++ [some 0] } _ ht]
      exact ⟨h1, h2, h3, fun hh => absurd ht hh, [], rfl⟩
    · rw [setAlloc_ne { s with mem := x.map some ++ [some 0] } _ ht]
      refine ⟨h1, h2, h3, fun _ => ⟨Nat.mod_lt _ (cap_pos _), ?_⟩, [], rfl⟩
      simp [h2, Nat.mod_eq_of_lt h3]
  · generalize reqType s.len = t at hc ht4
    have hp : peek s (s.len + 1) = some (x.map some ++ [some 0]) := by
      unfold peek
      rw [if_pos (by omega), htk]
    rw [hp, Option.bind_some]
    have hk : poke ⟨t, 0, 0, List.replicate (s.len + 1) none⟩ 0 (x.map some ++ [some 0]) = some ⟨t, 0, 0, x.map some ++ [some 0]⟩ := by
      rw [poke_eq _ _ _ (by simp; omega)]
      simp [setAt, h2]
    rw [hk, Option.map_some]
    refine ⟨_, rfl, ?_⟩
    have hl : s.len % cap t = x.length := by rw [h2]; rw [h2] at hc; exact Nat.mod_eq_of_lt hc
    by_cases ht : t = 0
    · rw [setAlloc_0 _ _ ht]
      exact ⟨ht4, hl, by rw [← h2]; exact hc, fun hh => absurd ht hh, [], rfl⟩
    · rw [setAlloc_ne _ _ ht]
      refine ⟨ht4, hl, by rw [← h2]; exact hc, fun _ => ⟨Nat.mod_lt _ (by simp only [setLen]; omega), ?_⟩, [], rfl⟩
      simp [setLen, hl]

theorem good_new (x : Bytes) (hx : x.length < 2 ^ 62) : ∃ s, newLen (x.map some) = some s ∧ Good s x := by
  unfold newLen
  simp only [List.length_map]
  obtain ⟨hc, ht4⟩ := req_cap x.length (by omega)
  have hT : x.length < cap (if reqType x.length = 0 ∧ x.length = 0 then 1 else reqType x.length) ∧
      (if reqType x.length = 0 ∧ x.length = 0 then 1 else reqType x.length) ≤ 4 := by
    split
    · rename_i e; rw [e.2]; exact ⟨cap_pos _, by omega⟩
    · exact ⟨hc, ht4⟩
  generalize (if reqType x.length = 0 ∧ x.length = 0 then 1 else reqType x.length) = t at hT
  obtain ⟨hc, ht4⟩ := hT
  unfold poke
  rw [if_pos (by simp), Option.bind_some]
  have e1 : setAt (List.replicate (x.length + 1) none) 0 (x.map some) = x.map some ++ [none] := by
    simp [setAt]
  simp only [e1]
  rw [if_pos (by simp)]
  have e2 : setAt (x.map some ++ [none]) x.length [some 0] = x.map some ++ [some 0] := by
    rw [setAt_app _ _ _ _ (by simp)]; simp
  refine ⟨_, rfl, ht4, Nat.mod_eq_of_lt hc, hc, fun ht => ?_, [], e2⟩
  simp only [e2, if_neg ht]
  exact ⟨Nat.mod_lt _ (by omega), by simp [Nat.mod_eq_of_lt hc]⟩

theorem good_dup (s : Sds) (x : Bytes) (h : Good s x) (hx : x.length < 2 ^ 62) : ∃ s', dup s = some s' ∧ Good s' x := by
  have hm := good_room h
  unfold dup peek
  rw [h.2.1, if_pos (by omega), Option.bind_some]
  obtain ⟨_, _, _, _, r, hr⟩ := h
  have : s.mem.take x.length = x.map some := by rw [hr]; simp
  rw [this]
  exact good_new x hx

/-- A zero and the length set behind the first bytes. -/
theorem good_end (s : Sds) (y : Bytes) (z : Option UInt8) (Z : List (Option UInt8)) (h1 : s.typ ≤ 4) (hc : y.length < cap s.typ)
    (h4 : s.typ ≠ 0 → s.alloc < cap s.typ ∧ s.mem.length = s.alloc + 1) (hm : s.mem = y.map some ++ z :: Z) :
    ∃ s', ((poke s y.length [some 0]).map fun s => setLen s y.length) = some s' ∧ Good s' y := by
  have hb : y.length + [some (0 : UInt8)].length ≤ s.mem.length := by rw [hm]; simp
  rw [poke_eq _ _ _ hb]
  have e2 : setAt s.mem y.length [some 0] = y.map some ++ some 0 :: Z := by
    rw [hm, setAt_app _ _ _ _ (by simp)]; simp
  refine ⟨_, rfl, h1, Nat.mod_eq_of_lt hc, hc, fun ht => ⟨(h4 ht).1, ?_⟩, Z, e2⟩
  exact (setAt_length _ _ _ hb).trans (h4 ht).2

/-- Some of the bytes kept. -/
theorem good_keep (s : Sds) (x : Bytes) (i m : Nat) (c : Prop) [Decidable c] (h : Good s x) (him : i + m ≤ x.length) (hc : ¬ c → i = 0 ∨ m = 0) :
    ∃ s', ((if c then move s i m else some s).bind fun s => (poke s m [some 0]).map fun s => setLen s m) = some s' ∧ Good s' ((x.drop i).take m) := by
  have hroom := good_room h
  obtain ⟨h1, h2, h3, h4, r, hr⟩ := h
  have hlen : ((x.drop i).take m).length = m := by simp; omega
  by_cases hh : c
  · rw [if_pos hh]
    have hb : ((s.mem.drop i).take m) = ((x.drop i).take m).map some := by
      rw [hr, List.drop_append_of_le_length (by simp; omega), List.take_append_of_le_length (by simp; omega)]
      simp
    unfold move
    rw [if_pos (by omega), hb]
    have hl : 0 + (((x.drop i).take m).map some).length ≤ s.mem.length := by simp; omega
    rw [poke_eq _ _ _ hl, Option.bind_some]
    obtain ⟨z, Z, hz⟩ := List.exists_cons_of_ne_nil (l := s.mem.drop m) (by intro e; have := congrArg List.length e; simp at this; omega)
    have e : setAt s.mem 0 (((x.drop i).take m).map some) = ((x.drop i).take m).map some ++ z :: Z := by
      rw [← hz]; unfold setAt; rw [List.length_map, hlen]; simp
    have := good_end { s with mem := setAt s.mem 0 (((x.drop i).take m).map some) } ((x.drop i).take m) z Z h1 (by rw [hlen]; show m < cap s.typ; omega)
      (fun ht => ⟨(h4 ht).1, (setAt_length _ _ _ hl).trans (h4 ht).2⟩) e
    rw [hlen] at this
    exact this
  · rw [if_neg hh, Option.bind_some]
    have he : (x.drop i).take m = x.take m := by
      rcases hc hh with e | e <;> subst e <;> simp
    rw [he] at hlen ⊢
    obtain ⟨z, Z, hz⟩ := List.exists_cons_of_ne_nil (l := s.mem.drop m) (by intro e; have := congrArg List.length e; simp at this; omega)
    have e : s.mem = (x.take m).map some ++ z :: Z := by
      rw [← hz]
      have : s.mem.take m = (x.take m).map some := by
        rw [hr, List.take_append_of_le_length (by simp; omega)]; simp
      rw [← this, List.take_append_drop]
    have := good_end s (x.take m) z Z h1 (by omega) h4 e
    rw [hlen] at this
    exact this

theorem good_range (s : Sds) (x : Bytes) (a b : Int) (h : Good s x) (hx : x.length < 2 ^ 62) (hb : b.natAbs < 2 ^ 62) :
    ∃ s', range s a b = some s' ∧ Good s' ((x.take (place x b + 1)).drop (place x a)) := by
  unfold range
  have hi : ∀ i, index s i = place x i := fun i => by unfold index place; rw [h.2.1]
  rw [hi, hi, h.2.1]
  by_cases h0 : x.length = 0
  · rw [if_pos h0]
    have : x = [] := List.length_eq_zero_iff.1 h0
    subst this
    exact ⟨s, rfl, by simpa using h⟩
  rw [if_neg h0]
  have hp : place x b < 2 ^ 62 := by unfold place; split <;> omega
  rw [if_neg (by omega)]
  dsimp only
  generalize place x a = lo at *
  generalize place x b = hi' at *
  have hk : (kept x.length lo hi').1 + (kept x.length lo hi').2 ≤ x.length ∨ (kept x.length lo hi').2 = 0 := by
    unfold kept
    dsimp only
    by_cases h1 : lo > hi'
    · simp [h1]
    · rw [if_neg h1, if_pos (by omega)]
      by_cases h2 : lo ≥ x.length
      · rw [if_pos h2]; exact .inr rfl
      · rw [if_neg h2]
        by_cases h3 : hi' ≥ x.length
        · rw [if_pos h3, if_neg (by omega)]; left; dsimp only; omega
        · rw [if_neg h3]; left; dsimp only; omega
  have hk2 : (x.drop (kept x.length lo hi').1).take (kept x.length lo hi').2 = (x.take (hi' + 1)).drop lo := by
    rw [List.drop_take]
    unfold kept
    dsimp only
    by_cases h1 : lo > hi'
    · have : hi' + 1 - lo = 0 := by omega
      simp [h1, this]
    · rw [if_neg h1, if_pos (by omega)]
      by_cases h2 : lo ≥ x.length
      · rw [if_pos h2]
        simp [List.drop_eq_nil_of_le h2]
      · rw [if_neg h2]
        by_cases h3 : hi' ≥ x.length
        · rw [if_pos h3, if_neg (by omega)]
          rw [List.take_of_length_le (by simp; omega), List.take_of_length_le (by simp; omega)]
        · rw [if_neg h3]
          have : hi' - lo + 1 = hi' + 1 - lo := by omega
          rw [this]
  rw [← hk2]
  generalize (kept x.length lo hi') = k at hk
  by_cases hz : k.2 = 0
  · obtain ⟨s', e, g⟩ := good_keep s x 0 k.2 (k.1 ≠ 0 ∧ k.2 ≠ 0) h (by omega) (fun _ => .inl rfl)
    rw [if_neg (by omega)] at e ⊢
    refine ⟨s', e, ?_⟩
    rw [hz] at g ⊢
    simpa using g
  · exact good_keep s x k.1 k.2 _ h (by omega) (by omega)

theorem good_bytes {s : Sds} {x : Bytes} (h : Good s x) : bytes s = some x := by
  have hm := good_room h
  obtain ⟨_, h2, _, _, r, hr⟩ := h
  have e : s.mem.take s.len = x.map some := by rw [hr, h2]; simp
  unfold bytes
  rw [e, if_pos ⟨by omega, by simp⟩]
  simp [List.filterMap_map]

theorem drop_takeWhile (p : UInt8 → Bool) (x : Bytes) : x.drop (x.takeWhile p).length = x.dropWhile p := by
  induction x with
  | nil => rfl
  | cons c x ih =>
    rw [List.takeWhile_cons, List.dropWhile_cons]
    by_cases h : p c = true
    · simp [h, ih]
    · simp [h]

/-- Without the bytes at the end. -/
def rstrip (p : UInt8 → Bool) (x : Bytes) : Bytes := (x.reverse.dropWhile p).reverse

theorem rstrip_concat (p : UInt8 → Bool) (x : Bytes) (c : UInt8) : rstrip p (x ++ [c]) = if p c then rstrip p x else x ++ [c] := by
  unfold rstrip
  rw [List.reverse_append]
  simp only [List.reverse_cons, List.reverse_nil, List.nil_append, List.cons_append, List.dropWhile_cons]
  split <;> simp

theorem trimEnd_spec (cset v : Bytes) (sp : Nat) (hs : ∀ c, v[sp]? = some c → strchr cset c = false) (n : Nat) (hn : n ≤ v.length) :
    sp ≤ n → (v.take (trimEnd cset v sp n)).drop sp = rstrip (strchr cset) ((v.take n).drop sp) ∧ trimEnd cset v sp n ≤ n := by
  induction n with
  | zero => intro h; simp [trimEnd, rstrip]
  | succ e ih =>
    intro h
    have hg : v[e]? = some v[e] := List.getElem?_eq_getElem (by omega)
    have ht : v.take (e + 1) = v.take e ++ [v[e]] := by rw [List.take_add_one, hg]; rfl
    rw [trimEnd, hg]
    simp only [Option.map_some, Option.getD_some]
    by_cases hsp : sp ≤ e
    · have hd : (v.take (e + 1)).drop sp = (v.take e).drop sp ++ [v[e]] := by
        rw [ht, List.drop_append_of_le_length (by simp; omega)]
      by_cases hc : e > sp ∧ strchr cset v[e] = true
      · rw [if_pos hc]
        obtain ⟨i1, i2⟩ := ih (by omega) hsp
        refine ⟨?_, by omega⟩
        rw [i1, hd, rstrip_concat, if_pos hc.2]
      · rw [if_neg hc]
        refine ⟨?_, Nat.le_refl _⟩
        have hf : strchr cset v[e] = false := by
          by_cases he : e > sp
          · cases hh : strchr cset v[e] with
            | false => rfl
            | true => exact absurd ⟨he, hh⟩ hc
          · have : e = sp := by omega
            subst this
            exact hs _ hg
        rw [hd, rstrip_concat, if_neg (by simp [hf])]
    · have : sp = e + 1 := by omega
      rw [if_neg (by omega)]
      refine ⟨?_, Nat.le_refl _⟩
      subst this
      have : (v.take (e + 1)).drop (e + 1) = [] := by simp
      rw [this]; simp [rstrip]

theorem good_trim (s : Sds) (x cset : Bytes) (h : Good s x) : ∃ s', trim s cset = some s' ∧ Good s' (strip (fun c => c ∈ cset ∨ c = 0) x) := by
  have hf : (fun c => decide (c ∈ cset ∨ c = 0)) = strchr cset := by
    funext c; by_cases h0 : c = 0 <;> simp [strchr, List.contains_eq_mem, h0]
  rw [hf]
  unfold trim
  rw [good_bytes h, Option.bind_some]
  dsimp only
  generalize hsp : (x.takeWhile (strchr cset)).length = sp
  have hle : sp ≤ x.length := by rw [← hsp]; exact (List.takeWhile_prefix _).length_le
  have hdw : x.drop sp = x.dropWhile (strchr cset) := by rw [← hsp]; exact drop_takeWhile _ _
  have hs : ∀ c, x[sp]? = some c → strchr cset c = false := by
    intro c hc
    have h1 : (x.drop sp).head? = some c := by rw [List.head?_drop]; exact hc
    rw [hdw] at h1
    have := List.head?_dropWhile_not (strchr cset) x
    rw [h1] at this
    simpa using this
  obtain ⟨e1, e2⟩ := trimEnd_spec cset x sp hs x.length (Nat.le_refl _) hle
  generalize trimEnd cset x sp x.length = e at e1 e2
  rw [List.take_length, hdw] at e1
  have hst : strip (strchr cset) x = (x.drop sp).take (if sp ≥ e then 0 else e - sp) := by
    have : (if sp ≥ e then 0 else e - sp) = e - sp := by split <;> omega
    rw [this, ← List.drop_take, e1]; rfl
  rw [hst]
  exact good_keep s x sp _ _ h (by split <;> omega) (by omega)

theorem good_step (s : Sds) (x : Bytes) (o : Op) (h : Good s x) (hx : x.length < 2 ^ 62) (ho : asked o < 2 ^ 62) :
    ∃ s', step s o = some s' ∧ Good s' (after x o) := by
  cases o with
  | cat b => exact good_cat s x b h (by simp only [asked] at ho; omega)
  | cpy b => exact good_cpy s x b h ho
  | grow n => exact good_grow s x n h ho
  | room n =>
    obtain ⟨s', e, hg, _⟩ := good_addLen s x n h (by simp only [asked] at ho; omega)
    exact ⟨s', e, hg⟩
  | clear => exact good_clear s x h
  | shrink => exact good_shrink s x h hx
  | dup => exact good_dup s x h hx
  | range a b => exact good_range s x a b h hx (by simp only [asked] at ho; omega)
  | trim cset => exact good_trim s x cset h

theorem good_run (ops : List Op) : ∀ (s : Sds) (x : Bytes), Good s x → (∀ o ∈ ops, asked o < 2 ^ 62) →
    (∀ l1 l2, ops = l1 ++ l2 → (value x l1).length < 2 ^ 62) → ∃ s', run s ops = some s' ∧ Good s' (value x ops) := by
  induction ops with
  | nil => intro s x h _ _; exact ⟨s, rfl, h⟩
  | cons o ops ih =>
    intro s x h ha hv
    obtain ⟨s1, e1, g1⟩ := good_step s x o h (hv [] _ rfl) (ha o (by simp))
    obtain ⟨s2, e2, g2⟩ := ih s1 (after x o) g1 (fun o' ho' => ha o' (by simp [ho'])) (fun l1 l2 e => hv (o :: l1) l2 (by simp [e]))
    exact ⟨s2, by rw [run, e1, Option.bind_some, e2], g2⟩

end Sis.Sds
