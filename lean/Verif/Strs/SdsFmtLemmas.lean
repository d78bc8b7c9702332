import Verif.Strs.SdsFmtSpec
import Verif.Strs.SdsLemmas
import Verif.Csv.MakeLemmas
namespace Sis.Sds
open Sis

theorem dec_len (k : Nat) : ∀ v, v < 10 ^ (k + 1) → (Rec.dec v).length ≤ k + 1 := by
  induction k with
  | zero => intro v h; rw [Rec.dec, if_pos (by simpa using h)]; simp
  | succ k ih =>
    intro v h
    rw [Rec.dec]
    split
    · simp
    · have : v / 10 < 10 ^ (k + 1) := by
        rw [Nat.pow_succ] at h; omega
      have := ih _ this
      simp; omega

theorem arg_ok (a : Arg) (h : Proper (.arg a)) : argText (letter a) a = some (shown a) := by
  have hint : ∀ v : Int, -2 ^ 63 < v → v < 2 ^ 63 → buffered (Csv.ll2str v) = some (Rec.decInt v) := by
    intro v h1 h2
    rw [Csv.ll2str_dec h1]
    unfold buffered
    rw [Option.bind_some, if_pos]
    unfold Rec.decInt
    split
    · have := dec_len 18 v.natAbs (by omega)
      simp; omega
    · have := dec_len 18 v.toNat (by omega)
      omega
  have huint : ∀ v : Nat, v < 2 ^ 64 → buffered (some (Csv.ull2str v)) = some (Rec.dec v) := by
    intro v h1
    have e : Csv.ull2str v = Rec.dec v := Csv.digits_dec v
    unfold buffered
    rw [Option.bind_some, e, if_pos]
    have := dec_len 19 v (by omega)
    omega
  cases a with
  | text b => simp [argText, letter, shown]
  | sds b => simp [argText, letter, shown]
  | int v => simp only [argText, letter, if_true, shown]; exact hint v (by have := h.1; omega) (by have := h.2; omega)
  | long v => simp only [argText, letter, if_true, shown]; exact hint v h.1 h.2
  | uint v => simp only [argText, letter, if_true, shown]; exact huint v (by have : v < 2 ^ 32 := h; omega)
  | ulong v => simp only [argText, letter, if_true, shown]; exact huint v h

/-- Room is there. -/
theorem room_of {z : Option UInt8} {s : Sds} {x : Bytes} (h : Holds z s x) (n : Nat) (hn : n ≤ avail s) : Room s (x.length + n) := by
  have hm := good_room h
  rw [good_avail h] at hn
  by_cases ht : s.typ = 0
  · rw [if_pos ht] at hn
    have : n = 0 := by omega
    subst this
    exact ⟨h.2.2.1, hm⟩
  · rw [if_neg ht] at hn
    have := h.2.2.2.1 ht
    exact ⟨by omega, by omega⟩

/-- Bytes put behind the others. -/
theorem holds_poke {z : Option UInt8} {s : Sds} {x : Bytes} (h : Holds z s x) (b : Bytes) (hr : Room s (x.length + b.length)) :
    ∃ s' z', poke s x.length (b.map some) = some s' ∧ Holds z' (incLen s' b.length) (x ++ b) := by
  obtain ⟨h1, h2, h3, h4, r, hr1⟩ := h
  obtain ⟨ha, hb⟩ := hr
  have hl : x.length + (b.map (some : UInt8 → Option UInt8)).length ≤ s.mem.length := by simp; omega
  have hY : b.length + 1 ≤ (z :: r).length := by rw [hr1] at hb; simp at hb ⊢; omega
  obtain ⟨y, Y', hy⟩ := List.exists_cons_of_ne_nil (l := (z :: r).drop b.length) (by
    intro e; have := congrArg List.length e; rw [List.length_drop] at this; simp only [List.length_nil] at this; omega)
  have e1 : setAt s.mem x.length (b.map some) = (x ++ b).map some ++ y :: Y' := by
    rw [hr1, setAt_app _ _ _ _ (by simp), List.length_map, hy]; simp
  rw [poke_eq _ _ _ hl]
  refine ⟨_, y, rfl, h1, ?_, by simpa [incLen] using ha, fun ht => ⟨(h4 ht).1, (setAt_length _ _ _ hl).trans (h4 ht).2⟩, Y', e1⟩
  simp only [incLen, h2, List.length_append]
  exact Nat.mod_eq_of_lt ha

theorem holds_one {z : Option UInt8} {s : Sds} {x : Bytes} (h : Holds z s x) (hx : x.length < 2 ^ 62) :
    ∃ s', (if avail s = 0 then addLen s 1 else some s) = some s' ∧ Holds z s' x ∧ Room s' (x.length + 1) := by
  by_cases h0 : avail s = 0
  · rw [if_pos h0]
    obtain ⟨s', e, hg, _, hr⟩ := good_addLen s x 1 h (by omega)
    exact ⟨s', e, hg, hr⟩
  · rw [if_neg h0]
    exact ⟨s, rfl, h, room_of h 1 (by omega)⟩

theorem holds_put {z : Option UInt8} {s : Sds} {x : Bytes} (h : Holds z s x) (b : Bytes) (hx : x.length + b.length < 2 ^ 62) :
    ∃ s' z', putAt s x.length b = some s' ∧ Holds z' s' (x ++ b) := by
  unfold putAt
  by_cases h0 : avail s < b.length
  · rw [if_pos h0]
    obtain ⟨s1, e, hg, _, hr⟩ := good_addLen s x b.length h (by omega)
    obtain ⟨s2, z', e2, hg2⟩ := holds_poke hg b hr
    exact ⟨_, z', by rw [e, Option.bind_some, e2, Option.map_some], hg2⟩
  · rw [if_neg h0]
    obtain ⟨s2, z', e2, hg2⟩ := holds_poke h b (room_of h _ (by omega))
    exact ⟨_, z', by rw [Option.bind_some, e2, Option.map_some], hg2⟩

theorem fmt_nil (s : Sds) (i : Nat) (as : List Arg) : fmtLoop [] s i as = poke s i [some 0] := by
  unfold fmtLoop; rfl

/-- A byte that is not `%`. -/
theorem fmt_byte (c : UInt8) (hc : c ≠ 37) (f : Bytes) (s : Sds) (i : Nat) (as : List Arg) :
    fmtLoop (c :: f) s i as = (if avail s = 0 then addLen s 1 else some s).bind fun s =>
      (poke s i [some c]).bind fun s => fmtLoop f (incLen s 1) (i + 1) as := by
  rcases f with _ | ⟨k, f⟩
  · rw [fmtLoop, if_neg hc]; simp only [fmt_nil]
  · rw [fmtLoop]; simp only [if_neg hc]

theorem fmt_ok (ps : List Piece) : ∀ (z : Option UInt8) (s : Sds) (x : Bytes), Holds z s x → (∀ p ∈ ps, Proper p) →
    x.length + (output ps).length < 2 ^ 62 → ∃ s', fmtLoop (format ps) s x.length (arguments ps) = some s' ∧ Good s' (x ++ output ps) := by
  induction ps with
  | nil =>
    intro z s x h _ _
    have hm := good_room h
    obtain ⟨h1, h2, h3, h4, r, hr⟩ := h
    rw [format, fmt_nil]
    have hb : x.length + [some (0 : UInt8)].length ≤ s.mem.length := hm
    rw [poke_eq _ _ _ hb]
    have e2 : setAt s.mem x.length [some 0] = x.map some ++ some 0 :: r := by
      rw [hr, setAt_app _ _ _ _ (by simp)]; simp
    refine ⟨_, rfl, ?_⟩
    rw [output, List.append_nil]
    exact ⟨h1, h2, h3, fun ht => ⟨(h4 ht).1, (setAt_length _ _ _ hb).trans (h4 ht).2⟩, r, e2⟩
  | cons p ps ih =>
    intro z s x h hp hn
    have hps : ∀ q ∈ ps, Proper q := fun q hq => hp q (by simp [hq])
    have hp0 := hp p (by simp)
    have one : ∀ c : UInt8, x.length + (c :: output ps).length < 2 ^ 62 → ∃ s', ((if avail s = 0 then addLen s 1 else some s).bind fun s =>
        (poke s x.length [some c]).bind fun s => fmtLoop (format ps) (incLen s 1) (x.length + 1) (arguments ps)) = some s' ∧ Good s' (x ++ c :: output ps) := by
      intro c hn
      simp only [List.length_cons] at hn
      obtain ⟨s1, e1, g1, r1⟩ := holds_one h (by omega)
      obtain ⟨s2, z2, e2, g2⟩ := holds_poke g1 [c] r1
      obtain ⟨s3, e3, g3⟩ := ih z2 _ _ g2 hps (by simp; omega)
      refine ⟨s3, ?_, by simpa using g3⟩
      rw [e1, Option.bind_some]
      have e2' : poke s1 x.length [some c] = some s2 := e2
      rw [e2', Option.bind_some]
      simpa using e3
    cases p with
    | byte c =>
      rw [format, fmt_byte c hp0.1]
      exact one c hn
    | percent c =>
      rw [format, fmtLoop]
      have hk : c ∉ ([115, 83, 105, 73, 117, 85] : Bytes) := fun hh => hp0 (List.mem_append_left [0] hh)
      simp only [if_true, if_neg hk]
      exact one c hn
    | arg a =>
      rw [format, fmtLoop]
      have hk : letter a ∈ ([115, 83, 105, 73, 117, 85] : Bytes) := by cases a <;> simp [letter]
      simp only [if_true, if_pos hk, arguments, arg_ok a hp0, Option.bind_some]
      simp only [output, List.length_append] at hn
      obtain ⟨s1, e1, g1, _⟩ := holds_one h (by omega)
      obtain ⟨s2, z2, e2, g2⟩ := holds_put g1 (shown a) (by omega)
      obtain ⟨s3, e3, g3⟩ := ih z2 _ _ g2 hps (by simp; omega)
      refine ⟨s3, ?_, by simpa [output] using g3⟩
      rw [e1, Option.bind_some, e2, Option.bind_some]
      simpa using e3

end Sis.Sds
