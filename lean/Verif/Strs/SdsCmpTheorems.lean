import Verif.Strs.SdsCmpLemmas
/-
C130: strings are compared byte by byte, and their bytes replaced one by one.
-/
namespace Sis.Sds
open Sis

/-- C130: two strings with any histories: the comparison reads nothing but their bytes, and says which of them comes before the other. -/
theorem C130_compare_partial (x y : Bytes) (ops ops' : List Op) (ha : ∀ o ∈ ops ++ ops', asked o < 2 ^ 62)
    (hv : ∀ l1 l2, ops = l1 ++ l2 → (value x l1).length < 2 ^ 62) (hv' : ∀ l1 l2, ops' = l1 ++ l2 → (value y l1).length < 2 ^ 62) :
    ∃ c, ((newLen (x.map some)).bind fun s => run s ops).bind (fun s => ((newLen (y.map some)).bind fun t => run t ops').bind fun t => cmp s t) = some c ∧
      (c = 0 ↔ value x ops = value y ops') ∧ (c < 0 ↔ Before (value x ops) (value y ops')) ∧ (0 < c ↔ Before (value y ops') (value x ops)) := by
  obtain ⟨s0, e0, g0⟩ := good_new x (hv [] ops rfl)
  obtain ⟨s, e, g⟩ := good_run ops s0 x g0 (fun o h => ha o (by simp [h])) hv
  obtain ⟨t0, e0', g0'⟩ := good_new y (hv' [] ops' rfl)
  obtain ⟨t, e', g'⟩ := good_run ops' t0 y g0' (fun o h => ha o (by simp [h])) hv'
  refine ⟨_, ?_, cmpB_spec _ _⟩
  simp only [e0, e0', Option.bind_some, e, e', cmp_eq s t _ _ g g']

/-- C130: that order is one: of two strings exactly one comes before the other or they are the same, and it can be chained. -/
theorem C130_order (x y z : Bytes) :
    (Before x y ∨ x = y ∨ Before y x) ∧ ¬ Before x x ∧ ¬ (Before x y ∧ Before y x) ∧ (Before x y → Before y z → Before x z) := by
  have h := cmpB_spec x y
  have h' := cmpB_spec x x
  refine ⟨?_, fun hx => ?_, fun hx => ?_, before_trans x y z⟩
  · rcases Int.lt_trichotomy (cmpB x y) 0 with k | k | k
    · exact Or.inl (h.2.1.1 k)
    · exact Or.inr (Or.inl (h.1.1 k))
    · exact Or.inr (Or.inr (h.2.2.1 k))
  · have h1 := h'.1.2 rfl
    have h2 := h'.2.1.2 hx
    omega
  · have h1 := h.2.1.2 hx.1
    have h2 := h.2.2.2 hx.2
    omega

/-- C130: a string with any history whose bytes are replaced by pairs, or made small or capital letters: each byte becomes what it should,
the others stay, nothing outside is touched, and the string goes on as one that holds these bytes. -/
theorem C130_replace_partial (x : Bytes) (ops ops' : List Op) (l : List (UInt8 × UInt8)) (how : Sds → Option Sds)
    (hh : how = (fun s => mapChars s (l.map (·.1)) (l.map (·.2)) l.length) ∨ (how = toLower ∧ l = letters) ∨ (how = toUpper ∧ l = letters.map Prod.swap))
    (ha : ∀ o ∈ ops ++ ops', asked o < 2 ^ 62) (hv : ∀ l1 l2, ops = l1 ++ l2 → (value x l1).length < 2 ^ 62)
    (hv' : ∀ l1 l2, ops' = l1 ++ l2 → (value ((value x ops).map (replaced l)) l1).length < 2 ^ 62) :
    ∃ s, (((newLen (x.map some)).bind fun s => run s ops).bind how).bind (fun s => run s ops') = some s ∧
      s.len = (value ((value x ops).map (replaced l)) ops').length ∧
      peek s (s.len + 1) = some ((value ((value x ops).map (replaced l)) ops').map some ++ [some 0]) := by
  obtain ⟨s0, e0, g0⟩ := good_new x (hv [] ops rfl)
  obtain ⟨s1, e1, g1⟩ := good_run ops s0 x g0 (fun o h => ha o (by simp [h])) hv
  have hm : ∃ s', how s1 = some s' ∧ Good s' ((value x ops).map (replaced l)) := by
    rcases hh with rfl | ⟨rfl, rfl⟩ | ⟨rfl, rfl⟩
    · exact map_all _ _ (fun c => by simpa using mapChar_eq c l []) s1 _ g1
    · exact map_all _ _ lower_eq s1 _ g1
    · exact map_all _ _ upper_eq s1 _ g1
  obtain ⟨s2, e2, g2⟩ := hm
  obtain ⟨s, e, g⟩ := good_run ops' s2 _ g2 (fun o h => ha o (by simp [h])) hv'
  refine ⟨s, by rw [e0, Option.bind_some, e1, Option.bind_some, e2, Option.bind_some, e], g.2.1, ?_⟩
  have hmm := good_room g
  unfold peek
  rw [if_pos (by have := g.2.1; omega), good_take g]

/-- C130: replacing reads beyond the bytes it was given when it is told that there are more. -/
theorem C130_given : ((newLen [some 97]).bind fun s => mapChars s [98] [99] 2) = none := by decide +kernel

/-- `hello` with `h` as `0` and `o` as `1`, as in the comment of `sis_sdsmapchars`. -/
example : [104, 101, 108, 108, 111].map (replaced [(104, 48), (111, 49)]) = [48, 101, 108, 108, 49] := by decide

example : [72, 105, 33].map (replaced letters) = [104, 105, 33] := by decide +kernel

example : Before [97, 98] [97, 98, 0] ∧ Before [97, 127, 9] [97, 128] :=
  ⟨Or.inl ⟨0, [], rfl⟩, Or.inr ⟨[97], 127, 128, [9], [], by decide, rfl, rfl⟩⟩

end Sis.Sds
