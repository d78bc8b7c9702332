import Verif.Strs.Split
import Verif.Strs.SplitSpec
namespace Sis.Split
open Sis

/-- Strings, each with the separator behind it. -/
def front (sep : Bytes) (l : List Bytes) : Bytes := (l.map (· ++ sep)).flatten

theorem front_snoc (sep : Bytes) (l : List Bytes) (p : Bytes) : front sep (l ++ [p]) = front sep l ++ p ++ sep := by
  simp [front]

theorem join_front (sep : Bytes) (l : List Bytes) (p : Bytes) : Args.joinSds sep (l ++ [p]) = front sep l ++ p := by
  induction l with
  | nil => rfl
  | cons a l ih =>
    rcases l with _ | ⟨b, l⟩
    · simp [Args.joinSds, front]
    · have : Args.joinSds sep (a :: b :: l ++ [p]) = a ++ sep ++ Args.joinSds sep (b :: l ++ [p]) := rfl
      rw [this, ih]; simp [front]

theorem moreSlots_ok (slots e : Nat) (h : e + 1 ≤ slots) (he : e + 1 < 2 ^ 30) (hs : slots < 2 ^ 31) :
    ∃ q, moreSlots slots e = some q ∧ e + 2 ≤ q ∧ q < 2 ^ 31 := by
  unfold moreSlots
  by_cases h1 : slots < e + 2
  · rw [if_pos h1, if_pos (by omega)]; exact ⟨_, rfl, by omega, by omega⟩
  · rw [if_neg h1]; exact ⟨_, rfl, by omega, hs⟩

theorem loop_ok (s sep : Bytes) (hsep : 0 < sep.length) (hs : s.length + 1 < 2 ^ 30) :
    ∀ (fuel : Nat) (toks : List Bytes) (cur rest : Bytes) (slots : Nat), s = front sep toks ++ cur ++ rest →
      rest.length < fuel → toks.length + 1 ≤ slots → slots < 2 ^ 31 → toks.length ≤ (front sep toks).length →
      (∀ p ∈ toks, First sep p) → (∀ a b, cur ++ rest = a ++ sep ++ b → cur.length ≤ a.length) →
      ∃ ps p, splitLoop s sep fuel ((front sep toks).length + cur.length) (front sep toks).length slots toks = some (ps ++ [p]) ∧
        s = front sep ps ++ p ∧ (∀ p ∈ ps, First sep p) ∧ ¬ sep <:+: p := by
  intro fuel
  induction fuel with
  | zero => intro _ _ rest _ _ h; omega
  | succ fuel ih =>
    intro toks cur rest slots e hf hsl hsl2 hlen hfirst hno
    have hl : s.length = (front sep toks).length + cur.length + rest.length := by rw [e]; simp only [List.length_append]
    have d1 : s.drop ((front sep toks).length + cur.length) = rest := by
      rw [e]; exact List.drop_left' (by simp)
    have d2 : s.drop (front sep toks).length = cur ++ rest := by
      rw [e, List.append_assoc]; exact List.drop_left' rfl
    rw [splitLoop]
    by_cases hj : (((front sep toks).length + cur.length : Nat) : Int) < s.length - ((sep.length : Int) - 1)
    · rw [if_pos hj]
      obtain ⟨q, e1, hq, hq2⟩ := moreSlots_ok slots toks.length hsl (by omega) hsl2
      rw [e1, Option.bind_some, d1]
      by_cases hm : rest.take sep.length = sep
      · rw [if_pos hm, d2]
        have e2 : (cur ++ rest).take ((front sep toks).length + cur.length - (front sep toks).length) = cur := by
          rw [Nat.add_sub_cancel_left]; exact List.take_left' rfl
        have e3 : rest = sep ++ rest.drop sep.length := by
          conv => lhs; rw [← List.take_append_drop sep.length rest, hm]
        have e4 : push toks q cur = some (toks ++ [cur]) := by
          unfold push; rw [if_pos (by omega)]
        rw [e2, e4, Option.bind_some]
        have hfl : (front sep (toks ++ [cur])).length = (front sep toks).length + cur.length + sep.length := by
          rw [front_snoc]; simp only [List.length_append]
        have := ih (toks ++ [cur]) [] (rest.drop sep.length) q (by rw [front_snoc, List.append_nil, List.append_assoc _ sep, ← e3]; exact e)
          (by rw [List.length_drop]; omega) (by simp; omega) hq2 (by rw [hfl]; simp; omega)
          (by
            intro p hp
            rcases List.mem_append.1 hp with h | h
            · exact hfirst p h
            · rw [List.mem_singleton.1 h]
              intro a b hab
              exact hno a (b ++ rest.drop sep.length) (by rw [e3, ← List.append_assoc, hab]; simp))
          (by intros; simp)
        rw [hfl] at this
        simpa using this
      · rw [if_neg hm]
        rcases rest with _ | ⟨c, rest⟩
        · simp only [List.length_nil] at hl; omega
        have := ih toks (cur ++ [c]) rest q (by rw [e]; simp) (by simp at hf; omega) (by omega) hq2 hlen hfirst
          (by
            intro a b hab
            have hab' : cur ++ c :: rest = a ++ sep ++ b := by rw [← hab]; simp
            have h1 := hno a b hab'
            rw [List.length_append, List.length_singleton]
            rcases Nat.lt_or_ge cur.length a.length with h2 | h2
            · omega
            · exfalso
              have h3 : cur.length = a.length := by omega
              rw [List.append_assoc] at hab'
              have h4 := (List.append_inj hab' h3).2
              apply hm
              rw [h4]; exact List.take_left' rfl)
        simpa [Nat.add_assoc] using this
    · rw [if_neg hj, d2]
      refine ⟨toks, cur ++ rest, ?_, by rw [e]; simp, hfirst, ?_⟩
      · unfold push; rw [if_pos (by omega)]
      · rintro ⟨a, b, hab⟩
        have h1 := hno a b hab.symm
        have h2 := congrArg List.length hab
        simp only [List.length_append] at h2
        omega

theorem split_ok (s sep : Bytes) (hsep : sep ≠ []) (hs : s.length + 1 < 2 ^ 30) (h0 : s ≠ []) :
    ∃ ps p, splitLen s sep = some (.toks (ps ++ [p])) ∧ s = front sep ps ++ p ∧ (∀ p ∈ ps, First sep p) ∧ ¬ sep <:+: p := by
  have h1 : 0 < sep.length := List.length_pos_iff.2 hsep
  have h2 : 0 < s.length := List.length_pos_iff.2 h0
  obtain ⟨ps, p, e, h⟩ := loop_ok s sep h1 hs (s.length + 1) [] [] s 5 (by simp [front]) (by omega) (by simp) (by omega) (by simp)
    (by simp) (by intros; simp)
  refine ⟨ps, p, ?_, h⟩
  unfold splitLen
  rw [if_neg (by omega), if_neg (by omega)]
  have e' : splitLoop s sep (s.length + 1) 0 0 5 [] = some (ps ++ [p]) := by simpa [front] using e
  rw [e']; rfl

/-- There is one way only. -/
theorem unique (sep : Bytes) : ∀ (ps qs : List Bytes) (p q : Bytes), front sep ps ++ p = front sep qs ++ q →
    (∀ x ∈ ps, First sep x) → (∀ x ∈ qs, First sep x) → ¬ sep <:+: p → ¬ sep <:+: q → ps = qs ∧ p = q := by
  have key : ∀ (x y r r' : Bytes), x ++ sep ++ r = y ++ sep ++ r' → First sep y → y.length ≤ x.length := by
    intro x y r r' h hy
    rcases Nat.lt_or_ge x.length y.length with h1 | h1
    · have h2 : y ++ sep = x ++ sep ++ (r.take (y.length - x.length)) := by
        have := congrArg (List.take (y.length + sep.length)) h
        have e1 : (y ++ sep ++ r').take (y.length + sep.length) = y ++ sep := List.take_left' (by simp)
        have e2 : (x ++ sep ++ r).take (y.length + sep.length) = x ++ sep ++ r.take (y.length - x.length) := by
          rw [List.take_append, List.take_of_length_le (by simp; omega)]
          congr 2
          simp; omega
        rw [e1, e2] at this
        exact this.symm
      have := hy _ _ h2
      omega
    · exact h1
  intro ps
  induction ps with
  | nil =>
    intro qs p q h _ _ hp _
    rcases qs with _ | ⟨b, qs⟩
    · exact ⟨rfl, by simpa [front] using h⟩
    · exact absurd ⟨b, front sep qs ++ q, by simp [front] at h ⊢; exact h.symm⟩ hp
  | cons a ps ih =>
    intro qs p q h h1 h2 hp hq
    rcases qs with _ | ⟨b, qs⟩
    · exact absurd ⟨a, front sep ps ++ p, by simp [front] at h ⊢; exact h⟩ hq
    · have h' : a ++ sep ++ (front sep ps ++ p) = b ++ sep ++ (front sep qs ++ q) := by simpa [front] using h
      have l1 := key _ _ _ _ h' (h2 b (by simp))
      have l2 := key _ _ _ _ h'.symm (h1 a (by simp))
      have hab := List.append_inj h' (by simp; omega)
      have := ih qs p q hab.2 (fun x hx => h1 x (by simp [hx])) (fun x hx => h2 x (by simp [hx])) hp hq
      exact ⟨by rw [List.append_cancel_right hab.1, this.1], this.2⟩

end Sis.Split
