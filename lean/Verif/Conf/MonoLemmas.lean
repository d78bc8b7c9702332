import Verif.Conf.Conf
/-
The bound of the recursion does not matter: with a larger one the reader has the same outcome.
-/
namespace Sis.Conf
open Sis Num
open Sis.Json (Node Ty newNode isFloat)

theorem member_mono {sl : Bool} {f g : Node → Bytes → Nat → Option Res} (h : ∀ n s e r, f n s e = some r → g n s e = some r) {n : Node} {s : Bytes} {e : Nat}
    {r : Option Bytes × List Node × Nat} (hr : member sl f n s e = some r) : member sl g n s e = some r := by
  unfold member at hr ⊢
  cases hk : parseKey sl s e with
  | none => rw [hk] at hr; exact absurd hr (by simp)
  | some p =>
    rw [hk] at hr
    simp only [Option.bind_some] at hr ⊢
    cases hv : p.1.map skip with
    | none => rw [hv] at hr; exact hr
    | some w =>
      rw [hv] at hr
      simp only at hr ⊢
      cases hf : f (setKey n p.2.1) w p.2.2 with
      | none => rw [hf] at hr; exact absurd hr (by simp)
      | some o => rw [hf] at hr; rw [h _ _ _ _ hf]; exact hr

theorem mono (v : Env) (fuel : Nat) :
    (∀ sl n s e r, parseValue v sl fuel n s e = some r → parseValue v sl (fuel + 1) n s e = some r) ∧
    (∀ sl i d n s e r, arrayLoop v sl fuel i d n s e = some r → arrayLoop v sl (fuel + 1) i d n s e = some r) ∧
    (∀ sl d n s e r, objectLoop v sl fuel d n s e = some r → objectLoop v sl (fuel + 1) d n s e = some r) ∧
    (∀ n s e r, parseInclude v fuel n s e = some r → parseInclude v (fuel + 1) n s e = some r) ∧
    (∀ d n s e r, includeLoop v fuel d n s e = some r → includeLoop v (fuel + 1) d n s e = some r) := by
  induction fuel with
  | zero =>
    refine ⟨?_, ?_, ?_, ?_, ?_⟩
    · intro sl n s e r h; rw [parseValue] at h; exact absurd h (by simp)
    · intro sl i d n s e r h; rw [arrayLoop] at h; exact absurd h (by simp)
    · intro sl d n s e r h; rw [objectLoop] at h; exact absurd h (by simp)
    · intro n s e r h; rw [parseInclude] at h; exact absurd h (by simp)
    · intro d n s e r h; rw [includeLoop] at h; exact absurd h (by simp)
  | succ fuel ih =>
    obtain ⟨i1, i2, i3, i4, i5⟩ := ih
    have hitem : ∀ sl n s e r, (if isInclude (skip s) then parseInclude v fuel n (skip s) e else member sl (parseValue v sl fuel) n (skip s) e) = some r →
        (if isInclude (skip s) then parseInclude v (fuel + 1) n (skip s) e else member sl (parseValue v sl (fuel + 1)) n (skip s) e) = some r := by
      intro sl n s e r h
      by_cases hi : isInclude (skip s) = true
      · rw [if_pos hi] at h ⊢; exact i4 _ _ _ _ h
      · rw [if_neg hi] at h ⊢; exact member_mono (i1 sl) h
    refine ⟨?_, ?_, ?_, ?_, ?_⟩
    · intro sl n s e r h
      unfold parseValue at h ⊢
      by_cases h0 : s ≠ [] ∧ (at0 s = 45 ∨ isDigit (at0 s) = true)
      · rw [if_pos h0] at h ⊢; exact h
      · rw [if_neg h0] at h ⊢
        split at h
        · rename_i t
          by_cases hk : n.key = none
          · rw [if_pos hk] at h ⊢; exact h
          · rw [if_neg hk] at h ⊢
            by_cases h93 : at0 (skip t) = 93
            · rw [if_pos h93] at h ⊢; exact h
            · rw [if_neg h93] at h ⊢
              cases ha : arrayLoop v sl fuel 0 [] newNode (skip t) e with
              | none => rw [ha] at h; exact absurd h (by simp)
              | some q => rw [i2 _ _ _ _ _ _ _ ha]; rw [ha] at h; exact h
        · rename_i t
          by_cases h125 : at0 (skip t) = 125
          · rw [if_pos h125] at h ⊢; exact h
          · rw [if_neg h125] at h ⊢
            cases ha : objectLoop v sl fuel [] newNode (skip t) e with
            | none => rw [ha] at h; exact absurd h (by simp)
            | some q => rw [i3 _ _ _ _ _ _ ha]; rw [ha] at h; exact h
        · exact h
    · intro sl i d n s e r h
      unfold arrayLoop at h ⊢
      by_cases hs : s = []
      · rw [if_pos hs] at h ⊢; exact h
      · rw [if_neg hs] at h ⊢
        by_cases hi : isInclude (skip s) = true
        · rw [if_pos hi] at h ⊢; exact h
        · rw [if_neg hi] at h ⊢
          cases hv : parseValue v sl fuel (setKey n (some (llutoa i 32))) (skip s) e with
          | none => rw [hv] at h; exact absurd h (by simp)
          | some o =>
            rw [i1 _ _ _ _ _ hv]
            rw [hv] at h
            simp only at h ⊢
            split at h
            · exact h
            · exact h
            · exact h
            · exact i2 _ _ _ _ _ _ _ h
            · exact i2 _ _ _ _ _ _ _ h
    · intro sl d n s e r h
      unfold objectLoop at h ⊢
      by_cases hs : s = []
      · rw [if_pos hs] at h ⊢; exact h
      · rw [if_neg hs] at h ⊢
        cases hv : (if isInclude (skip s) then parseInclude v fuel n (skip s) e else member sl (parseValue v sl fuel) n (skip s) e) with
        | none => rw [hv] at h; exact absurd h (by simp)
        | some o =>
          obtain ⟨p, ns, er⟩ := o
          rw [hitem _ _ _ _ _ hv]
          rw [hv] at h
          simp only at h ⊢
          split at h
          · exact h
          · exact h
          · exact h
          · exact i3 _ _ _ _ _ _ h
          · exact i3 _ _ _ _ _ _ h
    · intro n s e r h
      unfold parseInclude at h ⊢
      split at h
      · exact h
      · rename_i b hb
        cases hl : includeLoop v fuel [] n (skip b) e with
        | none => rw [hl] at h; exact absurd h (by simp)
        | some q => rw [i5 _ _ _ _ _ hl]; rw [hl] at h; exact h
    · intro d n s e r h
      unfold includeLoop at h ⊢
      by_cases hs : s = []
      · rw [if_pos hs] at h ⊢; exact h
      · rw [if_neg hs] at h ⊢
        cases hv : (if isInclude (skip s) then parseInclude v fuel n (skip s) e else member true (parseValue v true fuel) n (skip s) e) with
        | none => rw [hv] at h; exact absurd h (by simp)
        | some o =>
          obtain ⟨p, ns, er⟩ := o
          rw [hitem _ _ _ _ _ hv]
          rw [hv] at h
          simp only at h ⊢
          split at h
          · exact h
          · exact h
          · exact i5 _ _ _ _ _ h

theorem top_mono (v : Env) (fuel : Nat) : ∀ d s e r, topLoop v fuel d s e = some r → topLoop v (fuel + 1) d s e = some r := by
  induction fuel with
  | zero => intro d s e r h; rw [topLoop] at h; exact absurd h (by simp)
  | succ fuel ih =>
    intro d s e r h
    unfold topLoop at h ⊢
    by_cases hs : s = []
    · rw [if_pos hs] at h ⊢; exact h
    · rw [if_neg hs] at h ⊢
      cases hv : (if isInclude (skip s) then parseInclude v fuel newNode (skip s) e else member true (parseValue v true fuel) newNode (skip s) e) with
      | none => rw [hv] at h; exact absurd h (by simp)
      | some o =>
        obtain ⟨p, ns, er⟩ := o
        have hv' : (if isInclude (skip s) then parseInclude v (fuel + 1) newNode (skip s) e else
            member true (parseValue v true (fuel + 1)) newNode (skip s) e) = some (p, ns, er) := by
          by_cases hi : isInclude (skip s) = true
          · rw [if_pos hi] at hv ⊢; exact (mono v fuel).2.2.2.1 _ _ _ _ hv
          · rw [if_neg hi] at hv ⊢; exact member_mono ((mono v fuel).1 true) hv
        rw [hv']
        rw [hv] at h
        simp only at h ⊢
        split at h
        · exact h
        · exact ih _ _ _ _ h

theorem mono_le {α : Type} {f : Nat → Option α} (h : ∀ k r, f k = some r → f (k + 1) = some r) {j k : Nat} {r : α} (hj : f j = some r) (hk : j ≤ k) :
    f k = some r := by
  induction hk with
  | refl => exact hj
  | step _ ih => exact h _ _ ih

theorem open_mono (v : Env) (fn : Bytes) (k : Nat) (r : Option (List Node)) (h : openFile v k fn = some r) : openFile v (k + 1) fn = some r := by
  unfold openFile at h ⊢
  cases hb : fileText v fn with
  | none => rw [hb] at h; exact h
  | some b =>
    rw [hb] at h
    simp only at h ⊢
    cases hl : topLoop v k [] (skip b) 0 with
    | none => rw [hl] at h; exact absurd h (by simp)
    | some q => rw [top_mono v k _ _ _ _ hl]; rw [hl] at h; exact h

theorem load_mono (v : Env) (t : Bytes) (k : Nat) (r : Option Node) (h : load v k t = some r) : load v (k + 1) t = some r := by
  unfold load at h ⊢
  by_cases h0 : at0 (skip t) = 123
  · rw [if_pos h0] at h ⊢
    cases hl : parseValue v false k newNode (skip t) 0 with
    | none => rw [hl] at h; exact absurd h (by simp)
    | some q => rw [(mono v k).1 _ _ _ _ _ hl]; rw [hl] at h; exact h
  · rw [if_neg h0] at h ⊢; exact h

end Sis.Conf
