import Verif.Strs.SplitLemmas
/-
C129: bytes are split at a separator, and nothing is lost.
-/
namespace Sis.Split
open Sis

/-- C129: bytes split at a separator: never is the array of strings left, joined with the separator the strings are the bytes again,
the separator behind each string but the last is the first one there, and there is none in the last.  For fewer than 2^30 - 1 bytes. -/
theorem C129_split_partial (s sep : Bytes) (h0 : s ≠ []) (hsep : sep ≠ []) (hs : s.length + 1 < 2 ^ 30) :
    ∃ ps p, splitLen s sep = some (.toks (ps ++ [p])) ∧ Args.joinSds sep (ps ++ [p]) = s ∧ (∀ x ∈ ps, First sep x) ∧ ¬ sep <:+: p := by
  obtain ⟨ps, p, e, h1, h2, h3⟩ := split_ok s sep hsep hs h0
  exact ⟨ps, p, e, by rw [join_front, ← h1], h2, h3⟩

/-- C129: strings joined with a separator that does not begin within them are split into the same strings. -/
theorem C129_round_trip_partial (ps : List Bytes) (p sep : Bytes) (hsep : sep ≠ []) (h1 : ∀ x ∈ ps, First sep x) (h2 : ¬ sep <:+: p)
    (h0 : ps ++ [p] ≠ [[]]) (hs : (Args.joinSds sep (ps ++ [p])).length + 1 < 2 ^ 30) :
    splitLen (Args.joinSds sep (ps ++ [p])) sep = some (.toks (ps ++ [p])) := by
  have hne : Args.joinSds sep (ps ++ [p]) ≠ [] := by
    rw [join_front]
    intro h
    rcases ps with _ | ⟨a, ps⟩
    · apply h0
      have : p = [] := by simpa [front] using h
      rw [this]; rfl
    · simp [front, hsep] at h
  obtain ⟨qs, q, e, h3, h4, h5⟩ := split_ok _ sep hsep hs hne
  rw [join_front] at h3
  obtain ⟨e1, e2⟩ := unique sep ps qs p q h3 h1 h4 h2 h5
  rw [e, e1, e2]

/-- C129: strings without the byte `c` joined with it, but the one empty string, are split into the same strings. -/
theorem C129_byte_round_trip_partial (l : List Bytes) (c : UInt8) (hl : l ≠ []) (h0 : l ≠ [[]]) (hc : ∀ x ∈ l, c ∉ x)
    (hs : (Args.joinSds [c] l).length + 1 < 2 ^ 30) : splitLen (Args.joinSds [c] l) [c] = some (.toks l) := by
  obtain ⟨ps, p, rfl⟩ : ∃ ps p, l = ps ++ [p] := ⟨l.dropLast, l.getLast hl, (List.dropLast_concat_getLast hl).symm⟩
  apply C129_round_trip_partial ps p [c] (by simp) _ _ h0 hs
  · intro x hx a b hab
    rcases Nat.lt_or_ge a.length x.length with h | h
    · exfalso
      apply hc x (by simp [hx])
      have h1 := congrArg (fun l => l[a.length]?) hab
      simp [List.getElem?_append_left h] at h1
      exact List.mem_of_getElem? h1
    · exact h
  · rintro ⟨a, b, hab⟩
    exact hc p (by simp) (by rw [← hab]; simp)

/-- C129: without a separator nothing is split, and no bytes are no strings. -/
theorem C129_none (s sep : Bytes) : splitLen s [] = some .null ∧ (sep ≠ [] → splitLen [] sep = some (.toks [])) := by
  refine ⟨rfl, fun h => ?_⟩
  have : 0 < sep.length := List.length_pos_iff.2 h
  unfold splitLen
  rw [if_neg (by omega)]; rfl

/-- Where the code fails: the one empty string joined is split into no string, while two empty strings are two. -/
theorem C129_violated_empty :
    splitLen (Args.joinSds [44] [[]]) [44] = some (.toks []) ∧ splitLen (Args.joinSds [44] [[], []]) [44] = some (.toks [[], []]) := by
  decide +kernel

/-- `a--b---c` at `--`. -/
example : splitLen [97, 45, 45, 98, 45, 45, 45, 99] [45, 45] = some (.toks [[97], [98], [45, 99]]) := by decide +kernel

example : ∀ x ∈ ([[97, 0], [], [98]] : List Bytes), (44 : UInt8) ∉ x := by decide

/-- A string that holds half a separator, but not at its end. -/
example : First [45, 45] [45, 97] := by
  intro a b h
  rcases a with _ | ⟨x, _ | ⟨y, a⟩⟩ <;> simp at h ⊢

end Sis.Split
