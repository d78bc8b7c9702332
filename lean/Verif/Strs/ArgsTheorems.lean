import Verif.Strs.ArgsLemmas
/-
C126: what is quoted and joined is split back, and a line with quotes that are not closed is refused.
-/
namespace Sis.Args
open Sis

/-- C126: any arguments, each written in double quotes in any way, in single quotes or as a plain word, joined by blanks
with `sis_sdsjoinsds`, with blanks before and behind, are split by `sis_sdssplitargs` into exactly these arguments. -/
theorem C126_round_trip_partial (ps : List (Bytes × Bytes)) (h : ∀ p ∈ ps, Written p.1 p.2)
    (sep lead trail : Bytes) (hs : sep ≠ [] ∧ ∀ c ∈ sep, Blank c) (hl : ∀ c ∈ lead, Blank c) (ht : ∀ c ∈ trail, Blank c) :
    splitArgs (lead ++ joinSds sep (ps.map (·.2)) ++ trail) = some (ps.map (·.1)) := by
  have hj := join_len sep ps h
  have hu : Ends trail := by
    rcases trail with _ | ⟨c, v⟩
    · exact .inl rfl
    · exact .inr ⟨c, v, rfl, ht c (by simp)⟩
  have hd : trail.dropWhile isSpace = [] := by
    have := List.dropWhile_append_of_pos (l₂ := []) (fun c hc => blank_space (ht c hc))
    simpa using this
  unfold splitArgs
  have e : (lead ++ joinSds sep (ps.map (·.2)) ++ trail).length + 1 =
      (lead.length + ((joinSds sep (ps.map (·.2))).length - ps.length) + trail.length) + 1 + ps.length := by
    simp only [List.length_append]; omega
  rw [e, List.append_assoc, args_drop _ _ (joinSds sep (ps.map (·.2)) ++ trail)
    (by rw [List.dropWhile_append_of_pos (fun c hc => blank_space (hl c hc))]),
    args_many sep hs ps h _ trail hu, args, hd]
  simp

/-- C126: what `sis_sdscatrepr` appends is a way of writing any bytes in double quotes. -/
theorem C126_quoted (s x : Bytes) : ∃ t, catRepr s x = s ++ t ∧ Written x t ∧ t.head? = some 34 :=
  ⟨catRepr [] x, by simp [catRepr], repr_written x, by simp [catRepr]⟩

/-- C126: any arguments, quoted by `sis_sdscatrepr` and joined by blanks, are split into exactly these arguments. -/
theorem C126_repr_round_trip (xs : List Bytes) (sep : Bytes) (hs : sep ≠ [] ∧ ∀ c ∈ sep, Blank c) :
    splitArgs (joinSds sep (xs.map (catRepr []))) = some xs := by
  have := C126_round_trip_partial (xs.map fun x => (x, catRepr [] x)) (by
    intro p hp
    obtain ⟨x, _, rfl⟩ := List.mem_map.1 hp
    exact repr_written x) sep [] [] hs (by simp) (by simp)
  simpa [Function.comp_def] using this

/-- C126: the line `sis_sdscatrepr` makes of any bytes has no zero in it, so that it is a text of C. -/
theorem C126_text (x : Bytes) : (0 : UInt8) ∉ catRepr [] x := by
  have hx : ∀ n < 256, (0 : UInt8) ∉ escape (UInt8.ofNat n) := by decide +kernel
  have hc : ∀ c : UInt8, (0 : UInt8) ∉ escape c := fun c => by simpa using hx c.toNat c.toNat_lt
  simp [catRepr, hc]

/-- C126: behind any arguments, an argument whose double quotes are not closed, or are followed by something that is not a space,
makes the whole line refused. -/
theorem C126_refused (ps : List (Bytes × Bytes)) (h : ∀ p ∈ ps, Written p.1 p.2)
    (sep : Bytes) (hs : sep ≠ [] ∧ ∀ c ∈ sep, Blank c) (cs : List (UInt8 × Bytes)) (hcs : ∀ p ∈ cs, Coded p.1 p.2)
    (c : UInt8) (r : Bytes) (hc : c ≠ 32 ∧ (c < 9 ∨ 13 < c)) :
    splitArgs (joinSds sep (ps.map (·.2)) ++ sep ++ (inDouble cs).dropLast) = none ∧
    splitArgs (joinSds sep (ps.map (·.2)) ++ sep ++ inDouble cs ++ c :: r) = none := by
  have key : ∀ v, token .quoted [] v = none → splitArgs (joinSds sep (ps.map (·.2)) ++ (sep ++ 34 :: v)) = none := fun v hv =>
    refused ps h sep hs 34 v (by decide) (by rw [token, if_neg (by decide), if_pos rfl, hv])
  constructor
  · have := key (cs.flatMap (·.2)) (by
      have := tok_codes [] cs hcs []
      rw [List.append_nil] at this
      rw [this]; rfl)
    rw [inDouble, List.dropLast_concat]
    simpa using this
  · have := key (cs.flatMap (·.2) ++ 34 :: c :: r) (by
      rw [tok_codes _ _ hcs, tok_close]; simp [closed, not_space hc])
    simpa [inDouble] using this

/-- C126: the same for single quotes. -/
theorem C126_refused_single (ps : List (Bytes × Bytes)) (h : ∀ p ∈ ps, Written p.1 p.2)
    (sep : Bytes) (hs : sep ≠ [] ∧ ∀ c ∈ sep, Blank c) (x : Bytes) (c : UInt8) (r : Bytes) (hc : c ≠ 32 ∧ (c < 9 ∨ 13 < c)) :
    splitArgs (joinSds sep (ps.map (·.2)) ++ sep ++ (inSingle x).dropLast) = none ∧
    (x.getLast? ≠ some 92 → splitArgs (joinSds sep (ps.map (·.2)) ++ sep ++ inSingle x ++ c :: r) = none) := by
  have key : ∀ v, token .single [] v = none → splitArgs (joinSds sep (ps.map (·.2)) ++ (sep ++ 39 :: v)) = none := fun v hv =>
    refused ps h sep hs 39 v (by decide) (by rw [token, if_neg (by decide), if_neg (by decide), if_pos rfl, hv])
  constructor
  · have := key _ (tok_single_open [] x)
    rw [inSingle, List.dropLast_concat]
    simpa using this
  · intro hx
    have := key (x.flatMap (fun c => if c = 39 then [92, 39] else [c]) ++ 39 :: c :: r) (by
      rw [tok_single _ _ _ hx]; simp [closed, not_space hc])
    simpa [inSingle] using this

/-- C126: the steps `sis_sdssplitargs` is given are enough for every line: more steps change nothing, so that it ends on every line
and `none` always is a line refused. -/
theorem C126_ends (s : Bytes) (n : Nat) (h : s.length < n) : args n s = splitArgs s :=
  args_steps n (s.length + 1) s h (by omega)

/-- Where the code fails: a vertical tab is a blank before an argument and behind quotes, but not behind a plain word. -/
theorem C126_violated_tab :
    splitArgs ([11] ++ catRepr [] [97] ++ [11] ++ catRepr [] [98]) = some [[97], [98]] ∧
    splitArgs ([11] ++ [97] ++ [11] ++ [98]) = some [[97, 11, 98]] := by
  decide +kernel

/-- `foo 'it\'s' "a\n\xff\x00"` -/
example : splitArgs (joinSds [32] ([([102, 111, 111], [102, 111, 111]), ([105, 116, 39, 115], inSingle [105, 116, 39, 115]),
      ([97, 10, 255, 0], catRepr [] [97, 10, 255, 0])].map (·.2))) = some [[102, 111, 111], [105, 116, 39, 115], [97, 10, 255, 0]] ∧
    catRepr [] [97, 10, 255, 0] = [34, 97, 92, 110, 92, 120, 102, 102, 92, 120, 48, 48, 34] := by
  decide +kernel

/-- The hypotheses are met by these arguments. -/
example : ∀ p ∈ [(([102, 111, 111] : Bytes), ([102, 111, 111] : Bytes)), ([105, 116, 39, 115], inSingle [105, 116, 39, 115]),
    ([10, 97], [34, 92, 120, 48, 65, 97, 34]), ([97, 10, 255, 0], catRepr [] [97, 10, 255, 0])], Written p.1 p.2 := by
  intro p hp
  simp only [List.mem_cons, List.not_mem_nil, or_false] at hp
  rcases hp with rfl | rfl | rfl | rfl
  · exact .plain _ ⟨by simp, by simp [Blank], by simp, by simp⟩
  · exact .single _ (by simp)
  · exact .double [(10, [92, 120, 48, 65]), (97, [97])] (by
      intro p hp
      simp only [List.mem_cons, List.not_mem_nil, or_false] at hp
      rcases hp with rfl | rfl
      · exact .hex 48 65 0 10 (.dec 0 (by omega)) (.upper 0 (by omega))
      · exact .lit _ (by decide) (by decide))
  · exact repr_written [97, 10, 255, 0]

end Sis.Args
