import Verif.Strs.Json
/-
Lemmas on the JSON reader and writer.
-/
namespace Sis.Json
open Sis Num

/-! ### The reader always ends -/

theorem skip_length (s : Bytes) : (skip s).length ≤ s.length := by
  unfold skip
  induction s with
  | nil => simp
  | cons c s ih =>
    rw [List.dropWhile_cons]; split
    · simp; omega
    · simp

theorem dropWhile_length {p : UInt8 → Bool} (s : Bytes) : (s.dropWhile p).length ≤ s.length := by
  induction s with
  | nil => simp
  | cons c s ih =>
    rw [List.dropWhile_cons]; split
    · simp; omega
    · simp

theorem dropWhile_lt {p : UInt8 → Bool} {s : Bytes} (h : ∃ c t, s = c :: t ∧ p c = true) :
    (s.dropWhile p).length < s.length := by
  obtain ⟨c, t, rfl, h⟩ := h
  rw [List.dropWhile_cons, if_pos h]
  have := dropWhile_length (p := p) t
  simp; omega

theorem scanStr_length {a : UInt8} {s : Bytes} {n : Nat} {q : Bytes} (h : scanStr a s = some (n, q)) :
    q.length ≤ s.length ∧ ∃ r, q = 34 :: r := by
  induction s generalizing a n with
  | nil => cases h
  | cons c s ih =>
    rw [scanStr] at h
    split at h
    · cases hs : scanStr c s with
      | none => rw [hs] at h; cases h
      | some x =>
        obtain ⟨m, t⟩ := x
        rw [hs] at h
        simp only [Option.map_some, Option.some.injEq, Prod.mk.injEq] at h
        obtain ⟨-, rfl⟩ := h
        have := ih hs
        exact ⟨by simp; omega, this.2⟩
    · rename_i hc
      simp only [Option.some.injEq, Prod.mk.injEq] at h
      obtain ⟨-, rfl⟩ := h
      have : c = 34 := by
        rcases Decidable.em (c = 34) with h1 | h1
        · exact h1
        · exact absurd (.inl h1) hc
      exact ⟨Nat.le_refl _, s, by rw [this]⟩

theorem ncase_false {s : Bytes} (h : ncaseEq 5 1 s [102, 97, 108, 115, 101] = true ∨
    ncaseEq 4 1 s [116, 114, 117, 101] = true ∨ ncaseEq 3 1 s [78, 97, 78] = true) :
    ∃ c t, s = c :: t ∧ infoCh c = true := by
  have key : ∀ n : Fin 256, (lower (UInt8.ofNat n.val) = lower 102 ∨ lower (UInt8.ofNat n.val) = lower 116 ∨
      lower (UInt8.ofNat n.val) = lower 78) → infoCh (UInt8.ofNat n.val) = true := by decide +kernel
  cases s with
  | nil => exfalso; revert h; decide
  | cons c t =>
    refine ⟨c, t, rfl, ?_⟩
    have k := key ⟨c.toNat, c.toNat_lt⟩
    simp only [UInt8.ofNat_toNat] at k
    apply k
    rcases h with h | h | h <;> simp [ncaseEq, at0] at h
    · exact .inl h.1
    · exact .inr (.inl h.1)
    · exact .inr (.inr h.1)

theorem parseScalar_ptr (n : Node) (s : Bytes) (err : Bool) (p : Bytes) (h : (parseScalar n s err).ptr = some p) :
    p.length < s.length := by
  unfold parseScalar at h
  split at h
  · rename_i hc
    simp only [parseNumber, Option.some.injEq] at h
    subst h
    apply dropWhile_lt
    cases s with
    | nil => simp at hc
    | cons c t =>
      refine ⟨c, t, rfl, ?_⟩
      simp only [at0, Bool.and_eq_true, Bool.or_eq_true] at hc
      rcases hc.1 with h | h <;> simp_all [numCh]
  · split at h
    · rename_i hc
      simp only [parseInfo, Option.some.injEq] at h
      subst h
      apply dropWhile_lt
      rw [Bool.or_eq_true] at hc
      rcases hc with hc | hc
      · exact ncase_false (.inl hc)
      · exact ncase_false (.inr (.inl hc))
    · split at h
      · rename_i hc
        simp only [parseInfo, Option.some.injEq] at h
        subst h
        exact dropWhile_lt (ncase_false (.inr (.inr hc)))
      · cases h

theorem total_all (fuel : Nat) :
    (∀ n s err, 2 * s.length + 2 ≤ fuel → ∃ o, parseValue fuel n s err = some o ∧
      ∀ p, o.ptr = some p → p.length < s.length) ∧
    (∀ idx done cur s err, 2 * s.length + 3 ≤ fuel → ∃ p c e, arrayLoop fuel idx done cur s err = some (p, c, e) ∧
      ∀ q, p = some q → q.length < s.length) ∧
    (∀ done cur s err, 2 * s.length + 3 ≤ fuel → ∃ p c e, objectLoop fuel done cur s err = some (p, c, e) ∧
      ∀ q, p = some q → q.length < s.length) := by
  induction fuel with
  | zero =>
    refine ⟨?_, ?_, ?_⟩
    · intro n s err h; omega
    · intro i d c s e h; omega
    · intro d c s e h; omega
  | succ fuel ih =>
    obtain ⟨ihv, iha, iho⟩ := ih
    refine ⟨?_, ?_, ?_⟩
    · intro n s err hf
      unfold parseValue
      split
      · rename_i t
        simp only [List.length_cons] at hf ⊢
        split
        · exact ⟨_, rfl, nofun⟩
        · rename_i len q hq
          obtain ⟨hl, r, rfl⟩ := scanStr_length hq
          simp only [List.length_cons] at hl
          have hk := dropWhile_length (p := fun c => c != 58 && c != 44) r
          split
          · split
            · exact ⟨_, rfl, nofun⟩
            · rename_i r' hr
              simp only [List.tail_cons, keyEnd] at hr
              rw [hr] at hk
              simp only [List.length_cons] at hk
              have := skip_length r'
              obtain ⟨o, ho, hp⟩ := ihv (.mk n.ty (some (strdup t len)) n.value n.child) (skip r') err (by omega)
              refine ⟨_, by rw [ho]; rfl, ?_⟩
              intro p hp'
              cases hop : o.ptr with
              | none => simp [skipP, hop] at hp'
              | some p1 =>
                simp only [skipP, hop, Option.map_some, Option.some.injEq] at hp'
                have h1 := hp p1 hop
                have h2 := skip_length p1
                rw [← hp']; omega
            · refine ⟨_, rfl, ?_⟩
              intro p hp
              simp only [Option.some.injEq] at hp
              rw [← hp]
              simp only [List.tail_cons, keyEnd]
              omega
          · refine ⟨_, rfl, ?_⟩
            intro p hp
            simp only [Option.some.injEq, List.tail_cons] at hp
            rw [← hp]; omega
      · rename_i t
        simp only [List.length_cons] at hf ⊢
        have hs := skip_length t
        split
        · refine ⟨_, rfl, ?_⟩
          intro p hp
          simp only [Option.some.injEq] at hp
          rw [← hp, List.length_tail]; omega
        · obtain ⟨p, c, e, h1, h2⟩ := iha 0 [] newNode (skip t) err (by omega)
          refine ⟨_, by rw [h1]; rfl, ?_⟩
          intro q hq
          have := h2 q hq; omega
      · rename_i t
        simp only [List.length_cons] at hf ⊢
        have hs := skip_length t
        split
        · refine ⟨_, rfl, ?_⟩
          intro p hp
          simp only [Option.some.injEq] at hp
          rw [← hp, List.length_tail]; omega
        · obtain ⟨p, c, e, h1, h2⟩ := iho [] newNode (skip t) err (by omega)
          refine ⟨_, by rw [h1]; rfl, ?_⟩
          intro q hq
          have := h2 q hq; omega
      · exact ⟨_, rfl, fun p hp => parseScalar_ptr _ _ _ _ hp⟩
    · intro idx done cur s err hf
      rw [arrayLoop]
      split
      · exact ⟨_, _, _, rfl, nofun⟩
      · have hs := skip_length s
        obtain ⟨o, ho, hp⟩ := ihv (.mk cur.ty (some (llutoa idx 32)) cur.value cur.child) (skip s) err (by omega)
        rw [ho]
        simp only
        cases hop : o.ptr with
        | none => exact ⟨_, _, _, rfl, nofun⟩
        | some p1 =>
          have h1 := hp p1 hop
          have h2 := skip_length p1
          simp only [skipP, Option.map_some]
          split
          · rename_i h; cases h
          · exact ⟨_, _, _, rfl, nofun⟩
          · rename_i r hr
            simp only [Option.some.injEq] at hr
            rw [hr] at h2; simp only [List.length_cons] at h2
            refine ⟨_, _, _, rfl, ?_⟩
            intro q hq
            simp only [Option.some.injEq] at hq
            rw [← hq]; omega
          · rename_i r hr
            simp only [Option.some.injEq] at hr
            rw [hr] at h2; simp only [List.length_cons] at h2
            obtain ⟨p, c, e, g1, g2⟩ := iha (idx + 1) (done ++ [o.node]) newNode r o.err (by omega)
            refine ⟨p, c, e, g1, ?_⟩
            intro q hq; have := g2 q hq; omega
          · rename_i r _ _ _ hr
            simp only [Option.some.injEq] at hr
            rw [hr] at h2
            obtain ⟨p, c, e, g1, g2⟩ := iha (idx + 1) done o.node r o.err (by omega)
            refine ⟨p, c, e, g1, ?_⟩
            intro q hq; have := g2 q hq; omega
    · intro done cur s err hf
      rw [objectLoop]
      split
      · exact ⟨_, _, _, rfl, nofun⟩
      · have hs := skip_length s
        obtain ⟨o, ho, hp⟩ := ihv cur (skip s) err (by omega)
        rw [ho]
        simp only
        cases hop : o.ptr with
        | none => exact ⟨_, _, _, rfl, nofun⟩
        | some p1 =>
          have h1 := hp p1 hop
          have h2 := skip_length p1
          simp only [skipP, Option.map_some]
          split
          · rename_i h; cases h
          · exact ⟨_, _, _, rfl, nofun⟩
          · rename_i r hr
            simp only [Option.some.injEq] at hr
            rw [hr] at h2; simp only [List.length_cons] at h2
            refine ⟨_, _, _, rfl, ?_⟩
            intro q hq
            simp only [Option.some.injEq] at hq
            rw [← hq]; omega
          · rename_i r hr
            simp only [Option.some.injEq] at hr
            rw [hr] at h2; simp only [List.length_cons] at h2
            obtain ⟨p, c, e, g1, g2⟩ := iho (done ++ [o.node]) newNode r o.err (by omega)
            refine ⟨p, c, e, g1, ?_⟩
            intro q hq; have := g2 q hq; omega
          · rename_i r _ _ _ hr
            simp only [Option.some.injEq] at hr
            rw [hr] at h2
            obtain ⟨p, c, e, g1, g2⟩ := iho done o.node r o.err (by omega)
            refine ⟨p, c, e, g1, ?_⟩
            intro q hq; have := g2 q hq; omega

/-- The bound on the recursion in the model of the reader is never reached. -/
theorem load_total (s : Bytes) : load s ≠ none := by
  unfold load
  split
  · nofun
  · unfold parse
    have h := skip_length (cstrOf s)
    obtain ⟨o, ho, -⟩ := (total_all (fuelFor (cstrOf s))).1 newNode (skip (cstrOf s)) false
      (by unfold fuelFor; omega)
    rw [ho]; nofun

end Sis.Json
