import Verif.Strs.Args
import Verif.Strs.ArgsSpec
namespace Sis.Args
open Sis

theorem digit_ok (d : UInt8) (v : Nat) (h : Digit d v) : isHex d = true ∧ hexVal d = UInt8.ofNat v := by
  have h1 : ∀ v < 10, isHex (UInt8.ofNat (48 + v)) = true ∧ hexVal (UInt8.ofNat (48 + v)) = UInt8.ofNat v := by decide +kernel
  have h2 : ∀ v < 6, isHex (UInt8.ofNat (97 + v)) = true ∧ hexVal (UInt8.ofNat (97 + v)) = UInt8.ofNat (10 + v) := by decide +kernel
  have h3 : ∀ v < 6, isHex (UInt8.ofNat (65 + v)) = true ∧ hexVal (UInt8.ofNat (65 + v)) = UInt8.ofNat (10 + v) := by decide +kernel
  cases h with
  | dec v hv => exact h1 v hv
  | lower v hv => exact h2 v hv
  | upper v hv => exact h3 v hv

theorem digit_of (n : Nat) (h : n < 16) : Digit (hexDigit (UInt8.ofNat n)) n := by
  by_cases h1 : n < 10
  · have : ∀ n < 10, hexDigit (UInt8.ofNat n) = UInt8.ofNat (48 + n) := by decide +kernel
    rw [this n h1]; exact .dec n h1
  · have : ∀ n < 6, hexDigit (UInt8.ofNat (10 + n)) = UInt8.ofNat (97 + n) := by decide +kernel
    have h2 := this (n - 10) (by omega)
    have h3 : 10 + (n - 10) = n := by omega
    rw [h3] at h2
    rw [h2]
    have := Digit.lower (n - 10) (by omega)
    rwa [h3] at this

theorem escape_coded (c : UInt8) : Coded c (escape c) := by
  unfold escape
  by_cases h : c = 92 ∨ c = 34
  · rw [if_pos h]
    rcases h with rfl | rfl <;> exact .same _ (by decide)
  rw [if_neg h]
  by_cases h1 : c = 10
  · subst h1; exact .lf
  by_cases h2 : c = 13
  · subst h2; exact .cr
  by_cases h3 : c = 9
  · subst h3; exact .tab
  by_cases h4 : c = 7
  · subst h4; exact .bell
  by_cases h5 : c = 8
  · subst h5; exact .backspace
  rw [if_neg h1, if_neg h2, if_neg h3, if_neg h4, if_neg h5]
  by_cases h6 : isPrint c = true
  · rw [if_pos h6]
    exact .lit _ (fun e => h (.inl e)) (fun e => h (.inr e))
  · rw [if_neg h6]
    have hn := c.toNat_lt
    have a := digit_of (c.toNat / 16) (by omega)
    have b := digit_of (c.toNat % 16) (by omega)
    have e1 : UInt8.ofNat (c.toNat / 16) = c / 16 := by
      apply UInt8.toNat_inj.1; simp; omega
    have e2 : UInt8.ofNat (c.toNat % 16) = c % 16 := by
      apply UInt8.toNat_inj.1; simp; omega
    rw [e1] at a
    rw [e2] at b
    have := Coded.hex _ _ _ _ a b
    have e3 : UInt8.ofNat (c.toNat / 16 * 16 + c.toNat % 16) = c := by
      apply UInt8.toNat_inj.1; simp; omega
    rwa [e3] at this

theorem repr_written (x : Bytes) : Written x (catRepr [] x) := by
  have := Written.double (x.map fun c => (c, escape c)) (by
    intro p hp
    obtain ⟨c, _, rfl⟩ := List.mem_map.1 hp
    exact escape_coded c)
  simpa [inDouble, catRepr, List.flatMap_map, Function.comp_def] using this

/-- A backslash and a byte that is not `x`. -/
theorem tok_bs (acc : Bytes) (x : UInt8) (s : Bytes) (hx : x ≠ 120) : token .quoted acc (92 :: x :: s) = token .quoted (acc ++ [unescape x]) s := by
  rcases s with _ | ⟨a, _ | ⟨b, r⟩⟩
  · simp [token]
  · simp [token]
  · rw [token, if_neg (by simp [hx]), if_pos rfl]

/-- A byte that is neither a backslash nor a quote. -/
theorem tok_lit (acc : Bytes) (c : UInt8) (s : Bytes) (h1 : c ≠ 92) (h2 : c ≠ 34) : token .quoted acc (c :: s) = token .quoted (acc ++ [c]) s := by
  rcases s with _ | ⟨x, _ | ⟨a, _ | ⟨b, r⟩⟩⟩
  · simp [token, h2]
  · simp [token, h1, h2]
  · simp [token, h1, h2]
  · rw [token, if_neg (by simp [h1]), if_neg h1, if_neg h2]

theorem tok_close (acc s : Bytes) : token .quoted acc (34 :: s) = closed acc s := by
  rcases s with _ | ⟨x, _ | ⟨a, _ | ⟨b, r⟩⟩⟩ <;> simp [token]

theorem tok_coded (acc : Bytes) (c : UInt8) (t s : Bytes) (h : Coded c t) : token .quoted acc (t ++ s) = token .quoted (acc ++ [c]) s := by
  cases h with
  | lit _ h1 h2 => exact tok_lit _ _ _ h1 h2
  | same _ h =>
    simp at h
    have e : unescape c = c := by simp [unescape, h]
    have := tok_bs acc c s h.2.2.2.2.2
    rwa [e] at this
  | lf => exact tok_bs _ _ _ (by decide)
  | cr => exact tok_bs _ _ _ (by decide)
  | tab => exact tok_bs _ _ _ (by decide)
  | bell => exact tok_bs _ _ _ (by decide)
  | backspace => exact tok_bs _ _ _ (by decide)
  | hex h l v w hh hl =>
    obtain ⟨a1, a2⟩ := digit_ok _ _ hh
    obtain ⟨b1, b2⟩ := digit_ok _ _ hl
    simp only [List.cons_append, List.nil_append]
    have e : hexVal h * 16 + hexVal l = UInt8.ofNat (v * 16 + w) := by
      rw [a2, b2]; simp
    rw [token, if_pos ⟨rfl, rfl, a1, b1⟩, e]

theorem tok_codes (acc : Bytes) (cs : List (UInt8 × Bytes)) (h : ∀ p ∈ cs, Coded p.1 p.2) (s : Bytes) :
    token .quoted acc (cs.flatMap (·.2) ++ s) = token .quoted (acc ++ cs.map (·.1)) s := by
  induction cs generalizing acc with
  | nil => simp
  | cons p cs ih =>
    rw [List.flatMap_cons, List.append_assoc, tok_coded _ _ _ _ (h p (by simp)), ih _ fun q hq => h q (by simp [hq])]; simp

theorem tok_single (acc x s : Bytes) (h : x.getLast? ≠ some 92) :
    token .single acc (x.flatMap (fun c => if c = 39 then [92, 39] else [c]) ++ 39 :: s) = closed (acc ++ x) s := by
  induction x generalizing acc with
  | nil => rcases s with _ | ⟨x, s⟩ <;> simp [token]
  | cons c x ih =>
    rw [List.flatMap_cons]
    by_cases h1 : c = 39
    · subst h1
      have hx : x.getLast? ≠ some 92 := by
        intro e; apply h; rw [List.getLast?_cons, e]; rfl
      simp only [if_true, List.cons_append, List.nil_append]
      rw [token, if_pos ⟨rfl, rfl⟩, ih _ hx]; simp
    · have hx : x.getLast? ≠ some 92 := by
        intro e; apply h; rw [List.getLast?_cons, e]; rfl
      rw [if_neg h1, List.cons_append, List.nil_append]
      have e : ∀ y u, x.flatMap (fun c => if c = 39 then [92, 39] else [c]) ++ 39 :: s = y :: u → ¬ (c = 92 ∧ y = 39) := by
        rintro y u e ⟨rfl, rfl⟩
        rcases x with _ | ⟨d, x⟩
        · exact h rfl
        · by_cases h2 : d = 39
          · subst h2; simp at e
          · simp [h2] at e
      have hi := ih (acc ++ [c]) hx
      revert e hi
      generalize hz : x.flatMap (fun c => if c = 39 then [92, 39] else [c]) ++ 39 :: s = z
      intro e hi
      rcases z with _ | ⟨y, u⟩
      · simp at hz
      · have e1 : token .single acc (c :: y :: u) = if c = 92 ∧ y = 39 then token .single (acc ++ [39]) u
          else if c = 39 then closed acc (y :: u)
          else token .single (acc ++ [c]) (y :: u) := rfl
        rw [List.cons_append, hz, e1, if_neg (e y u rfl), if_neg h1, hi]; simp

theorem tok_single_open (acc x : Bytes) : token .single acc (x.flatMap (fun c => if c = 39 then [92, 39] else [c])) = none := by
  induction x generalizing acc with
  | nil => rfl
  | cons c x ih =>
    rw [List.flatMap_cons]
    by_cases h1 : c = 39
    · subst h1
      simp only [if_true, List.cons_append, List.nil_append]
      rw [token, if_pos ⟨rfl, rfl⟩, ih]
    · rw [if_neg h1, List.cons_append, List.nil_append]
      have e : ∀ y u, x.flatMap (fun c => if c = 39 then [92, 39] else [c]) = y :: u → ¬ (c = 92 ∧ y = 39) := by
        rintro y u e ⟨rfl, rfl⟩
        rcases x with _ | ⟨d, x⟩
        · simp at e
        · by_cases h2 : d = 39
          · subst h2; simp at e
          · simp [h2] at e
      have hi := ih (acc ++ [c])
      revert e hi
      generalize hz : x.flatMap (fun c => if c = 39 then [92, 39] else [c]) = z
      intro e hi
      rcases z with _ | ⟨y, u⟩
      · simp [token, h1]
      · have e1 : token .single acc (c :: y :: u) = if c = 92 ∧ y = 39 then token .single (acc ++ [39]) u
          else if c = 39 then closed acc (y :: u)
          else token .single (acc ++ [c]) (y :: u) := rfl
        rw [e1, if_neg (e y u rfl), if_neg h1, hi]

theorem tok_plain1 (acc : Bytes) (c : UInt8) (s : Bytes) (h : ¬ Blank c ∧ c ≠ 34 ∧ c ≠ 39) :
    token .plain acc (c :: s) = token .plain (acc ++ [c]) s := by
  obtain ⟨a, b, d⟩ := h
  have e : token .plain acc (c :: s) = if c = 32 ∨ c = 10 ∨ c = 13 ∨ c = 9 then some (acc, s)
    else if c = 34 then token .quoted acc s
    else if c = 39 then token .single acc s
    else token .plain (acc ++ [c]) s := rfl
  rw [e, if_neg (by intro e; apply a; unfold Blank; rcases e with e | e | e | e <;> simp [e]), if_neg b, if_neg d]

theorem tok_plain (acc x s : Bytes) (h : ∀ c ∈ x, ¬ Blank c ∧ c ≠ 34 ∧ c ≠ 39) : token .plain acc (x ++ s) = token .plain (acc ++ x) s := by
  induction x generalizing acc with
  | nil => simp
  | cons c x ih =>
    rw [List.cons_append, tok_plain1 _ _ _ (h c (by simp)), ih _ (fun y hy => h y (by simp [hy]))]
    simp

theorem blank_space {c : UInt8} (h : Blank c) : isSpace c = true := by
  rcases h with rfl | rfl | rfl | rfl <;> decide

/-- The end of an argument: nothing, or a blank. -/
def Ends (u : Bytes) : Prop := u = [] ∨ ∃ c v, u = c :: v ∧ Blank c

theorem closed_ends (acc u : Bytes) (h : Ends u) : closed acc u = some (acc, u) := by
  rcases h with rfl | ⟨c, v, rfl, hc⟩
  · rfl
  · simp [closed, blank_space hc]

theorem space_of {c : UInt8} (h : isSpace c = true) : Blank c ∨ c = 11 ∨ c = 12 := by
  have : ∀ n < 256, isSpace (UInt8.ofNat n) = true → (UInt8.ofNat n = 32 ∨ UInt8.ofNat n = 9 ∨ UInt8.ofNat n = 10 ∨ UInt8.ofNat n = 13) ∨ UInt8.ofNat n = 11 ∨ UInt8.ofNat n = 12 := by
    decide +kernel
  have := this c.toNat c.toNat_lt
  simp at this
  simpa [Blank] using this h

theorem tok_written (x t u : Bytes) (h : Written x t) (hu : Ends u) :
    ∃ c v r, t = c :: v ∧ isSpace c = false ∧ token .plain [] (t ++ u) = some (x, r) ∧ r.dropWhile isSpace = u.dropWhile isSpace := by
  cases h with
  | double cs hcs =>
    refine ⟨34, cs.flatMap (·.2) ++ [34], u, by simp [inDouble], by decide, ?_, rfl⟩
    simp only [inDouble, List.nil_append, List.cons_append, List.append_assoc]
    rw [token, if_neg (by decide), if_pos rfl, tok_codes _ _ hcs, tok_close, closed_ends _ _ hu]
    simp
  | single _ hl =>
    refine ⟨39, x.flatMap (fun c => if c = 39 then [92, 39] else [c]) ++ [39], u, by simp [inSingle], by decide, ?_, rfl⟩
    simp only [inSingle, List.nil_append, List.cons_append, List.append_assoc]
    rw [token, if_neg (by decide), if_neg (by decide), if_pos rfl, tok_single _ _ _ hl, closed_ends _ _ hu]
    simp
  | plain _ hp =>
    obtain ⟨hne, hc, h11, h12⟩ := hp
    rcases x with _ | ⟨c, v⟩
    · exact absurd rfl hne
    have hs : isSpace c = false := by
      cases hh : isSpace c with
      | false => rfl
      | true =>
        rcases space_of hh with a | a | a
        · exact absurd a (hc c (by simp)).1
        · subst a; exact absurd rfl h11
        · subst a; exact absurd rfl h12
    rw [tok_plain _ _ _ hc]
    rcases hu with rfl | ⟨d, w, rfl, hd⟩
    · exact ⟨c, v, [], rfl, hs, by simp [token], rfl⟩
    · refine ⟨c, v, w, rfl, hs, ?_, ?_⟩
      · rw [token, if_pos (by rcases hd with a | a | a | a <;> simp [a])]; simp
      · rw [List.dropWhile_cons, if_pos (blank_space hd)]

theorem dropWhile_idem (p : UInt8 → Bool) (s : Bytes) : (s.dropWhile p).dropWhile p = s.dropWhile p := by
  induction s with
  | nil => rfl
  | cons c s ih =>
    rw [List.dropWhile_cons]
    by_cases h : p c = true
    · rw [if_pos h, ih]
    · rw [if_neg h, List.dropWhile_cons, if_neg h]

theorem args_drop (n : Nat) (s s' : Bytes) (h : s.dropWhile isSpace = s'.dropWhile isSpace) : args n s = args n s' := by
  cases n with
  | zero => rfl
  | succ n => rw [args, args, h]

/-- One argument. -/
theorem args_one (n : Nat) (x t u : Bytes) (h : Written x t) (hu : Ends u) :
    args (n + 1) (t ++ u) = (args n u).map fun l => x :: l := by
  obtain ⟨c, v, r, rfl, hs, ht, hr⟩ := tok_written x t u h hu
  rw [args]
  rw [List.cons_append] at ht ⊢
  rw [List.dropWhile_cons, if_neg (by simp [hs])]
  simp only []
  rw [ht]
  simp only [Option.bind_some]
  rw [args_drop n r u hr]

theorem args_many (sep : Bytes) (hs : sep ≠ [] ∧ ∀ c ∈ sep, Blank c) (ps : List (Bytes × Bytes)) (h : ∀ p ∈ ps, Written p.1 p.2)
    (n : Nat) (u : Bytes) (hu : Ends u) : args (n + ps.length) (joinSds sep (ps.map (·.2)) ++ u) = (args n u).map fun l => ps.map (·.1) ++ l := by
  induction ps with
  | nil => simp [joinSds]
  | cons p ps ih =>
    have ih := ih fun q hq => h q (by simp [hq])
    have hx := h p (by simp)
    rcases ps with _ | ⟨p2, ps⟩
    · simpa [joinSds] using args_one n p.1 p.2 u hx hu
    · simp only [List.map_cons] at ih ⊢
      rw [joinSds, List.append_assoc, List.append_assoc, List.length_cons, ← Nat.add_assoc]
      have he : Ends (sep ++ (joinSds sep (p2.2 :: ps.map (·.2)) ++ u)) := by
        obtain ⟨c, v, rfl⟩ := List.exists_cons_of_ne_nil hs.1
        exact .inr ⟨c, _, rfl, hs.2 c (by simp)⟩
      rw [args_one _ p.1 p.2 _ hx he]
      have hd : args (n + (p2 :: ps).length) (sep ++ (joinSds sep (p2.2 :: ps.map (·.2)) ++ u)) = args (n + (p2 :: ps).length) (joinSds sep (p2.2 :: ps.map (·.2)) ++ u) := by
        apply args_drop
        rw [List.dropWhile_append_of_pos (fun c hc => blank_space (hs.2 c hc))]
      rw [hd, ih]
      cases args n u <;> simp

theorem written_len (x t : Bytes) (h : Written x t) : 1 ≤ t.length := by
  obtain ⟨c, v, r, rfl, _⟩ := tok_written x t [] h (.inl rfl)
  simp

theorem join_len (sep : Bytes) (ps : List (Bytes × Bytes)) (h : ∀ p ∈ ps, Written p.1 p.2) :
    ps.length ≤ (joinSds sep (ps.map (·.2))).length := by
  induction ps with
  | nil => simp
  | cons p ps ih =>
    have ih := ih fun q hq => h q (by simp [hq])
    have := written_len p.1 p.2 (h p (by simp))
    rcases ps with _ | ⟨p2, ps⟩
    · simpa [joinSds] using this
    · simp only [List.map_cons] at ih ⊢
      rw [joinSds]; simp only [List.length_append, List.length_cons] at ih ⊢; omega

/-- Behind any arguments: where the next argument is refused, the line is. -/
theorem refused (ps : List (Bytes × Bytes)) (h : ∀ p ∈ ps, Written p.1 p.2)
    (sep : Bytes) (hs : sep ≠ [] ∧ ∀ c ∈ sep, Blank c) (d : UInt8) (v : Bytes) (hd : isSpace d = false) (hv : token .plain [] (d :: v) = none) :
    splitArgs (joinSds sep (ps.map (·.2)) ++ (sep ++ d :: v)) = none := by
  have hj := join_len sep ps h
  unfold splitArgs
  have e : (joinSds sep (ps.map (·.2)) ++ (sep ++ d :: v)).length + 1 =
      (((joinSds sep (ps.map (·.2))).length - ps.length) + (sep ++ d :: v).length) + 1 + ps.length := by
    simp only [List.length_append]; omega
  have hu : Ends (sep ++ d :: v) := by
    obtain ⟨d, w, rfl⟩ := List.exists_cons_of_ne_nil hs.1
    exact .inr ⟨d, _, rfl, hs.2 d (by simp)⟩
  rw [e, args_many sep hs ps h _ _ hu, args_drop _ _ (d :: v) (by rw [List.dropWhile_append_of_pos (fun c hc => blank_space (hs.2 c hc))]),
    args, List.dropWhile_cons, if_neg (by simp [hd])]
  simp only [hv]
  rfl

theorem not_space {c : UInt8} (hc : c ≠ 32 ∧ (c < 9 ∨ 13 < c)) : isSpace c = false := by
  unfold isSpace
  simp [hc.1]
  intro a
  rcases hc.2 with e | e
  · exact absurd e (UInt8.not_lt.2 a)
  · exact e

theorem closed_len (acc s : Bytes) (q : Bytes × Bytes) (h : closed acc s = some q) : q.2.length ≤ s.length := by
  unfold closed at h
  split at h
  · cases h; simp
  · split at h
    · cases h; simp
    · cases h

theorem token_len (m : Mode) (acc s : Bytes) : ∀ q, token m acc s = some q → q.2.length ≤ s.length := by
  fun_induction token m acc s <;> intro q h
  all_goals first
    | (cases h; done)
    | (cases h; simp; done)
    | (have := closed_len _ _ _ h; simp at this ⊢; omega)
    | (rename_i ih; have := ih q h; simp only [List.length_cons, List.length_nil] at this ⊢; omega)

theorem token_lt (c : UInt8) (s : Bytes) (hc : isSpace c = false) (q : Bytes × Bytes) (h : token .plain [] (c :: s) = some q) : q.2.length ≤ s.length := by
  rw [token, if_neg (by rintro (rfl | rfl | rfl | rfl) <;> exact absurd hc (by decide))] at h
  split at h
  · exact token_len _ _ _ _ h
  · split at h <;> exact token_len _ _ _ _ h

theorem args_steps (n : Nat) : ∀ m s, s.length < n → s.length < m → args n s = args m s := by
  induction n with
  | zero => intro m s h; omega
  | succ n ih =>
    intro m s h1 h2
    rcases m with _ | m
    · omega
    rw [args, args]
    have hl : (s.dropWhile isSpace).length ≤ s.length := (List.dropWhile_suffix _).length_le
    cases hd : s.dropWhile isSpace with
    | nil => rfl
    | cons c r =>
      simp only []
      have hc : isSpace c = false := by
        have := List.head?_dropWhile_not isSpace s
        rw [hd] at this
        simpa using this
      cases ht : token .plain [] (c :: r) with
      | none => rfl
      | some q =>
        have := token_lt c r hc q ht
        rw [hd] at hl
        simp only [List.length_cons] at hl
        simp only [Option.bind_some]
        rw [ih m q.2 (by omega) (by omega)]

end Sis.Args
