import Verif.Net.WsLarge
/-
The receiving loop in terms of the parser, and packing in terms of frames.
-/
namespace Sis.Ws

/-- The answer to a message. -/
theorem answer_none : answer none = some .wait := rfl

theorem parse_nil : parse [] = none := rfl

theorem parse_lt {p : Bytes} {op : Nat} {d r : Bytes} (h : parse p = some (op, d, r)) : r.length < p.length := by
  have := (parse_extend (q := []) h).2; omega

/-- The number of passes of the inner loop does not matter once it is larger than the input. -/
theorem drain_fuel (n m : Nat) (p : Bytes) (w : Bool) (hn : p.length < n) (hm : p.length < m) (hb : p.length < 2 ^ 28) :
    drain n ⟨p, w⟩ = drain m ⟨p, w⟩ := by
  induction n generalizing m p with
  | zero => omega
  | succ n ih =>
    cases m with
    | zero => omega
    | succ m =>
      unfold drain
      rw [unpack_spec p hb]
      cases hp : parse p with
      | none => rfl
      | some t =>
        obtain ⟨op, d, r⟩ := t
        have hl := parse_lt hp
        simp only [answer]
        by_cases h1 : op = 1
        · simp only [if_pos h1, Option.bind_eq_bind, Option.bind_some]
          rw [ih m r (by omega) (by omega) (by omega)]
        · simp only [if_neg h1]
          by_cases h2 : op = 2
          · simp only [if_pos h2]
            cases d.getLast? with
            | none => rfl
            | some t =>
              simp only [Option.map_some, Option.bind_eq_bind, Option.bind_some]
              rw [ih m r (by omega) (by omega) (by omega)]
          · simp only [if_neg h2]; rfl

/-- All messages of a byte string. -/
def full (w : Bool) (p : Bytes) : Option (Conn × List (UInt8 × Bytes)) := drain (p.length + 1) ⟨p, w⟩

theorem drain_full {n : Nat} {p : Bytes} {w : Bool} (hn : p.length < n) (hb : p.length < 2 ^ 28) : drain n ⟨p, w⟩ = full w p :=
  drain_fuel _ _ _ _ hn (by omega) hb

theorem full_eq (w : Bool) (p : Bytes) (hb : p.length < 2 ^ 28) :
    full w p = (match parse p with
      | none => some (⟨p, w⟩, [])
      | some (op, d, r) =>
        if op = 1 then (full w r).map fun x => (x.1, (0, d) :: x.2)
        else if op = 2 then d.getLast?.bind fun t => (full w r).map fun x => (x.1, (t, d.dropLast) :: x.2)
        else some (⟨r, false⟩, [])) := by
  unfold full
  rw [drain, unpack_spec p hb]
  cases hp : parse p with
  | none => rfl
  | some t =>
    obtain ⟨op, d, r⟩ := t
    have hl := parse_lt hp
    have hf : drain p.length ⟨r, w⟩ = drain (r.length + 1) ⟨r, w⟩ := drain_fuel _ _ _ _ (by omega) (by omega) (by omega)
    simp only [answer]
    by_cases h1 : op = 1
    · simp only [if_pos h1, Option.bind_eq_bind, Option.bind_some, hf]
      cases drain (r.length + 1) ⟨r, w⟩ with
      | none => rfl
      | some x => rfl
    · simp only [if_neg h1]
      by_cases h2 : op = 2
      · simp only [if_pos h2]
        cases d.getLast? with
        | none => rfl
        | some t =>
          simp only [Option.map_some, Option.bind_eq_bind, Option.bind_some, hf]
          cases drain (r.length + 1) ⟨r, w⟩ with
          | none => rfl
          | some x => rfl
      · simp only [if_neg h2]; rfl

/-- More input after some: what was delivered stays, and the rest is what the left over bytes and the new ones give. -/
theorem full_append (w : Bool) (p q : Bytes) (hb : (p ++ q).length < 2 ^ 28) :
    match full w p with
    | none => full w (p ++ q) = none
    | some (c, ms) =>
      (c.working = w ∧ parse c.mem = none ∧ c.mem.length ≤ p.length ∧
        full w (p ++ q) = (full w (c.mem ++ q)).map fun x => (x.1, ms ++ x.2)) ∨
      (c.working = false ∧ ∃ r, full w (p ++ q) = some (⟨r, false⟩, ms)) := by
  obtain ⟨k, hk⟩ : ∃ k, k = p.length := ⟨_, rfl⟩
  induction k using Nat.strongRecOn generalizing p with
  | _ k ih =>
    have hbp : p.length < 2 ^ 28 := by rw [List.length_append] at hb; omega
    rw [full_eq w p hbp]
    cases hp : parse p with
    | none =>
      simp only
      left
      refine ⟨trivial, hp, Nat.le_refl _, ?_⟩
      cases full w (p ++ q) with
      | none => rfl
      | some x => rfl
    | some t =>
      obtain ⟨op, d, r⟩ := t
      have hl := parse_lt hp
      have he := (parse_extend (q := q) hp).1
      have hbr : (r ++ q).length < 2 ^ 28 := by rw [List.length_append] at hb ⊢; omega
      have hi := ih r.length (by omega) r hbr rfl
      have hF := full_eq w (p ++ q) hb
      rw [he] at hF
      simp only at hF ⊢
      by_cases h1 : op = 1
      · rw [if_pos h1] at hF ⊢
        cases hr : full w r with
        | none =>
          rw [hr] at hi
          simp only [Option.map_none]
          rw [hF, hi]; rfl
        | some x =>
          obtain ⟨c, ms⟩ := x
          rw [hr] at hi
          simp only [Option.map_some] at hi ⊢
          rcases hi with ⟨i1, i2, i3, i4⟩ | ⟨i1, r', i2⟩
          · left
            refine ⟨i1, i2, by omega, ?_⟩
            rw [hF, i4, Option.map_map]
            rfl
          · right
            refine ⟨i1, r', ?_⟩
            rw [hF, i2]; rfl
      · rw [if_neg h1] at hF ⊢
        by_cases h2 : op = 2
        · rw [if_pos h2] at hF ⊢
          cases hd : d.getLast? with
          | none => simp only [Option.bind_none]; rw [hF, hd]; rfl
          | some tl =>
            rw [hd] at hF
            simp only [Option.bind_some] at hF ⊢
            cases hr : full w r with
            | none =>
              rw [hr] at hi
              simp only [Option.map_none]
              rw [hF, hi]; rfl
            | some x =>
              obtain ⟨c, ms⟩ := x
              rw [hr] at hi
              simp only [Option.map_some] at hi ⊢
              rcases hi with ⟨i1, i2, i3, i4⟩ | ⟨i1, r', i2⟩
              · left
                refine ⟨i1, i2, by omega, ?_⟩
                rw [hF, i4, Option.map_map]
                rfl
              · right
                refine ⟨i1, r', ?_⟩
                rw [hF, i2]; rfl
        · rw [if_neg h2] at hF ⊢
          simp only
          right
          exact ⟨trivial, _, hF⟩

/-- What arrives in pieces is what arrives in one piece. -/
theorem receive_full (mem : Bytes) (hm : parse mem = none) (ps : List Bytes) (hb : (mem ++ ps.flatten).length < 2 ^ 28) :
    (receive ⟨mem, true⟩ ps).map (fun x => (x.1.working, x.2)) = (full true (mem ++ ps.flatten)).map (fun x => (x.1.working, x.2)) := by
  induction ps generalizing mem with
  | nil =>
    rw [List.flatten_nil, List.append_nil, full_eq true mem (by simpa using hb), hm]
    rfl
  | cons p ps ih =>
    rw [List.flatten_cons, ← List.append_assoc] at hb ⊢
    have hbp : (mem ++ p).length < 2 ^ 28 := by rw [List.length_append] at hb; omega
    unfold receive
    simp only [if_true]
    rw [drain_full (by rw [List.length_append]; omega) hbp]
    have hF := full_append true (mem ++ p) ps.flatten hb
    cases hr : full true (mem ++ p) with
    | none =>
      rw [hr] at hF
      simp only at hF
      rw [hF]; rfl
    | some x =>
      obtain ⟨⟨cm, cw⟩, ms⟩ := x
      rw [hr] at hF
      simp only at hF
      simp only [Option.bind_eq_bind, Option.bind_some]
      rcases hF with ⟨i1, i2, i3, i4⟩ | ⟨i1, r', i2⟩
      · rw [i1, i4]
        have hb2 : (cm ++ ps.flatten).length < 2 ^ 28 := by rw [List.length_append] at hb ⊢; omega
        have := ih cm i2 hb2
        generalize receive ⟨cm, true⟩ ps = R at this
        generalize full true (cm ++ ps.flatten) = G at this
        cases R with
        | none => cases G with
          | none => rfl
          | some g => simp at this
        | some r => cases G with
          | none => simp at this
          | some g => simp at this; simp [this.1, this.2]
      · rw [i1, i2]
        cases ps with
        | nil => simp [receive]
        | cons _ _ => simp [receive]

/-- Packing in terms of frames. -/
theorem pack_spec (junk : Nat → UInt8) (tail : UInt8) (inp : Bytes) (h : isBytes tail = true ∨ inp ≠ []) :
    ∃ fs, pack junk tail inp = some (frameBytes fs) ∧ (∀ f ∈ fs, f.Ok) ∧ oneMessage fs ∧
      opOf fs = (if isBytes tail then 2 else 1) ∧ (fs.map Frame.data).flatten = inp ++ (if isBytes tail then [tail] else []) ∧
      fs.length ≤ (inp.length + 1) / maxSend + 1 ∧ (∀ f ∈ fs, f.data.length ≤ maxSend + 1 ∧ f.bytes.length ≤ f.data.length + 10) := by
  unfold pack
  by_cases hb : isBytes tail = true
  · simp only [hb, if_true]
    obtain ⟨fs, a1, a2, a3, a4, a5, a6, a7⟩ := packMessage_spec junk false inp [tail] (by simp) (by simp)
    exact ⟨fs, a1, a2, a3, by simpa using a4, a5, by simpa using a6, a7⟩
  · have hne : inp ≠ [] := by rcases h with h | h; exact absurd h hb; exact h
    have hl : 0 < inp.length := List.length_pos_iff.mpr hne
    simp only [hb, Bool.false_eq_true, if_false]
    obtain ⟨fs, a1, a2, a3, a4, a5, a6, a7⟩ := packMessage_spec junk true inp [] (by simp) (by simpa using hl)
    refine ⟨fs, a1, a2, a3, by simpa using a4, a5, ?_, a7⟩
    refine Nat.le_trans a6 (Nat.add_le_add_right (Nat.div_le_div_right ?_) 1)
    simp

/-- What is delivered for a packed message: the tail of a text message is not sent. -/
def got (m : UInt8 × Bytes) : UInt8 × Bytes := (if isBytes m.1 then m.1 else 0, m.2)

/-- Unpacking a packed message. -/
theorem pack_parse {junk : Nat → UInt8} {tail : UInt8} {inp out : Bytes} (h : isBytes tail = true ∨ inp ≠ []) (hp : pack junk tail inp = some out)
    (rest : Bytes) : parse (out ++ rest) =
      some (if isBytes tail then 2 else 1, inp ++ (if isBytes tail then [tail] else []), rest) := by
  obtain ⟨fs, a1, a2, a3, a4, a5, _⟩ := pack_spec junk tail inp h
  rw [a1] at hp
  injection hp with hp
  rw [← hp, parse_frames fs a2 a3, a4, a5]

theorem full_pack {junk : Nat → UInt8} {tail : UInt8} {inp out : Bytes} (h : isBytes tail = true ∨ inp ≠ []) (hp : pack junk tail inp = some out)
    (w : Bool) (rest : Bytes) (hb : (out ++ rest).length < 2 ^ 28) :
    full w (out ++ rest) = (full w rest).map fun x => (x.1, got (tail, inp) :: x.2) := by
  rw [full_eq w _ hb, pack_parse h hp]
  simp only [got]
  by_cases hbt : isBytes tail = true
  · simp [hbt]
  · simp [hbt]

end Sis.Ws
