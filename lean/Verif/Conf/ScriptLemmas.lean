import Verif.Conf.ReadLemmas
/-
Lemmas for C108: the search for the bracket that closes the first one, and the pieces in which a file is read.
-/
namespace Sis.Conf
open Sis Num
open Sis.Json (Node Ty newNode)

/-- So many bytes further, if there is a bracket at all. -/
def shift (n m : Nat) : Nat := if m = 0 then 0 else m + n

theorem shift_zero (m : Nat) : shift 0 m = m := by unfold shift; split <;> omega

theorem shift_shift (a b m : Nat) : shift a (shift b m) = shift (b + a) m := by
  unfold shift
  split
  · rw [if_pos rfl]
  · rw [if_neg (by omega)]; omega

/-- One byte, in terms of `shift`. -/
theorem match_cons (note : Bool) (sign : Nat) (c : UInt8) (s : Bytes) : matchSign note sign (c :: s) =
    if note then shift 1 (matchSign (!(c == 10 || c == 13)) sign s)
    else if c = 35 then shift 1 (matchSign true sign s)
    else if c = 123 then shift 1 (matchSign false (sign + 1) s)
    else if sign ≠ 0 ∧ c = 125 then if sign = 1 then 1 else shift 1 (matchSign false (sign - 1) s)
    else shift 1 (matchSign false sign s) := by
  rw [matchSign]
  rfl

theorem match_plain {c : UInt8} (h1 : c ≠ 35) (h2 : c ≠ 123) (h3 : c ≠ 125) (k : Nat) (s : Bytes) :
    matchSign false k (c :: s) = shift 1 (matchSign false k s) := by
  rw [match_cons, if_neg (by decide), if_neg h1, if_neg h2, if_neg fun h => h3 h.2]

theorem match_text {t : Bytes} (h : ∀ c ∈ t, c ≠ 35 ∧ c ≠ 123 ∧ c ≠ 125) (k : Nat) (s : Bytes) :
    matchSign false k (t ++ s) = shift t.length (matchSign false k s) := by
  induction t with
  | nil => rw [List.nil_append, List.length_nil, shift_zero]
  | cons c t ih =>
    obtain ⟨h1, h2, h3⟩ := h c (by simp)
    rw [List.cons_append, match_plain h1 h2 h3, ih fun x hx => h x (by simp [hx]), shift_shift, List.length_cons]

theorem match_note {t : Bytes} (h : ∀ x ∈ t, x ≠ 10 ∧ x ≠ 13) (k : Nat) (s : Bytes) :
    matchSign true k (t ++ s) = shift t.length (matchSign true k s) := by
  induction t with
  | nil => rw [List.nil_append, List.length_nil, shift_zero]
  | cons c t ih =>
    obtain ⟨h1, h2⟩ := h c (by simp)
    have : (!(c == 10 || c == 13)) = true := by simp [h1, h2]
    rw [List.cons_append, match_cons, if_pos rfl, this, ih fun x hx => h x (by simp [hx]), shift_shift, List.length_cons]

theorem match_gap {g : Bytes} (h : Gap g) (k : Nat) (s : Bytes) : matchSign false k (g ++ s) = shift g.length (matchSign false k s) := by
  induction h with
  | nil => rw [List.nil_append, List.length_nil, shift_zero]
  | @blank c g hc _ ih =>
    have h1 : c.toNat ≤ 32 := by simpa using UInt8.le_iff_toNat_le.mp hc
    rw [List.cons_append, match_plain (by rintro rfl; simp at h1) (by rintro rfl; simp at h1) (by rintro rfl; simp at h1), ih, shift_shift, List.length_cons]
  | @note t c g ht hc _ ih =>
    rw [List.cons_append, match_cons, if_neg (by decide), if_pos rfl, List.append_assoc, match_note ht, List.cons_append, match_cons, if_pos rfl]
    have : (!(c == 10 || c == 13)) = false := by rcases hc with h | h <;> simp [h]
    rw [this, ih, shift_shift, shift_shift, shift_shift]
    congr 1
    simp; omega

theorem solid_num {t : Bytes} (h : NumOk t) : ∀ c ∈ t, c ≠ 35 ∧ c ≠ 123 ∧ c ≠ 125 := by
  intro c hc
  rcases h.2 c hc with rfl | rfl | h
  · decide
  · decide
  · rw [isDigit_iff] at h
    have h2 := UInt8.le_iff_toNat_le.mp h.2
    have h1 := UInt8.le_iff_toNat_le.mp h.1
    simp at h1 h2
    refine ⟨?_, ?_, ?_⟩ <;> rintro rfl <;> simp at h1 h2

mutual
theorem val_match (v : Env) (x : Val) (h : x.Ok v) (hp : x.Plain) (k : Nat) (s : Bytes) :
    matchSign false (k + 1) (x.text ++ s) = shift x.text.length (matchSign false (k + 1) s) := by
  match x with
  | .num t =>
    unfold Val.Ok at h
    rw [Val.text]
    exact match_text (solid_num h) _ _
  | .word t =>
    unfold Val.Ok at h
    unfold Val.Plain at hp
    rw [Val.text]
    exact match_text (fun c hc => ⟨(h.2 c hc).1.2, hp c hc⟩) _ _
  | .quoted t =>
    unfold Val.Ok at h
    unfold Val.Plain at hp
    rw [Val.text]
    refine match_text (fun c hc => ?_) _ _
    rcases List.mem_cons.mp hc with rfl | hc
    · decide
    · rcases List.mem_append.mp hc with hc | hc
      · exact ⟨(h.2 c hc).1.2, hp c hc⟩
      · rw [List.mem_singleton] at hc; subst hc; decide
  | .arr g vs =>
    unfold Val.Ok at h
    unfold Val.Plain at hp
    have e : (Val.arr g vs).text ++ s = 91 :: (g ++ (vs.text [] ++ 93 :: s)) := by simp [Val.text]
    rw [e, match_plain (by decide) (by decide) (by decide), match_gap h.1, vals_match v vs 0 h.2 hp k [] _ (by simp),
      match_plain (by decide) (by decide) (by decide), shift_shift, shift_shift, shift_shift]
    congr 1
    simp [Val.text]; omega
  | .obj g ms =>
    unfold Val.Ok at h
    unfold Val.Plain at hp
    have e : (Val.obj g ms).text ++ s = 123 :: (g ++ (ms.text [44] [] ++ 125 :: s)) := by simp [Val.text]
    rw [e, match_cons, if_neg (by decide), if_neg (by decide), if_pos rfl, match_gap h.1, mems_match v ms h.2 hp (k + 1) [44] [] _ (by decide) (by simp),
      match_cons, if_neg (by decide), if_neg (by decide), if_neg (by decide), if_pos ⟨by omega, rfl⟩, if_neg (by omega), shift_shift, shift_shift, shift_shift]
    have : k + 1 + 1 - 1 = k + 1 := by omega
    rw [this]
    congr 1
    simp [Val.text]; omega

theorem vals_match (v : Env) (vs : Vals) (i : Nat) (h : vs.Ok v i) (hp : vs.Plain) (k : Nat) (lead s : Bytes) (hl : ∀ c ∈ lead, c = 44) :
    matchSign false (k + 1) (vs.text lead ++ s) = shift (vs.text lead).length (matchSign false (k + 1) s) := by
  match vs with
  | .nil => rw [Vals.text, List.nil_append, List.length_nil, shift_zero]
  | .cons b x a r =>
    unfold Vals.Ok at h
    unfold Vals.Plain at hp
    obtain ⟨hb, hx, -, ha, -, hr⟩ := h
    have e : (Vals.cons b x a r).text lead ++ s = lead ++ (b ++ (x.text ++ (a ++ (r.text [44] ++ s)))) := by simp [Vals.text]
    rw [e, match_text (fun c hc => by rw [hl c hc]; decide), match_gap hb, val_match v x hx hp.1, match_gap ha,
      vals_match v r (i + 1) hr hp.2 k [44] s (by simp), shift_shift, shift_shift, shift_shift, shift_shift]
    congr 1
    simp [Vals.text]; omega

theorem mems_match (v : Env) (ms : Mems) (h : ms.Ok v false) (hp : ms.Plain) (k : Nat) (sep lead s : Bytes) (hs : ∀ c ∈ sep, c = 44)
    (hl : ∀ c ∈ lead, c = 44) :
    matchSign false (k + 1) (ms.text sep lead ++ s) = shift (ms.text sep lead).length (matchSign false (k + 1) s) := by
  match ms with
  | .nil => rw [Mems.text, List.nil_append, List.length_nil, shift_zero]
  | .cons b key sp g x a r =>
    unfold Mems.Ok at h
    unfold Mems.Plain at hp
    obtain ⟨hb, hk, hsp, hg, hx, ha, -, hr⟩ := h
    have e : (Mems.cons b key sp g x a r).text sep lead ++ s = lead ++ (b ++ (key ++ (sp ++ (58 :: (g ++ (x.text ++ (a ++ (r.text sep sep ++ s)))))))) := by
      simp [Mems.text]
    rw [e, match_text (fun c hc => by rw [hl c hc]; decide), match_gap hb,
      match_text (t := key) (fun c hc => ⟨(hp.1 c hc).2.2, (hp.1 c hc).1, (hp.1 c hc).2.1⟩), match_text (t := sp) (fun c hc => by rw [hsp c hc]; decide),
      match_plain (by decide) (by decide) (by decide), match_gap hg, val_match v x hx hp.2.1, match_gap ha, mems_match v r hr hp.2.2 k sep sep s hs hs]
    simp only [shift_shift]
    congr 1
    simp [Mems.text]; omega
  | .inc b g f a is r =>
    unfold Mems.Ok at h
    unfold Mems.Plain at hp
    obtain ⟨hb, hg, hfn, ha, -, hr, -⟩ := h
    have e : (Mems.inc b g f a is r).text sep lead ++ s = lead ++ (b ++ ([105, 110, 99, 108, 117, 100, 101] ++ (g ++ (f ++ (a ++ (r.text sep sep ++ s)))))) := by
      simp [Mems.text]
    rw [e, match_text (fun c hc => by rw [hl c hc]; decide), match_gap hb, match_text (t := [105, 110, 99, 108, 117, 100, 101]) (by decide),
      match_gap hg, match_text (t := f) (fun c hc => ⟨(hfn.2 c hc).1.2, hp.1 c hc⟩), match_gap ha, mems_match v r hr hp.2 k sep sep s hs hs]
    simp only [shift_shift]
    congr 1
    simp [Mems.text]; omega
end

theorem obj_match (v : Env) {g : Bytes} {ms : Mems} (h : (Val.obj g ms).Ok v) (hp : (Val.obj g ms).Plain) {b : Bytes} (hb : Gap b) (s : Bytes) :
    matchSign false 0 (b ++ (Val.obj g ms).text ++ s) = (b ++ (Val.obj g ms).text).length := by
  unfold Val.Ok at h
  unfold Val.Plain at hp
  have e : (Val.obj g ms).text ++ s = 123 :: (g ++ (ms.text [44] [] ++ 125 :: s)) := by simp [Val.text]
  rw [List.append_assoc, e, match_gap hb, match_cons, if_neg (by decide), if_neg (by decide), if_pos rfl, match_gap h.1,
    mems_match v ms h.2 hp 0 [44] [] _ (by decide) (by simp), match_cons, if_neg (by decide), if_neg (by decide), if_neg (by decide),
    if_pos ⟨by omega, rfl⟩, if_pos rfl]
  simp only [shift_shift]
  unfold shift
  rw [if_neg (by omega)]
  simp [Val.text]; omega

/-! ### The pieces of a file -/

theorem match_le (s : Bytes) : ∀ note k, matchSign note k s ≤ s.length := by
  induction s with
  | nil => intro note k; rw [matchSign]; exact Nat.le_refl _
  | cons c s ih =>
    have hs : ∀ note k, shift 1 (matchSign note k s) ≤ (c :: s).length := by
      intro note k
      have := ih note k
      unfold shift
      rw [List.length_cons]
      split <;> omega
    intro note k
    rw [match_cons]
    split
    · exact hs _ _
    · split
      · exact hs _ _
      · split
        · exact hs _ _
        · split
          · split
            · simp
            · exact hs _ _
          · exact hs _ _

theorem match_app (s c : Bytes) : ∀ note k, matchSign note k s ≠ 0 → matchSign note k (s ++ c) = matchSign note k s := by
  induction s with
  | nil => intro note k h; rw [matchSign] at h; exact absurd rfl h
  | cons x s ih =>
    have hs : ∀ note k, shift 1 (matchSign note k s) ≠ 0 → shift 1 (matchSign note k (s ++ c)) = shift 1 (matchSign note k s) := by
      intro note k h
      rw [ih note k]
      intro h0
      rw [h0] at h
      exact h rfl
    intro note k h
    rw [List.cons_append, match_cons]
    rw [match_cons] at h ⊢
    split
    · rename_i hn; rw [if_pos hn] at h; exact hs _ _ h
    · rename_i hn
      rw [if_neg hn] at h
      split
      · rename_i hn; rw [if_pos hn] at h; exact hs _ _ h
      · rename_i hn
        rw [if_neg hn] at h
        split
        · rename_i hn; rw [if_pos hn] at h; exact hs _ _ h
        · rename_i hn
          rw [if_neg hn] at h
          split
          · rename_i hn
            rw [if_pos hn] at h
            split
            · rfl
            · rename_i hn; rw [if_neg hn] at h; exact hs _ _ h
          · rename_i hn; rw [if_neg hn] at h; exact hs _ _ h

/-- What is taken from the memory, whatever the bound. -/
theorem take_fuel (f : Nat) : ∀ m g, m.length ≤ f → m.length ≤ g → takeAll f m = takeAll g m := by
  induction f with
  | zero =>
    intro m g h _
    have hm : m = [] := List.length_eq_zero_iff.mp (by omega)
    subst hm
    cases g with
    | zero => rfl
    | succ g => rw [takeAll, takeAll, if_pos (by rw [matchSign])]
  | succ f ih =>
    intro m g h hg
    cases g with
    | zero =>
      have hm : m = [] := List.length_eq_zero_iff.mp (by omega)
      subst hm
      rw [takeAll, takeAll, if_pos (by rw [matchSign])]
    | succ g =>
      rw [takeAll, takeAll]
      by_cases h0 : matchSign false 0 m = 0
      · rw [if_pos h0, if_pos h0]
      · rw [if_neg h0, if_neg h0, ih _ g (by rw [List.length_drop]; omega) (by rw [List.length_drop]; omega)]

/-- What is taken from the memory. -/
def taken (m : Bytes) : List Bytes × Bytes := takeAll m.length m

theorem taken_none {m : Bytes} (h : matchSign false 0 m = 0) : taken m = ([], m) := by
  unfold taken
  rw [take_fuel _ m (m.length + 1) (Nat.le_refl _) (by omega), takeAll, if_pos h]

theorem taken_some {m : Bytes} (h : matchSign false 0 m ≠ 0) :
    taken m = (m.take (matchSign false 0 m) :: (taken (m.drop (matchSign false 0 m))).1, (taken (m.drop (matchSign false 0 m))).2) := by
  have h1 := take_fuel m.length (m.drop (matchSign false 0 m)) (m.drop (matchSign false 0 m)).length (by rw [List.length_drop]; omega) (Nat.le_refl _)
  unfold taken
  rw [take_fuel _ m (m.length + 1) (Nat.le_refl _) (by omega), takeAll, if_neg h, h1]

theorem taken_app (n : Nat) : ∀ m c : Bytes, m.length ≤ n → taken (m ++ c) = ((taken m).1 ++ (taken ((taken m).2 ++ c)).1, (taken ((taken m).2 ++ c)).2) := by
  induction n with
  | zero =>
    intro m c h
    have hm : m = [] := List.length_eq_zero_iff.mp (by omega)
    subst hm
    rw [taken_none (m := []) (by rw [matchSign])]
    rfl
  | succ n ih =>
    intro m c h
    by_cases h0 : matchSign false 0 m = 0
    · rw [taken_none h0]; rfl
    · have h1 := match_app m c false 0 h0
      have hle := match_le m false 0
      rw [taken_some h0, taken_some (m := m ++ c) (by rw [h1]; exact h0), h1, List.take_append_of_le_length hle, List.drop_append_of_le_length hle,
        ih (m.drop (matchSign false 0 m)) c (by rw [List.length_drop]; omega)]
      rfl

theorem taken_rest (n : Nat) : ∀ m : Bytes, m.length ≤ n → taken (taken m).2 = ([], (taken m).2) := by
  induction n with
  | zero =>
    intro m h
    have hm : m = [] := List.length_eq_zero_iff.mp (by omega)
    subst hm
    rw [taken_none (m := []) (by rw [matchSign])]
    exact taken_none (by rw [matchSign])
  | succ n ih =>
    intro m h
    by_cases h0 : matchSign false 0 m = 0
    · rw [taken_none h0]; exact taken_none h0
    · rw [taken_some h0]
      exact ih _ (by rw [List.length_drop]; omega)

theorem texts_taken (cs : List Bytes) : ∀ m, taken m = ([], m) → texts m cs = (taken (m ++ cs.flatten)).1 := by
  induction cs with
  | nil => intro m h; rw [texts, List.flatten_nil, List.append_nil, h]
  | cons c cs ih =>
    intro m h
    rw [texts, List.flatten_cons, ← List.append_assoc, taken_app _ (m ++ c) cs.flatten (Nat.le_refl _)]
    show (taken (m ++ c)).1 ++ texts (taken (m ++ c)).2 cs = _
    rw [ih _ (taken_rest _ (m ++ c) (Nat.le_refl _))]

/-- The objects of a script are taken one by one. -/
theorem taken_script (v : Env) (s : Script) (h : ∀ o ∈ s, Gap o.1 ∧ (Val.obj o.2.1 o.2.2).Ok v ∧ (Val.obj o.2.1 o.2.2).Plain) {g : Bytes} (hg : Gap g) :
    (taken (s.text ++ g)).1 = s.map fun o => o.1 ++ (Val.obj o.2.1 o.2.2).text := by
  induction s with
  | nil =>
    have : matchSign false 0 g = 0 := by
      have := match_gap hg 0 []
      rw [List.append_nil, matchSign] at this
      rw [this]; rfl
    rw [Script.text, List.map_nil, List.flatten_nil, List.nil_append, taken_none this]
  | cons o s ih =>
    obtain ⟨h1, h2, h3⟩ := h o (by simp)
    have e : Script.text (o :: s) ++ g = o.1 ++ (Val.obj o.2.1 o.2.2).text ++ (Script.text s ++ g) := by simp [Script.text]
    have hm := obj_match v h2 h3 h1 (Script.text s ++ g)
    have hne : matchSign false 0 (Script.text (o :: s) ++ g) ≠ 0 := by
      rw [e, hm]
      simp [Val.text]
    rw [taken_some hne, e, hm, List.take_left' rfl, List.drop_left' rfl, ih fun x hx => h x (by simp [hx])]
    rfl

end Sis.Conf
