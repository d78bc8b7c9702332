import Verif.Conf.ConfSpec
import Verif.Rec.RecLemmas
/-
Lemmas for C106: blanks and comments are skipped, and each kind of value is read up to its end.
-/
namespace Sis.Conf
open Sis Num
open Sis.Json (Node Ty newNode isFloat)
open Sis.Rec (dec llutoa_dec)

/-- Where a value may end. -/
def Stop (s : Bytes) : Prop := ∀ c r, s = c :: r → c ≤ 0x20 ∨ c = 35 ∨ c = 44 ∨ c = 93 ∨ c = 125

/-- A text with something to read at its beginning. -/
def Head (s : Bytes) : Prop := ∃ c r, s = c :: r ∧ Solid c

theorem skipTo_note (t : Bytes) (h : ∀ x ∈ t, x ≠ 10 ∧ x ≠ 13) (s : Bytes) : skipTo true (t ++ s) = skipTo true s := by
  induction t with
  | nil => rfl
  | cons c t ih =>
    have hc := h c (by simp)
    rw [List.cons_append, skipTo, if_neg (by simp [hc.1, hc.2]), ih fun x hx => h x (by simp [hx])]

theorem skip_gap {g : Bytes} (h : Gap g) (s : Bytes) : skip (g ++ s) = skip s := by
  unfold skip
  induction h with
  | nil => rfl
  | blank hc _ ih => rw [List.cons_append, skipTo, if_pos hc, ih]
  | note ht hc _ ih =>
    rw [List.cons_append, skipTo, if_neg (by decide), if_pos rfl, List.append_assoc, skipTo_note _ ht, List.cons_append, skipTo, if_pos hc, ih]

theorem skip_nil : skip [] = [] := rfl

theorem skip_head {s : Bytes} (h : Head s) : skip s = s := by
  obtain ⟨c, r, rfl, h1, h2⟩ := h
  unfold skip
  rw [skipTo, if_neg (by exact UInt8.not_le.mpr h1), if_neg h2]

theorem skip_only {g : Bytes} (h : Gap g) : skip g = [] := by
  have := skip_gap h []
  rwa [List.append_nil] at this

theorem skip_gap_head {g s : Bytes} (h : Gap g) (hs : Head s) : skip (g ++ s) = s := by rw [skip_gap h, skip_head hs]

theorem gap_append {g h : Bytes} (hg : Gap g) (hh : Gap h) : Gap (g ++ h) := by
  induction hg with
  | nil => exact hh
  | blank hc _ ih => exact Gap.blank hc ih
  | note ht hc _ ih =>
    rw [List.cons_append, List.append_assoc, List.cons_append]
    exact Gap.note ht hc ih

theorem gap_stop {g s : Bytes} (h : Gap g) (hs : Stop s) : Stop (g ++ s) := by
  cases h with
  | nil => exact hs
  | blank hc _ =>
    intro c r he
    rw [List.cons_append] at he
    rw [← (List.cons.inj he).1]; exact Or.inl hc
  | note _ _ _ =>
    intro c r he
    rw [List.cons_append] at he
    rw [← (List.cons.inj he).1]; exact Or.inr (Or.inl rfl)

/-- A gap that is not empty may be followed by anything. -/
theorem gap_stop' {g s : Bytes} (h : Gap g) (hn : g ≠ []) : Stop (g ++ s) := by
  cases h with
  | nil => exact absurd rfl hn
  | blank hc _ =>
    intro c r he
    rw [List.cons_append] at he
    rw [← (List.cons.inj he).1]; exact Or.inl hc
  | note _ _ _ =>
    intro c r he
    rw [List.cons_append] at he
    rw [← (List.cons.inj he).1]; exact Or.inr (Or.inl rfl)

theorem stop_of {c : UInt8} {s : Bytes} (h : c = 44 ∨ c = 93 ∨ c = 125) : Stop (c :: s) := by
  intro d r he
  rw [← (List.cons.inj he).1]
  rcases h with h | h | h <;> simp [h]

theorem stop_nil : Stop [] := fun _ _ h => by simp at h

/-! ### Words and numbers -/

theorem takeWhile_stop {p : UInt8 → Bool} {t s : Bytes} (ht : ∀ c ∈ t, p c = true) (hs : ∀ c r, s = c :: r → p c = false) :
    (t ++ s).takeWhile p = t ∧ (t ++ s).dropWhile p = s := by
  induction t with
  | nil =>
    cases s with
    | nil => exact ⟨rfl, rfl⟩
    | cons c r => simp [hs c r rfl]
  | cons c t ih =>
    have hi := ih fun x hx => ht x (by simp [hx])
    have hc := ht c (by simp)
    simp [hc, hi.1, hi.2]

theorem word_of {c : UInt8} (h : Solid c) : wordCh c = true := by
  unfold wordCh
  have := h.1
  have h3 : ¬ c ≤ 0x20 := UInt8.not_le.mpr h.1
  simp [h3, h.2]

theorem stop_word {s : Bytes} (h : Stop s) : ∀ c r, s = c :: r → (wordCh c && !sepCh c) = false := by
  intro c r he
  unfold wordCh sepCh
  rcases h c r he with h | h | h | h | h <;> simp [h]

theorem isDigit_iff (c : UInt8) : isDigit c = true ↔ 48 ≤ c ∧ c ≤ 57 := by
  unfold isDigit; simp

theorem stop_num {s : Bytes} (h : Stop s) : ∀ c r, s = c :: r → numCh c = false := by
  intro c r he
  have hd : isDigit c = false ∧ c ≠ 45 ∧ c ≠ 46 := by
    rcases h c r he with h | h | h | h | h
    · have hn : c.toNat ≤ 32 := by simpa using UInt8.le_iff_toNat_le.mp h
      refine ⟨?_, ?_, ?_⟩
      · rcases hx : isDigit c with _ | _
        · rfl
        · have := UInt8.le_iff_toNat_le.mp ((isDigit_iff c).mp hx).1
          simp at this; omega
      · rintro rfl; simp at hn
      · rintro rfl; simp at hn
    all_goals subst h; decide
  unfold numCh
  simp [hd.1, hd.2.1, hd.2.2]

theorem num_val {n : Node} {t s : Bytes} (h : NumOk t) (hs : Stop s) :
    parseNumber n (t ++ s) 0 = ⟨some s, .mk (if Pointed t then .double else .int) n.key (some t) n.child, 0⟩ := by
  have hp : ∀ c ∈ t, numCh c = true := by
    intro c hc
    unfold numCh
    rcases h.2 c hc with h | h | h <;> simp [h]
  obtain ⟨e1, e2⟩ := takeWhile_stop hp (stop_num hs)
  unfold parseNumber
  rw [e1, e2]
  by_cases hq : Pointed t
  · rw [if_pos hq, if_pos ((isFloat_iff t).mpr hq)]
  · rw [if_neg hq, if_neg fun hf => hq ((isFloat_iff t).mp hf)]

theorem word_val {n : Node} {t s : Bytes} (h : WordOk t) (hs : Stop s) :
    parseString n (t ++ s) 0 = ⟨some s, .mk .string n.key (some t) n.child, 0⟩ := by
  obtain ⟨⟨c, r, rfl, -, -, -, -, hq⟩, ha⟩ := h
  have hp : ∀ x ∈ c :: r, (wordCh x && !sepCh x) = true := by
    intro x hx
    obtain ⟨h1, h2, h3, h4⟩ := ha x hx
    rw [word_of h1]
    simp [sepCh, h2, h3, h4]
  obtain ⟨e1, e2⟩ := takeWhile_stop hp (stop_word hs)
  have h34 : ¬ at0 ((c :: r) ++ s) = 34 := hq
  unfold parseString
  simp only [if_neg h34]
  rw [e1, e2, if_neg (by simp)]

theorem quoted_val {n : Node} {t s : Bytes} (h : QuotedOk t) (hs : Stop s) :
    parseString n (34 :: (t ++ [34]) ++ s) 0 = ⟨some s, .mk .string n.key (some t) n.child, 0⟩ := by
  have hp : ∀ x ∈ t, (wordCh x && x != 34) = true := by
    intro x hx
    obtain ⟨h1, h2⟩ := h.2 x hx
    rw [word_of h1]
    simp [h2]
  obtain ⟨e1, e2⟩ := takeWhile_stop (s := 34 :: s) hp (by
    intro c r he
    rw [← (List.cons.inj he).1]; rfl)
  have e3 := (takeWhile_stop (t := []) (s := s) (fun _ hx => by simp at hx) (stop_word hs)).2
  have h34 : at0 (34 :: (t ++ [34]) ++ s) = 34 := rfl
  have ht : (34 :: (t ++ [34]) ++ s).tail = t ++ 34 :: s := by simp
  unfold parseString
  simp only [if_pos h34]
  rw [ht, e1, e2, if_neg h.1, if_pos (show at0 (34 :: s) = 34 from rfl)]
  rw [List.nil_append] at e3
  rw [List.tail_cons, e3]

/-! ### Keys -/

theorem not_include {t s : Bytes} (h : NotInclude t) (hs : ∀ c r, s = c :: r → lower c ∉ [105, 110, 99, 108, 117, 100, 101]) :
    isInclude (t ++ s) = false := by
  unfold isInclude
  rw [beq_eq_false_iff_ne]
  intro he
  by_cases hl : 7 ≤ t.length
  · rw [List.take_append_of_le_length hl] at he
    exact h he
  · cases s with
    | nil => rw [List.append_nil] at he; exact h he
    | cons c r =>
      apply hs c r rfl
      rw [← he, List.mem_map]
      refine ⟨c, ?_, rfl⟩
      rw [List.mem_take_iff_getElem]
      exact ⟨t.length, by simp; omega, by simp⟩

theorem key_val {slack : Bool} {k s r : Bytes} (h : KeyOk k) (hs : ∀ c ∈ s, c = 32) :
    parseKey slack (k ++ s ++ 58 :: r) 0 = some (some r, some k, 0) := by
  obtain ⟨⟨c, t, hk, -, -⟩, ha, -⟩ := h
  have hp : ∀ x ∈ k, (decide (0x20 < x) && x != 58) = true := by
    intro x hx
    obtain ⟨h1, h2⟩ := ha x hx
    simp [h1, h2]
  obtain ⟨e1, e2⟩ := takeWhile_stop (s := s ++ 58 :: r) hp (by
    intro x y he
    cases s with
    | nil => rw [← (List.cons.inj he).1]; rfl
    | cons z s => rw [← (List.cons.inj he).1, hs z (by simp)]; rfl)
  have hq : ∀ x ∈ s, (decide (0x20 ≤ x) && x != 58) = true := by
    intro x hx
    rw [hs x hx]; rfl
  obtain ⟨-, e3⟩ := takeWhile_stop (s := 58 :: r) hq (by
    intro x y he
    rw [← (List.cons.inj he).1]; rfl)
  unfold parseKey
  rw [List.append_assoc, e1, e2, e3]
  simp [hk]

theorem key_head {k s : Bytes} (h : KeyOk k) : Head (k ++ s) := by
  obtain ⟨⟨c, t, rfl, h1, -⟩, ha, -⟩ := h
  exact ⟨c, t ++ s, rfl, (ha c (by simp)).1, h1⟩

theorem key_include {k s r : Bytes} (h : KeyOk k) (hs : ∀ c ∈ s, c = 32) : isInclude (k ++ s ++ 58 :: r) = false := by
  rw [List.append_assoc]
  refine not_include h.2.2 ?_
  intro c q he
  cases s with
  | nil => rw [← (List.cons.inj he).1]; decide
  | cons z s => rw [← (List.cons.inj he).1, hs z (by simp)]; decide

end Sis.Conf
