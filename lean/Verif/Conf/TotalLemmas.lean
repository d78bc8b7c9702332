import Verif.Conf.ConfLemmas
import Verif.Conf.MonoLemmas
/-
Lemmas for C107: every text is read to an end, if the included files come to an end.
-/
namespace Sis.Conf
open Sis Num
open Sis.Json (Node Ty newNode isFloat)

theorem mem_takeWhile_imp {p : UInt8 → Bool} {l : Bytes} {c : UInt8} (h : c ∈ l.takeWhile p) : p c = true :=
  List.all_eq_true.mp (List.all_takeWhile (p := p) (l := l)) c h

theorem all_of_dropWhile {p : UInt8 → Bool} {l : Bytes} (h : l.dropWhile p = []) : ∀ c ∈ l, p c = true := by
  have e : l.takeWhile p ++ l.dropWhile p = l := List.takeWhile_append_dropWhile
  rw [h, List.append_nil] at e
  intro c hc
  rw [← e] at hc
  exact mem_takeWhile_imp hc

theorem skipTo_suffix (b : Bool) (s : Bytes) : skipTo b s <:+ s := by
  induction s generalizing b with
  | nil => cases b <;> exact List.suffix_refl _
  | cons c s ih =>
    cases b with
    | true =>
      rw [skipTo]
      split <;> exact (ih _).trans (List.suffix_cons c s)
    | false =>
      rw [skipTo]
      split
      · exact (ih _).trans (List.suffix_cons c s)
      · split
        · exact (ih _).trans (List.suffix_cons c s)
        · exact List.suffix_refl _

theorem skip_suffix (s : Bytes) : skip s <:+ s := skipTo_suffix false s

/-- The text ends with a control character, or another zero follows. -/
def Ended (sl : Bool) (s : Bytes) : Prop := sl = true ∨ ∀ c, s.getLast? = some c → c < 0x20

theorem ended_suffix {sl : Bool} {s t : Bytes} (h : Ended sl s) (ht : t <:+ s) : Ended sl t := by
  rcases h with h | h
  · exact Or.inl h
  · refine Or.inr fun c hc => ?_
    obtain ⟨p, rfl⟩ := ht
    cases t with
    | nil => simp at hc
    | cons a t =>
      apply h c
      rw [List.getLast?_append]
      rw [hc]; rfl

theorem key_total {sl : Bool} {s : Bytes} (h : Ended sl s) (e : Nat) :
    ∃ o, parseKey sl s e = some o ∧ ∀ p, o.1 = some p → p <:+ s ∧ p.length < s.length := by
  unfold parseKey
  by_cases hk : (s.takeWhile fun c => decide (0x20 < c) && c != 58) = []
  · rw [if_pos hk]
    exact ⟨_, rfl, fun p hp => absurd hp (by simp)⟩
  · rw [if_neg hk]
    have hsuf : ((s.dropWhile fun c => decide (0x20 < c) && c != 58).dropWhile fun c => decide (0x20 ≤ c) && c != 58) <:+ s :=
      (List.dropWhile_suffix _).trans (List.dropWhile_suffix _)
    have hs : s ≠ [] := by rintro rfl; exact hk rfl
    have hpos : 0 < s.length := List.length_pos_iff.mpr hs
    split
    · rename_i hd
      rcases h with h | h
      · rw [if_pos h]
        exact ⟨_, rfl, fun p hp => by rw [← Option.some.inj hp]; exact ⟨List.nil_suffix, hpos⟩⟩
      · exfalso
        obtain ⟨c, hc⟩ : ∃ c, s.getLast? = some c := ⟨_, List.getLast?_eq_some_getLast hs⟩
        have hlt := h c hc
        obtain ⟨q, hq⟩ := List.getLast?_eq_some_iff.mp hc
        have hne : ¬ ∀ x ∈ s.dropWhile (fun c => decide (0x20 < c) && c != 58), (decide (0x20 ≤ x) && x != 58) = true := by
          intro ha
          have hm : c ∈ s.dropWhile fun c => decide (0x20 < c) && c != 58 := by
            have h2 : s.takeWhile (fun c => decide (0x20 < c) && c != 58) ++ s.dropWhile (fun c => decide (0x20 < c) && c != 58) = s := List.takeWhile_append_dropWhile
            have hcs : c ∈ s := by rw [hq]; simp
            rw [← h2, List.mem_append] at hcs
            rcases hcs with hcs | hcs
            · have hh := mem_takeWhile_imp hcs
              simp at hh
              have h3 := UInt8.lt_iff_toNat_lt.mp hlt
              have h4 := UInt8.lt_iff_toNat_lt.mp hh.1
              simp at h3 h4; omega
            · exact hcs
          have h5 := ha c hm
          simp at h5
          have h3 := UInt8.lt_iff_toNat_lt.mp hlt
          have h4 := UInt8.le_iff_toNat_le.mp h5.1
          simp at h3 h4; omega
        apply hne
        exact all_of_dropWhile hd
    · rename_i r hd
      refine ⟨_, rfl, fun p hp => ?_⟩
      rw [← Option.some.inj hp]
      rw [hd] at hsuf
      have hl := hsuf.length_le
      simp at hl
      exact ⟨(List.suffix_cons 58 r).trans hsuf, by omega⟩
    · exact ⟨_, rfl, fun p hp => absurd hp (by simp)⟩

theorem string_total (n : Node) (s : Bytes) (e : Nat) (p : Bytes) (hp : (parseString n s e).ptr = some p) : p <:+ s ∧ p.length < s.length := by
  unfold parseString at hp
  by_cases h34 : at0 s = 34
  · simp only [if_pos h34] at hp
    by_cases ht : (s.tail.takeWhile fun c => wordCh c && c != 34) = []
    · rw [if_pos ht] at hp; exact absurd hp (by simp)
    · rw [if_neg ht] at hp
      have hp := Option.some.inj hp
      cases s with
      | nil => exact absurd h34 (by decide)
      | cons c r =>
        rw [List.tail_cons] at hp
        rw [← hp]
        have h1 : ((if at0 (r.dropWhile fun c => wordCh c && c != 34) = 34 then (r.dropWhile fun c => wordCh c && c != 34).tail
            else r.dropWhile fun c => wordCh c && c != 34).dropWhile fun c => wordCh c && !sepCh c) <:+ r := by
          refine (List.dropWhile_suffix _).trans ?_
          split
          · exact (List.tail_suffix _).trans (List.dropWhile_suffix _)
          · exact List.dropWhile_suffix _
        have := h1.length_le
        refine ⟨h1.trans (List.suffix_cons c r), ?_⟩
        simp only [List.length_cons]; omega
  · simp only [if_neg h34] at hp
    by_cases ht : (s.takeWhile fun c => wordCh c && !sepCh c) = []
    · rw [if_pos ht] at hp; exact absurd hp (by simp)
    · rw [if_neg ht] at hp
      have hp := Option.some.inj hp
      have h1 : s.takeWhile (fun c => wordCh c && !sepCh c) ++ s.dropWhile (fun c => wordCh c && !sepCh c) = s := List.takeWhile_append_dropWhile
      rw [← hp]
      refine ⟨List.dropWhile_suffix _, ?_⟩
      have h2 := congrArg List.length h1
      rw [List.length_append] at h2
      have := List.length_pos_iff.mpr ht
      omega

theorem number_total (n : Node) (s : Bytes) (e : Nat) (hs : s ≠ []) (hc : at0 s = 45 ∨ isDigit (at0 s) = true) (p : Bytes)
    (hp : (parseNumber n s e).ptr = some p) : p <:+ s ∧ p.length < s.length := by
  unfold parseNumber at hp
  rw [← Option.some.inj hp]
  obtain ⟨c, r, rfl⟩ := List.exists_cons_of_ne_nil hs
  have hn : numCh c = true := by
    unfold numCh
    rcases hc with hc | hc
    · have hc : c = 45 := hc
      simp [hc]
    · have hc : isDigit c = true := hc
      simp [hc]
  have h1 : (c :: r).dropWhile numCh = r.dropWhile numCh := by simp [hn]
  rw [h1]
  have h2 : r.dropWhile numCh <:+ r := List.dropWhile_suffix _
  have := h2.length_le
  exact ⟨h2.trans (List.suffix_cons c r), by simp only [List.length_cons]; omega⟩

theorem include_ptr {v : Env} {fuel : Nat} {n : Node} {s : Bytes} {e : Nat} {o : Option Bytes × List Node × Nat} (hi : isInclude s = true)
    (h : parseInclude v fuel n s e = some o) (p : Bytes) (hp : o.1 = some p) : p <:+ s ∧ p.length < s.length := by
  have hl : 7 ≤ s.length := by
    unfold isInclude at hi
    rw [beq_iff_eq] at hi
    have := congrArg List.length hi
    simp at this; omega
  cases fuel with
  | zero => rw [parseInclude] at h; exact absurd h (by simp)
  | succ f =>
    rw [parseInclude] at h
    have hsuf : ((skip (s.drop 7)).dropWhile fun c => wordCh c && !sepCh c) <:+ s.drop 7 := (List.dropWhile_suffix _).trans (skip_suffix _)
    have hlen := hsuf.length_le
    rw [List.length_drop] at hlen
    split at h
    · rw [← Option.some.inj h] at hp; exact absurd hp (by simp)
    · split at h
      · exact absurd h (by simp)
      · split at h
        · rw [← Option.some.inj h] at hp; exact absurd hp (by simp)
        · rw [← Option.some.inj h] at hp
          rw [← Option.some.inj hp]
          exact ⟨hsuf.trans (List.drop_suffix 7 s), by omega⟩

/-- The files included by the text are read to an end, if the bound is at least `K`. -/
def Known (v : Env) (K : Nat) (s : Bytes) : Prop :=
  ∀ t, t <:+ s → isInclude t = true → ∀ fuel, K ≤ fuel → ∀ n e, ∃ o, parseInclude v fuel n t e = some o

theorem known_suffix {v : Env} {K : Nat} {s t : Bytes} (h : Known v K s) (ht : t <:+ s) : Known v K t := fun u hu => h u (hu.trans ht)

theorem item_total {v : Env} {K fuel : Nat} {sl : Bool} {s : Bytes}
    (hv : ∀ n t e, t <:+ s → t.length < s.length → ∃ o, parseValue v sl fuel n t e = some o ∧ ∀ p, o.ptr = some p → p <:+ t ∧ p.length < t.length)
    (hk : Known v K s) (he : Ended sl s) (hf : K ≤ fuel) (n : Node) (e : Nat) :
    ∃ p ns e', (if isInclude (skip s) then parseInclude v fuel n (skip s) e else member sl (parseValue v sl fuel) n (skip s) e) = some (p, ns, e') ∧
      ∀ r, p.map skip = some r → r <:+ s ∧ r.length < s.length := by
  have hss := skip_suffix s
  have hsl := hss.length_le
  by_cases hi : isInclude (skip s) = true
  · rw [if_pos hi]
    obtain ⟨o, ho⟩ := hk _ hss hi fuel hf n e
    obtain ⟨p, ns, e'⟩ := o
    refine ⟨p, ns, e', ho, ?_⟩
    intro r hr
    cases p with
    | none => simp at hr
    | some p =>
      obtain ⟨h1, h2⟩ := include_ptr hi ho p rfl
      simp at hr
      rw [← hr]
      have h3 := skip_suffix p
      have h4 := h3.length_le
      exact ⟨(h3.trans h1).trans hss, by omega⟩
  · rw [if_neg hi]
    unfold member
    obtain ⟨q, hq, hq'⟩ := key_total (ended_suffix he hss) e
    rw [hq]
    simp only [Option.bind_some]
    cases hp : q.1 with
    | none => exact ⟨_, _, _, rfl, fun r hr => absurd hr (by simp)⟩
    | some w =>
      obtain ⟨h1, h2⟩ := hq' w hp
      have h3 := skip_suffix w
      have h4 := h3.length_le
      obtain ⟨o, ho, ho'⟩ := hv (setKey n q.2.1) (skip w) q.2.2 ((h3.trans h1).trans hss) (by omega)
      simp only [Option.map_some, ho]
      refine ⟨_, _, _, rfl, ?_⟩
      intro r hr
      cases hop : o.ptr with
      | none => rw [hop] at hr; simp at hr
      | some p =>
        rw [hop] at hr
        simp at hr
        obtain ⟨h5, h6⟩ := ho' p hop
        have h7 := skip_suffix p
        have h8 := h7.length_le
        rw [← hr]
        exact ⟨(((h7.trans h5).trans h3).trans h1).trans hss, by omega⟩

theorem total (v : Env) (K : Nat) (fuel : Nat) :
    (∀ sl n s e, Known v K s → Ended sl s → 2 * s.length + K + 1 ≤ fuel →
      ∃ o, parseValue v sl fuel n s e = some o ∧ ∀ p, o.ptr = some p → p <:+ s ∧ p.length < s.length) ∧
    (∀ sl i d n s e, Known v K s → Ended sl s → 2 * s.length + K + 2 ≤ fuel →
      ∃ o, arrayLoop v sl fuel i d n s e = some o ∧ ∀ p, o.1 = some p → p <:+ s) ∧
    (∀ sl d n s e, Known v K s → Ended sl s → 2 * s.length + K + 2 ≤ fuel →
      ∃ o, objectLoop v sl fuel d n s e = some o ∧ ∀ p, o.1 = some p → p <:+ s) := by
  induction fuel with
  | zero =>
    refine ⟨?_, ?_, ?_⟩
    · intro sl n s e _ _ h; omega
    · intro sl i d n s e _ _ h; omega
    · intro sl d n s e _ _ h; omega
  | succ fuel ih =>
    obtain ⟨i1, i2, i3⟩ := ih
    refine ⟨?_, ?_, ?_⟩
    · intro sl n s e hk he hf
      unfold parseValue
      by_cases h0 : s ≠ [] ∧ (at0 s = 45 ∨ isDigit (at0 s) = true)
      · rw [if_pos h0]
        exact ⟨_, rfl, number_total n s e h0.1 h0.2⟩
      · rw [if_neg h0]
        split
        · rename_i t
          have hst := (skip_suffix t).trans (List.suffix_cons 91 t)
          have hl := (skip_suffix t).length_le
          simp only [List.length_cons] at hf ⊢
          by_cases hkey : n.key = none
          · rw [if_pos hkey]; exact ⟨_, rfl, fun p hp => absurd hp (by simp)⟩
          · rw [if_neg hkey]
            by_cases h93 : at0 (skip t) = 93
            · rw [if_pos h93]
              refine ⟨_, rfl, fun p hp => ?_⟩
              rw [← Option.some.inj hp]
              refine ⟨(List.tail_suffix _).trans hst, ?_⟩
              have := (List.tail_suffix (skip t)).length_le
              omega
            · rw [if_neg h93]
              obtain ⟨o, ho, ho'⟩ := i2 sl 0 [] newNode (skip t) e (known_suffix hk hst) (ended_suffix he hst) (by omega)
              rw [ho]
              refine ⟨_, rfl, fun p hp => ?_⟩
              have h1 := ho' p hp
              have := h1.length_le
              exact ⟨h1.trans hst, by omega⟩
        · rename_i t
          have hst := (skip_suffix t).trans (List.suffix_cons 123 t)
          have hl := (skip_suffix t).length_le
          simp only [List.length_cons] at hf ⊢
          by_cases h125 : at0 (skip t) = 125
          · rw [if_pos h125]
            refine ⟨_, rfl, fun p hp => ?_⟩
            rw [← Option.some.inj hp]
            refine ⟨(List.tail_suffix _).trans hst, ?_⟩
            have := (List.tail_suffix (skip t)).length_le
            omega
          · rw [if_neg h125]
            obtain ⟨o, ho, ho'⟩ := i3 sl [] newNode (skip t) e (known_suffix hk hst) (ended_suffix he hst) (by omega)
            rw [ho]
            refine ⟨_, rfl, fun p hp => ?_⟩
            have h1 := ho' p hp
            have := h1.length_le
            exact ⟨h1.trans hst, by omega⟩
        · exact ⟨_, rfl, string_total n s e⟩
    · intro sl i d n s e hk he hf
      have hss := skip_suffix s
      have hsl := hss.length_le
      unfold arrayLoop
      by_cases hs : s = []
      · rw [if_pos hs]; exact ⟨_, rfl, fun p hp => absurd hp (by simp)⟩
      · rw [if_neg hs]
        by_cases hi : isInclude (skip s) = true
        · rw [if_pos hi]; exact ⟨_, rfl, fun p hp => absurd hp (by simp)⟩
        · rw [if_neg hi]
          obtain ⟨o, ho, ho'⟩ := i1 sl (setKey n (some (llutoa i 32))) (skip s) e (known_suffix hk hss) (ended_suffix he hss) (by omega)
          rw [ho]
          simp only
          cases hop : o.ptr with
          | none => exact ⟨_, rfl, fun p hp => absurd hp (by simp)⟩
          | some p =>
            obtain ⟨h1, h2⟩ := ho' p hop
            have h3 := (skip_suffix p)
            have h4 := h3.length_le
            have h5 := (h3.trans h1).trans hss
            simp only [Option.map_some]
            split
            · exact ⟨_, rfl, fun p hp => absurd hp (by simp)⟩
            · exact ⟨_, rfl, fun p hp => absurd hp (by simp)⟩
            · rename_i r hr
              rw [Option.some.inj hr] at h5
              refine ⟨_, rfl, fun p hp => ?_⟩
              rw [← Option.some.inj hp]
              exact (List.suffix_cons 93 r).trans h5
            · rename_i r hr
              have hr := Option.some.inj hr
              rw [hr] at h5 h4
              simp only [List.length_cons] at h4
              have h6 := (List.suffix_cons 44 r).trans h5
              obtain ⟨q, hq, hq'⟩ := i2 sl (i + 1) (d ++ [o.node]) newNode r o.err (known_suffix hk h6) (ended_suffix he h6) (by omega)
              exact ⟨q, hq, fun p hp => (hq' p hp).trans h6⟩
            · rename_i r _ _ _ hr
              have hr := Option.some.inj hr
              rw [hr] at h5 h4
              obtain ⟨q, hq, hq'⟩ := i2 sl (i + 1) d o.node r o.err (known_suffix hk h5) (ended_suffix he h5) (by omega)
              exact ⟨q, hq, fun p hp => (hq' p hp).trans h5⟩
    · intro sl d n s e hk he hf
      unfold objectLoop
      by_cases hs : s = []
      · rw [if_pos hs]; exact ⟨_, rfl, fun p hp => absurd hp (by simp)⟩
      · rw [if_neg hs]
        obtain ⟨p, ns, e', hit, hp⟩ := item_total (v := v) (K := K) (fuel := fuel) (sl := sl) (s := s)
          (fun n t e ht hl => i1 sl n t e (known_suffix hk ht) (ended_suffix he ht) (by omega)) hk he (by omega) n e
        rw [hit]
        simp only
        split
        · exact ⟨_, rfl, fun p hp => absurd hp (by simp)⟩
        · exact ⟨_, rfl, fun p hp => absurd hp (by simp)⟩
        · rename_i r hr
          obtain ⟨h5, -⟩ := hp _ hr
          refine ⟨_, rfl, fun p hp => ?_⟩
          rw [← Option.some.inj hp]
          exact (List.suffix_cons 125 r).trans h5
        · rename_i r hr
          obtain ⟨h5, h4⟩ := hp _ hr
          simp only [List.length_cons] at h4
          have h6 := (List.suffix_cons 44 r).trans h5
          obtain ⟨q, hq, hq'⟩ := i3 sl (d ++ ns) newNode r e' (known_suffix hk h6) (ended_suffix he h6) (by omega)
          exact ⟨q, hq, fun p hp => (hq' p hp).trans h6⟩
        · rename_i r _ _ _ hr
          obtain ⟨h5, h4⟩ := hp _ hr
          obtain ⟨q, hq, hq'⟩ := i3 sl (d ++ ns.dropLast) (ns.getLast?.getD newNode) r e' (known_suffix hk h5) (ended_suffix he h5) (by omega)
          exact ⟨q, hq, fun p hp => (hq' p hp).trans h5⟩

theorem include_total (v : Env) (K : Nat) (fuel : Nat) :
    ∀ d n s e, Known v K s → 2 * s.length + K + 2 ≤ fuel → ∃ o, includeLoop v fuel d n s e = some o := by
  induction fuel with
  | zero => intro d n s e _ h; omega
  | succ fuel ih =>
    intro d n s e hk hf
    unfold includeLoop
    by_cases hs : s = []
    · rw [if_pos hs]; exact ⟨_, rfl⟩
    · rw [if_neg hs]
      obtain ⟨p, ns, e', hit, hp⟩ := item_total (v := v) (K := K) (fuel := fuel) (sl := true) (s := s)
        (fun n t e ht hl => (total v K fuel).1 true n t e (known_suffix hk ht) (Or.inl rfl) (by omega)) hk (Or.inl rfl) (by omega) n e
      rw [hit]
      simp only
      split
      · exact ⟨_, rfl⟩
      · exact ⟨_, rfl⟩
      · rename_i r _ hr
        obtain ⟨h5, h4⟩ := hp _ hr
        exact ih _ _ _ _ (known_suffix hk h5) (by omega)

theorem top_total (v : Env) (K : Nat) (fuel : Nat) :
    ∀ d s e, Known v K s → 2 * s.length + K + 2 ≤ fuel → ∃ o, topLoop v fuel d s e = some o := by
  induction fuel with
  | zero => intro d s e _ h; omega
  | succ fuel ih =>
    intro d s e hk hf
    unfold topLoop
    by_cases hs : s = []
    · rw [if_pos hs]; exact ⟨_, rfl⟩
    · rw [if_neg hs]
      obtain ⟨p, ns, e', hit, hp⟩ := item_total (v := v) (K := K) (fuel := fuel) (sl := true) (s := s)
        (fun n t e ht hl => (total v K fuel).1 true n t e (known_suffix hk ht) (Or.inl rfl) (by omega)) hk (Or.inl rfl) (by omega) newNode e
      rw [hit]
      simp only
      split
      · exact ⟨_, rfl⟩
      · rename_i r hr
        obtain ⟨h5, h4⟩ := hp _ hr
        exact ih _ _ _ (known_suffix hk h5) (by omega)

/-! ### Files that come to an end -/

theorem gap_of_skipTo (s : Bytes) :
    (skipTo false s ≠ [] → ∃ g, Gap g ∧ s = g ++ skipTo false s) ∧
    (skipTo true s ≠ [] → ∃ t c g, (∀ x ∈ t, x ≠ 10 ∧ x ≠ 13) ∧ (c = 10 ∨ c = 13) ∧ Gap g ∧ s = t ++ c :: g ++ skipTo true s) := by
  induction s with
  | nil => exact ⟨fun h => absurd rfl h, fun h => absurd rfl h⟩
  | cons c s ih =>
    refine ⟨?_, ?_⟩
    · rw [skipTo]
      by_cases h1 : c ≤ 0x20
      · rw [if_pos h1]
        intro h
        obtain ⟨g, hg, he⟩ := ih.1 h
        exact ⟨c :: g, Gap.blank h1 hg, by rw [List.cons_append, ← he]⟩
      · rw [if_neg h1]
        by_cases h2 : c = 35
        · rw [if_pos h2]
          intro h
          obtain ⟨t, d, g, ht, hd, hg, he⟩ := ih.2 h
          refine ⟨35 :: (t ++ d :: g), Gap.note ht hd hg, ?_⟩
          rw [List.cons_append, ← he, h2]
        · rw [if_neg h2]
          intro _
          exact ⟨[], Gap.nil, rfl⟩
    · rw [skipTo]
      by_cases h1 : c = 10 ∨ c = 13
      · rw [if_pos h1]
        intro h
        obtain ⟨g, hg, he⟩ := ih.1 h
        exact ⟨[], c, g, fun x hx => by simp at hx, h1, hg, by rw [List.nil_append, List.cons_append, ← he]⟩
      · rw [if_neg h1]
        intro h
        obtain ⟨t, d, g, ht, hd, hg, he⟩ := ih.2 h
        refine ⟨c :: t, d, g, ?_, hd, hg, ?_⟩
        · intro x hx
          rcases List.mem_cons.mp hx with rfl | hx
          · exact ⟨fun h => h1 (Or.inl h), fun h => h1 (Or.inr h)⟩
          · exact ht x hx
        · rw [List.cons_append, List.cons_append, ← he]

theorem word_iff (c : UInt8) : (wordCh c && !sepCh c) = true ↔ Solid c ∧ c ≠ 44 ∧ c ≠ 93 ∧ c ≠ 125 := by
  unfold wordCh sepCh Solid
  simp only [Bool.and_eq_true, Bool.not_eq_true', Bool.or_eq_false_iff, decide_eq_false_iff_not, beq_eq_false_iff_ne, UInt8.not_le]
  constructor
  · rintro ⟨⟨h1, h2⟩, ⟨h3, h4⟩, h5⟩; exact ⟨⟨h1, h2⟩, h3, h4, h5⟩
  · rintro ⟨⟨h1, h2⟩, h3, h4, h5⟩; exact ⟨⟨h1, h2⟩, ⟨h3, h4⟩, h5⟩

/-- A file that is opened for an include is included. -/
theorem includes_of {b t : Bytes} (ht : t <:+ b) (hi : isInclude t = true) (hn : ((skip (t.drop 7)).takeWhile fun c => wordCh c && !sepCh c) ≠ []) :
    Includes b ((skip (t.drop 7)).takeWhile fun c => wordCh c && !sepCh c) := by
  obtain ⟨pre, rfl⟩ := ht
  have hne : skip (t.drop 7) ≠ [] := by intro h; rw [h] at hn; exact hn rfl
  obtain ⟨g, hg, he⟩ := (gap_of_skipTo (t.drop 7)).1 hne
  refine ⟨pre, t.take 7, g, (skip (t.drop 7)).dropWhile fun c => wordCh c && !sepCh c, ?_, ?_, hg, ⟨hn, ?_⟩, ?_⟩
  · rw [List.takeWhile_append_dropWhile, show g ++ skip (t.drop 7) = t.drop 7 from he.symm, List.take_append_drop]
  · simpa [isInclude] using hi
  · intro c hc
    exact (word_iff c).mp (mem_takeWhile_imp hc)
  · intro c r hr
    have h1 : ¬ (wordCh c && !sepCh c) = true := by
      have := List.head_dropWhile_not (fun c => wordCh c && !sepCh c) (l := skip (t.drop 7)) (by rw [hr]; simp)
      simp only [hr, List.head_cons] at this
      rw [this]; decide
    rw [word_iff] at h1
    unfold Solid at h1
    by_cases g1 : c ≤ 0x20
    · exact Or.inl g1
    · by_cases g2 : c = 35
      · exact Or.inr (Or.inl g2)
      · by_cases g3 : c = 44
        · exact Or.inr (Or.inr (Or.inl g3))
        · by_cases g4 : c = 93
          · exact Or.inr (Or.inr (Or.inr (Or.inl g4)))
          · by_cases g5 : c = 125
            · exact Or.inr (Or.inr (Or.inr (Or.inr g5)))
            · exact absurd ⟨⟨UInt8.not_le.mp g1, g2⟩, g3, g4, g5⟩ h1

theorem bound_suffixes {P : Bytes → Nat → Prop} (hm : ∀ t j k, j ≤ k → P t j → P t k) (s : Bytes) (h : ∀ t, t <:+ s → ∃ K, P t K) :
    ∃ K, ∀ t, t <:+ s → P t K := by
  induction s with
  | nil =>
    obtain ⟨K, hK⟩ := h [] List.nil_suffix
    exact ⟨K, fun t ht => by rw [List.suffix_nil.mp ht]; exact hK⟩
  | cons c s ih =>
    obtain ⟨K, hK⟩ := ih fun t ht => h t (ht.trans (List.suffix_cons c s))
    obtain ⟨L, hL⟩ := h (c :: s) (List.suffix_refl _)
    refine ⟨max K L, fun t ht => ?_⟩
    rcases List.suffix_cons_iff.mp ht with rfl | ht
    · exact hm _ _ _ (Nat.le_max_right _ _) hL
    · exact hm _ _ _ (Nat.le_max_left _ _) (hK t ht)

theorem known_of_ends (v : Env) (hp : v.files (v.path.take 1023) = none) {b : Bytes} (h : Ends v b) : ∃ K, Known v K b := by
  induction h with
  | mk _ ih =>
    rename_i b _
    have hone : ∀ t, t <:+ b → ∃ K, isInclude t = true → ∀ fuel, K ≤ fuel → ∀ n e, ∃ o, parseInclude v fuel n t e = some o := by
      intro t ht
      by_cases hi : isInclude t = true
      · cases hfile : fileText v ((v.path ++ (skip (t.drop 7)).takeWhile fun c => wordCh c && !sepCh c).take 1023) with
        | none =>
          refine ⟨1, fun _ fuel hf n e => ?_⟩
          obtain ⟨f, rfl⟩ : ∃ f, fuel = f + 1 := ⟨fuel - 1, by omega⟩
          rw [parseInclude, hfile]
          exact ⟨_, rfl⟩
        | some c =>
          have hraw : v.files ((v.path ++ (skip (t.drop 7)).takeWhile fun c => wordCh c && !sepCh c).take 1023) = some c := by
            unfold fileText at hfile
            cases hb : v.files ((v.path ++ (skip (t.drop 7)).takeWhile fun c => wordCh c && !sepCh c).take 1023) with
            | none => rw [hb] at hfile; simp at hfile
            | some d =>
              rw [hb] at hfile
              simp only [Option.bind_some] at hfile
              split at hfile
              · exact absurd hfile (by simp)
              · exact hfile
          have hn : ((skip (t.drop 7)).takeWhile fun c => wordCh c && !sepCh c) ≠ [] := by
            intro hn
            rw [hn, List.append_nil, hp] at hraw
            exact absurd hraw (by simp)
          obtain ⟨K, hK⟩ := ih _ c (includes_of ht hi hn) hraw
          refine ⟨2 * c.length + K + 3, fun _ fuel hf n e => ?_⟩
          obtain ⟨f, rfl⟩ : ∃ f, fuel = f + 1 := ⟨fuel - 1, by omega⟩
          rw [parseInclude, hfile]
          have hl := (skip_suffix c).length_le
          obtain ⟨⟨ns, e'⟩, ho⟩ := include_total v K f [] n (skip c) e (known_suffix hK (skip_suffix c)) (by omega)
          simp only [ho]
          split <;> exact ⟨_, rfl⟩
      · exact ⟨0, fun h => absurd h hi⟩
    obtain ⟨K, hK⟩ := bound_suffixes (P := fun t K => isInclude t = true → ∀ fuel, K ≤ fuel → ∀ n e, ∃ o, parseInclude v fuel n t e = some o)
      (fun t j k hjk h hi fuel hf => h hi fuel (by omega)) b hone
    exact ⟨K, fun t ht hi => hK t ht hi⟩

end Sis.Conf
