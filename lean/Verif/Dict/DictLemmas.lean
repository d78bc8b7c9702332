import Verif.Dict.Dict
/-
Lemmas about the dictionary model.
-/
namespace Sis.Dict

variable {K V : Type}

/-- What the dictionary needs of its key functions. -/
structure Ty.Ok (ty : Ty K) : Prop where
  refl : ∀ a, ty.same a a = true
  symm : ∀ a b, ty.same a b = true → ty.same b a = true
  trans : ∀ a b c, ty.same a b = true → ty.same b c = true → ty.same a c = true
  hash : ∀ a b, ty.same a b = true → ty.hash a = ty.hash b

/-- All entries of a table. -/
def HT.ents (t : HT K V) : List (K × V) := t.table.flatten

/-- All entries of a dictionary. -/
def ents (d : Dict K V) : List (K × V) := d.h0.ents ++ d.h1.ents

/-- Every entry sits in the chain of its key. -/
structure HT.WF (ty : Ty K) (t : HT K V) : Prop where
  place : ∀ i c, t.table[i]? = some c → ∀ e ∈ c, t.slot ty e.1 = i
  used : t.used = t.ents.length

/-- No two entries have the same key. -/
def Distinct (ty : Ty K) (l : List (K × V)) : Prop := l.Pairwise fun a b => ty.same a.1 b.1 = false

structure Inv (ty : Ty K) (d : Dict K V) : Prop where
  w0 : d.h0.WF ty
  w1 : d.h1.WF ty
  uniq : Distinct ty (ents d)
  idle : d.ridx = none → d.h1.table = []
  busy : ∀ r, d.ridx = some r → d.h0.table ≠ [] ∧ d.h1.table ≠ [] ∧ r ≤ d.h0.table.length ∧ (d.h0.table.take r).flatten = []

theorem split_at {α : Type} {l : List α} {i : Nat} {c : α} (h : l[i]? = some c) : ∃ A B, l = A ++ c :: B ∧ A.length = i := by
  have hi := List.getElem?_eq_some_iff.1 h
  obtain ⟨hlt, he⟩ := hi
  refine ⟨l.take i, l.drop (i + 1), ?_, by rw [List.length_take]; omega⟩
  subst he
  simp

theorem slot_lt (ty : Ty K) (t : HT K V) (k : K) (h : t.table ≠ []) : t.slot ty k < t.table.length := by
  have h1 : t.slot ty k ≤ t.table.length - 1 := Nat.and_le_right
  have h2 : 0 < t.table.length := List.length_pos_iff.2 h
  omega

theorem chain_split (ty : Ty K) (t : HT K V) (k : K) (h : t.table ≠ []) :
    ∃ A c B, t.table = A ++ c :: B ∧ A.length = t.slot ty k ∧ chain ty t k = some c := by
  have hl := slot_lt ty t k h
  have hc : t.table[t.slot ty k]? = some t.table[t.slot ty k] := List.getElem?_eq_getElem hl
  obtain ⟨A, B, hs, hA⟩ := split_at hc
  exact ⟨A, _, B, hs, hA, hc⟩

theorem set_mid {α : Type} (A B : List α) (c c' : α) : (A ++ c :: B).set A.length c' = A ++ c' :: B := by
  simp

theorem ents_mid (A B : List (List (K × V))) (c : List (K × V)) (u : Nat) :
    (HT.mk (A ++ c :: B) u).ents = A.flatten ++ (c ++ B.flatten) := by
  simp [HT.ents]

theorem slot_same {ty : Ty K} (ok : ty.Ok) (t : HT K V) {a b : K} (h : ty.same a b = true) : t.slot ty a = t.slot ty b := by
  unfold HT.slot; rw [ok.hash a b h]

theorem slot_congr (ty : Ty K) (t t' : HT K V) (k : K) (h : t.table.length = t'.table.length) : t.slot ty k = t'.slot ty k := by
  unfold HT.slot; rw [h]

theorem HT.WF.reset (ty : Ty K) : (HT.reset : HT K V).WF ty where
  place i c h := by simp [HT.reset] at h
  used := rfl

theorem HT.WF.blank (ty : Ty K) (n : Nat) : (⟨List.replicate n [], 0⟩ : HT K V).WF ty where
  place i c h e he := by
    have := List.mem_of_getElem? h
    rw [(List.mem_replicate.1 this).2] at he
    cases he
  used := by simp [HT.ents]

theorem mid_get {α : Type} (A B : List α) (c : α) : (A ++ c :: B)[A.length]? = some c := by simp

/-- Changing one chain of a well-formed table. -/
theorem WF_mid {ty : Ty K} {t : HT K V} (w : t.WF ty) {A c B} (hs : t.table = A ++ c :: B) (c' : List (K × V)) (u : Nat)
    (hc : ∀ e ∈ c', e ∈ c ∨ t.slot ty e.1 = A.length) (hu : u + c.length = t.used + c'.length) :
    (⟨A ++ c' :: B, u⟩ : HT K V).WF ty where
  place i c2 h e he := by
    have hl : t.table.length = (A ++ c' :: B).length := by rw [hs]; simp
    rw [slot_congr ty ⟨A ++ c' :: B, u⟩ t e.1 hl.symm]
    change (A ++ c' :: B)[i]? = some c2 at h
    rw [← set_mid A B c c', List.getElem?_set] at h
    by_cases hi : A.length = i
    · rw [if_pos hi, if_pos (by simp)] at h
      cases h
      rcases hc e he with h3 | h3
      · rw [← hi]; exact w.place _ _ (by rw [hs]; exact mid_get A B c) e h3
      · rw [h3, hi]
    · rw [if_neg hi, ← hs] at h
      exact w.place _ _ h e he
  used := by
    have := w.used
    have h2 : t.ents = A.flatten ++ (c ++ B.flatten) := by unfold HT.ents; rw [hs]; simp
    rw [h2] at this
    rw [ents_mid]
    simp only [List.length_append] at *
    show u = _
    omega

/-- The entries with a key are in the chain of the key. -/
theorem in_chain {ty : Ty K} (ok : ty.Ok) {t : HT K V} (w : t.WF ty) {k : K} {c : List (K × V)} (hc : chain ty t k = some c)
    {e : K × V} (he : e ∈ t.ents) (hk : ty.same k e.1 = true) : e ∈ c := by
  obtain ⟨c2, h2, h3⟩ := List.mem_flatten.1 he
  obtain ⟨i, hi, h4⟩ := List.getElem_of_mem h2
  have h5 : t.table[i]? = some c2 := by rw [List.getElem?_eq_getElem hi, h4]
  have h6 := w.place i c2 h5 e h3
  unfold chain at hc
  rw [slot_same ok t hk, h6, h5] at hc
  cases hc; exact h3

theorem chain_sub {ty : Ty K} {t : HT K V} {k : K} {c : List (K × V)} (hc : chain ty t k = some c) {e : K × V} (he : e ∈ c) :
    e ∈ t.ents := List.mem_flatten.2 ⟨c, List.mem_of_getElem? hc, he⟩

/-- The key has no entry in this list. -/
def Absent (ty : Ty K) (k : K) (l : List (K × V)) : Prop := ∀ e ∈ l, ty.same k e.1 = false

theorem inChain_none {ty : Ty K} (ok : ty.Ok) {t : HT K V} (w : t.WF ty) {k : K} {c : List (K × V)} (hc : chain ty t k = some c)
    (h : inChain ty k c = none) : Absent ty k t.ents := by
  intro e he
  unfold inChain at h
  rw [List.find?_eq_none] at h
  by_cases hk : ty.same k e.1 = true
  · exact absurd hk (h e (in_chain ok w hc he hk))
  · simpa using hk

theorem inChain_some {ty : Ty K} {k : K} {c : List (K × V)} {e : K × V} (h : inChain ty k c = some e) :
    ty.same k e.1 = true ∧ ∃ p q, c = p ++ e :: q ∧ Absent ty k p := by
  unfold inChain at h
  rw [List.find?_eq_some_iff_append] at h
  obtain ⟨h1, p, q, h2, h3⟩ := h
  exact ⟨h1, p, q, h2, fun a ha => by simpa using h3 a ha⟩

theorem setInChain_found {ty : Ty K} {k : K} {v : V} {p q : List (K × V)} {e : K × V} (hk : ty.same k e.1 = true)
    (hp : Absent ty k p) : setInChain ty k v (p ++ e :: q) = (p ++ (e.1, v) :: q, some e.2) := by
  induction p with
  | nil => simp [setInChain, hk]
  | cons a p ih =>
    have h1 : ty.same k a.1 = false := hp a (by simp)
    simp only [List.cons_append, setInChain, h1]
    rw [ih fun b hb => hp b (by simp [hb])]
    simp

theorem delInChain_found {ty : Ty K} {k : K} {p q : List (K × V)} {e : K × V} (hk : ty.same k e.1 = true)
    (hp : Absent ty k p) : delInChain ty k (p ++ e :: q) = (p ++ q, some e.2) := by
  induction p with
  | nil => simp [delInChain, hk]
  | cons a p ih =>
    have h1 : ty.same k a.1 = false := hp a (by simp)
    simp only [List.cons_append, delInChain, h1]
    rw [ih fun b hb => hp b (by simp [hb])]
    simp

theorem delInChain_none {ty : Ty K} {k : K} {c : List (K × V)} (hp : Absent ty k c) : delInChain ty k c = (c, none) := by
  induction c with
  | nil => rfl
  | cons a p ih =>
    have h1 : ty.same k a.1 = false := hp a (by simp)
    simp only [delInChain, h1]
    rw [ih fun b hb => hp b (by simp [hb])]
    simp

theorem same_symm_false {ty : Ty K} (ok : ty.Ok) {a b : K} (h : ty.same a b = false) : ty.same b a = false := by
  by_cases h2 : ty.same b a = true
  · rw [ok.symm _ _ h2] at h; cases h
  · simpa using h2

theorem Distinct.perm {ty : Ty K} (ok : ty.Ok) {l l' : List (K × V)} (h : l.Perm l') (hd : Distinct ty l) : Distinct ty l' :=
  (h.pairwise_iff (fun h => same_symm_false ok h)).1 hd

/-- Where an operation on a chain of a table leaves the table: before, after, and the chain taken apart. -/
theorem setIn_spec {ty : Ty K} {t : HT K V} (w : t.WF ty) {k : K} (v : V) {c : List (K × V)}
    (hc : chain ty t k = some c) {e : K × V} (he : inChain ty k c = some e) :
    ∃ A p q B, t.table = A ++ (p ++ e :: q) :: B ∧
      setIn ty t k v = some (⟨A ++ (p ++ (e.1, v) :: q) :: B, t.used⟩, some e.2) ∧
      (⟨A ++ (p ++ (e.1, v) :: q) :: B, t.used⟩ : HT K V).WF ty := by
  obtain ⟨hk, p, q, hpq, hp⟩ := inChain_some he
  obtain ⟨A, B, hs, hA⟩ := split_at hc
  subst hpq
  refine ⟨A, p, q, B, hs, ?_, ?_⟩
  · unfold setIn
    rw [hc]
    simp only [Option.bind_eq_bind, Option.bind_some, setInChain_found hk hp]
    rw [← hA, hs, set_mid]
  · apply WF_mid w hs
    · intro x hx
      simp only [List.mem_append, List.mem_cons] at hx ⊢
      rcases hx with hx | hx | hx
      · exact Or.inl (Or.inl hx)
      · right
        rw [hx]
        have := w.place A.length (p ++ e :: q) (by rw [hs]; exact mid_get _ _ _) e (by simp)
        exact this
      · exact Or.inl (Or.inr (Or.inr hx))
    · simp only [List.length_append, List.length_cons]

theorem delIn_found {ty : Ty K} {t : HT K V} (w : t.WF ty) {k : K} {c : List (K × V)}
    (hc : chain ty t k = some c) {e : K × V} (he : inChain ty k c = some e) :
    ∃ A p q B, t.table = A ++ (p ++ e :: q) :: B ∧
      delIn ty t k = some (⟨A ++ (p ++ q) :: B, t.used - 1⟩, some e.2) ∧
      (⟨A ++ (p ++ q) :: B, t.used - 1⟩ : HT K V).WF ty := by
  obtain ⟨hk, p, q, hpq, hp⟩ := inChain_some he
  obtain ⟨A, B, hs, hA⟩ := split_at hc
  subst hpq
  have hu : 0 < t.used := by
    rw [w.used]; unfold HT.ents; rw [hs]
    simp only [List.flatten_append, List.flatten_cons, List.length_append, List.length_cons]; omega
  refine ⟨A, p, q, B, hs, ?_, ?_⟩
  · unfold delIn
    rw [hc]
    simp only [Option.bind_eq_bind, Option.bind_some, delInChain_found hk hp]
    rw [← hA, hs, set_mid]
  · apply WF_mid w hs
    · intro x hx
      simp only [List.mem_append, List.mem_cons] at hx ⊢
      rcases hx with hx | hx
      · exact Or.inl (Or.inl hx)
      · exact Or.inl (Or.inr (Or.inr hx))
    · simp only [List.length_append, List.length_cons]; omega

theorem delIn_none {ty : Ty K} {t : HT K V} {k : K} {c : List (K × V)}
    (hc : chain ty t k = some c) (he : inChain ty k c = none) : delIn ty t k = some (t, none) := by
  unfold delIn
  rw [hc]
  have : Absent ty k c := fun e h => by
    have := List.find?_eq_none.1 he e h
    simpa using this
  simp only [Option.bind_eq_bind, Option.bind_some, delInChain_none this]

theorem moveEntry_spec {ty : Ty K} {t : HT K V} (w : t.WF ty) (ht : t.table ≠ []) (e : K × V) :
    ∃ A c B, t.table = A ++ c :: B ∧ moveEntry ty t e = some ⟨A ++ (e :: c) :: B, t.used + 1⟩ ∧
      (⟨A ++ (e :: c) :: B, t.used + 1⟩ : HT K V).WF ty := by
  obtain ⟨A, c, B, hs, hA, hc⟩ := chain_split ty t e.1 ht
  refine ⟨A, c, B, hs, ?_, ?_⟩
  · unfold moveEntry
    unfold chain at hc
    simp only [Option.bind_eq_bind]
    rw [hc, Option.bind_some, ← hA, hs, set_mid]
  · apply WF_mid w hs
    · intro x hx
      rcases List.mem_cons.1 hx with hx | hx
      · right; rw [hx, hA]
      · exact Or.inl hx
    · simp only [List.length_cons]; omega

theorem moveEntry_perm {t t' : HT K V} {A c B} {e : K × V} {u : Nat} (h : t.table = A ++ c :: B) (h' : t' = ⟨A ++ (e :: c) :: B, u⟩) :
    t'.ents.Perm (e :: t.ents) := by
  have h2 : t.ents = A.flatten ++ (c ++ B.flatten) := by unfold HT.ents; rw [h]; simp
  rw [h', ents_mid, h2]
  exact List.perm_middle

theorem moveChain_spec {ty : Ty K} (c : List (K × V)) {t : HT K V} (w : t.WF ty) (ht : t.table ≠ []) :
    ∃ t', moveChain ty t c = some t' ∧ t'.WF ty ∧ t'.table ≠ [] ∧ t'.ents.Perm (c ++ t.ents) := by
  induction c generalizing t with
  | nil => exact ⟨t, rfl, w, ht, List.Perm.refl _⟩
  | cons e c ih =>
    obtain ⟨A, c1, B, hs, hm, hw⟩ := moveEntry_spec w ht e
    obtain ⟨t', h1, h2, h3, h4⟩ := ih hw (by simp)
    refine ⟨t', ?_, h2, h3, h4.trans ?_⟩
    · unfold moveChain
      rw [hm]
      exact h1
    · exact (List.Perm.append_left c (moveEntry_perm hs rfl)).trans List.perm_middle

theorem take_succ_flat {t : List (List (K × V))} {r : Nat} {c : List (K × V)} (h : t[r]? = some c) :
    (t.take (r + 1)).flatten = (t.take r).flatten ++ c := by
  rw [List.take_add_one, h]; simp

theorem skip_spec (t : List (List (K × V))) (v r : Nat) (hv : 0 < v) (hr : r ≤ t.length) (h0 : (t.take r).flatten = [])
    (hne : t.flatten ≠ []) : ∃ r' v' stop, skip t v r = some (r', v', stop) ∧ r' ≤ t.length ∧ (t.take r').flatten = [] ∧
      (stop = false → 0 < v' ∧ ∃ c, t[r']? = some c) := by
  induction v generalizing r with
  | zero => omega
  | succ v ih =>
    have hlt : r < t.length := by
      rcases Nat.lt_or_ge r t.length with h | h
      · exact h
      · rw [List.take_of_length_le h] at h0
        exact absurd h0 hne
    have hg : t[r]? = some t[r] := List.getElem?_eq_getElem hlt
    unfold skip
    rw [hg]
    generalize hc : t[r] = c at hg
    cases c with
    | nil =>
      have h1 : (t.take (r + 1)).flatten = [] := by rw [take_succ_flat hg, h0]; rfl
      by_cases hz : v = 0
      · simp only [hz, if_true]
        exact ⟨_, _, _, rfl, by omega, h1, fun h => by cases h⟩
      · simp only [hz, if_false]
        exact ih (r + 1) (by omega) (by omega) h1
    | cons a c => exact ⟨_, _, _, rfl, by omega, h0, fun _ => ⟨by omega, _, hg⟩⟩

/-- `Inv` while rehashing, as the loop of `sis_dict_rehash` keeps it. -/
theorem rehashLoop_spec {ty : Ty K} (ok : ty.Ok) (n v r : Nat) (d : Dict K V) (hi : Inv ty d) (hr : d.ridx = some r)
    (hv : 0 < n → 0 < v) : ∃ d' stop, rehashLoop ty n v r d = some (d', stop) ∧ Inv ty d' ∧ (ents d').Perm (ents d) ∧
      d'.ridx.isSome = true ∧ d'.iters = d.iters := by
  induction n generalizing v r d with
  | zero => exact ⟨d, false, rfl, hi, List.Perm.refl _, by rw [hr]; rfl, rfl⟩
  | succ n ih =>
    unfold rehashLoop
    by_cases hu : d.h0.used = 0
    · rw [if_pos hu]; exact ⟨d, false, rfl, hi, List.Perm.refl _, by rw [hr]; rfl, rfl⟩
    rw [if_neg hu]
    obtain ⟨b1, b2, b3, b4⟩ := hi.busy r hr
    have hne : d.h0.table.flatten ≠ [] := by
      intro h
      apply hu
      rw [hi.w0.used]; unfold HT.ents; rw [h]; rfl
    obtain ⟨r', v', stop, e1, e2, e3, e4⟩ := skip_spec d.h0.table v r (hv (by omega)) b3 b4 hne
    simp only [Option.bind_eq_bind, e1, Option.bind_some]
    cases stop with
    | true =>
      refine ⟨_, true, rfl, ⟨hi.w0, hi.w1, hi.uniq, fun h => (by cases h), ?_⟩, List.Perm.refl _, rfl, rfl⟩
      intro x hx
      cases hx
      exact ⟨b1, b2, e2, e3⟩
    | false =>
      obtain ⟨f1, c, f2⟩ := e4 rfl
      simp only [Bool.false_eq_true, if_false, f2, Option.bind_some]
      obtain ⟨t', g1, g2, g3, g4⟩ := moveChain_spec c hi.w1 b2
      rw [g1, Option.bind_some]
      obtain ⟨A, B, hs, hA⟩ := split_at f2
      have hset : d.h0.table.set r' [] = A ++ [] :: B := by rw [hs, ← hA, set_mid]
      have hu2 := hi.w0.used
      have h2 : d.h0.ents = A.flatten ++ (c ++ B.flatten) := by unfold HT.ents; rw [hs]; simp
      have hAe : A.flatten = [] := by
        have : d.h0.table.take r' = A := by rw [hs, ← hA]; simp
        rw [← this]; exact e3
      have hperm : (ents { d with h0 := ⟨d.h0.table.set r' [], d.h0.used - c.length⟩, h1 := t', ridx := some (r' + 1) }).Perm (ents d) := by
        unfold ents
        rw [hset]
        show ((HT.mk (A ++ [] :: B) (d.h0.used - c.length)).ents ++ t'.ents).Perm _
        rw [ents_mid, h2]
        refine (List.Perm.append_left _ g4).trans ?_
        simp only [List.nil_append, List.append_assoc, hAe]
        rw [← List.append_assoc, ← List.append_assoc]
        exact List.Perm.append_right _ List.perm_append_comm
      have hinv : Inv ty { d with h0 := ⟨d.h0.table.set r' [], d.h0.used - c.length⟩, h1 := t', ridx := some (r' + 1) } := by
        refine ⟨?_, g2, hi.uniq.perm ok hperm.symm, fun h => (by cases h), ?_⟩
        · rw [hset]
          apply WF_mid hi.w0 hs
          · intro e he; cases he
          · rw [h2] at hu2
            simp only [List.length_append] at hu2
            simp only [List.length_nil]
            omega
        · intro x hx
          cases hx
          refine ⟨?_, g3, ?_, ?_⟩
          · rw [hset]; simp
          · show r' + 1 ≤ (d.h0.table.set r' []).length
            rw [hset]; simp; omega
          · show ((d.h0.table.set r' []).take (r' + 1)).flatten = []
            rw [hset, take_succ_flat (c := []) (by rw [← hA]; exact mid_get A B _), ← hA]
            simpa using hAe
      obtain ⟨d', stop', i1, i2, i3, i4, i5⟩ := ih v' (r' + 1) _ hinv rfl (fun _ => f1)
      exact ⟨d', stop', i1, i2, i3.trans hperm, i4, i5⟩

theorem ents_nil_of_used {ty : Ty K} {t : HT K V} (w : t.WF ty) (h : t.used = 0) : t.ents = [] := by
  rw [w.used] at h
  exact List.length_eq_zero_iff.1 h

theorem rehash_spec {ty : Ty K} (ok : ty.Ok) (d : Dict K V) (n : Nat) (hi : Inv ty d) :
    ∃ d', rehash ty d n = some d' ∧ Inv ty d' ∧ (ents d').Perm (ents d) ∧ d'.iters = d.iters := by
  unfold rehash
  cases hr : d.ridx with
  | none => exact ⟨d, rfl, hi, List.Perm.refl _, rfl⟩
  | some r =>
    obtain ⟨d', stop, h1, h2, h3, h4, h5⟩ := rehashLoop_spec ok n (n * 10) r d hi hr (by omega)
    simp only [Option.bind_eq_bind, h1, Option.bind_some]
    by_cases hs : stop = true
    · rw [if_pos hs]; exact ⟨d', rfl, h2, h3, h5⟩
    rw [if_neg hs]
    by_cases hu : d'.h0.used = 0
    · rw [if_pos hu]
      have he : ents { d' with h0 := d'.h1, h1 := HT.reset, ridx := none } = ents d' := by
        unfold ents
        rw [ents_nil_of_used h2.w0 hu]
        simp [HT.ents, HT.reset]
      refine ⟨_, rfl, ⟨h2.w1, HT.WF.reset ty, ?_, fun _ => rfl, fun x hx => by cases hx⟩, ?_, h5⟩
      · rw [he]; exact h2.uniq
      · rw [he]; exact h3
    · rw [if_neg hu]; exact ⟨d', rfl, h2, h3, h5⟩

theorem rehashStep_spec {ty : Ty K} (ok : ty.Ok) (d : Dict K V) (hi : Inv ty d) :
    ∃ d', rehashStep ty d = some d' ∧ Inv ty d' ∧ (ents d').Perm (ents d) ∧ d'.iters = d.iters ∧ (d.iters ≠ 0 → d' = d) := by
  unfold rehashStep
  by_cases h : d.iters = 0
  · rw [if_pos h]
    obtain ⟨d', h1, h2, h3, h4⟩ := rehash_spec ok d 1 hi
    exact ⟨d', h1, h2, h3, h4, fun h' => absurd h h'⟩
  · rw [if_neg h]; exact ⟨d, rfl, hi, List.Perm.refl _, rfl, fun _ => rfl⟩

theorem nextPowerN_ge (n i size : Nat) (h : size ≤ i * 2 ^ n) : size ≤ nextPowerN n i size := by
  induction n generalizing i with
  | zero => simpa [nextPowerN] using h
  | succ n ih =>
    unfold nextPowerN
    by_cases hi : i ≥ size
    · rw [if_pos hi]; exact hi
    · rw [if_neg hi]
      apply ih
      rw [Nat.mul_assoc, ← Nat.pow_succ']
      exact h

theorem nextPower_ge (size : Nat) (h : size < 2 ^ 63 - 1) : size ≤ nextPower size := by
  unfold nextPower
  rw [if_neg (by omega)]
  apply nextPowerN_ge
  have : size < 2 ^ size := Nat.lt_two_pow_self
  omega

theorem ne_nil_of_ents {t : HT K V} (h : t.ents ≠ []) : t.table ≠ [] := by
  intro h2; apply h; unfold HT.ents; rw [h2]; rfl

/-- Tables after `_dict_expand_if_needed`. -/
theorem expandIfNeeded_spec {ty : Ty K} (d : Dict K V) (hi : Inv ty d) (hsz : size d < 2 ^ 61) :
    ∃ d', expandIfNeeded d = (d', true) ∧ Inv ty d' ∧ ents d' = ents d ∧ d'.h0.table ≠ [] ∧ d'.iters = d.iters ∧
      (d' = d ∨ d.ridx = none ∧ d'.h1.ents = [] ∧ d'.h1.table ≠ [] ∧ d'.h0 = d.h0 ∧ d'.ridx = some 0 ∨
        d.h0.table = [] ∧ d.ridx = none ∧ d'.h1 = d.h1 ∧ d'.ridx = none ∧ d'.h0.ents = []) := by
  unfold expandIfNeeded
  cases hr : d.ridx with
  | some r =>
    refine ⟨d, by simp, hi, rfl, (hi.busy r hr).1, rfl, Or.inl rfl⟩
  | none =>
    simp only [Option.isSome_none, Bool.false_eq_true, if_false]
    have hblank : ∀ n, (HT.mk (List.replicate n ([] : List (K × V))) 0).ents = [] := fun n => by simp [HT.ents]
    have hh1 : d.h1.table = [] := hi.idle hr
    have hents : d.h1.ents = [] := by unfold HT.ents; rw [hh1]; rfl
    by_cases hz : d.h0.table.length = 0
    · rw [if_pos hz]
      have hz' : d.h0.table = [] := List.length_eq_zero_iff.1 hz
      have hu : d.h0.used = 0 := by rw [hi.w0.used]; unfold HT.ents; rw [hz']; rfl
      have hnp : nextPower 4 = 4 := by decide
      unfold expand
      rw [if_neg (by rw [hr, hu]; simp), hnp]
      simp only [hz', List.length_nil]
      rw [if_neg (by decide), if_pos trivial]
      have he0 : ents d = [] := by unfold ents HT.ents; rw [hz', hh1]; rfl
      have he : ents { d with h0 := ⟨List.replicate 4 [], 0⟩ } = ents d := by
        rw [he0]
        show (HT.mk _ _).ents ++ d.h1.ents = []
        rw [hblank, hents]; rfl
      refine ⟨_, rfl, ⟨HT.WF.blank ty 4, hi.w1, by rw [he]; exact hi.uniq, hi.idle, ?_⟩, he, by simp, rfl,
        Or.inr (Or.inr ⟨trivial, trivial, rfl, hr, hblank 4⟩)⟩
      intro r hr'
      rw [hr] at hr'; cases hr'
    · rw [if_neg hz]
      have hnil : d.h0.table ≠ [] := fun h => hz (by rw [h]; rfl)
      by_cases hu : d.h0.used ≥ d.h0.table.length
      · rw [if_pos hu]
        have hs : d.h0.used < 2 ^ 61 := by unfold size at hsz; omega
        have hnp := nextPower_ge (d.h0.used * 2) (by omega)
        unfold expand
        rw [if_neg (by rw [hr]; simp; omega)]
        simp only
        rw [if_neg (by omega), if_neg hnil]
        have he : ents { d with h1 := ⟨List.replicate (nextPower (d.h0.used * 2)) [], 0⟩, ridx := some 0 } = ents d := by
          show d.h0.ents ++ (HT.mk _ _).ents = d.h0.ents ++ d.h1.ents
          rw [hblank, hents]
        have hne : List.replicate (nextPower (d.h0.used * 2)) ([] : List (K × V)) ≠ [] := by
          intro h
          have := congrArg List.length h
          simp at this
          omega
        refine ⟨_, rfl, ⟨hi.w0, HT.WF.blank ty _, by rw [he]; exact hi.uniq, fun h => (by cases h), ?_⟩, he, hnil, rfl,
          Or.inr (Or.inl ⟨trivial, hblank _, hne, rfl, rfl⟩)⟩
        intro r hr'
        cases hr'
        exact ⟨hnil, hne, by omega, rfl⟩
      · rw [if_neg hu]
        exact ⟨d, rfl, hi, rfl, hnil, rfl, Or.inl rfl⟩

/-- How one entry is taken out of a list. -/
theorem mid_perm (A B : List (List (K × V))) (p q : List (K × V)) (e : K × V) (u : Nat) :
    (HT.mk (A ++ (p ++ e :: q) :: B) u).ents.Perm (e :: (A.flatten ++ (p ++ q ++ B.flatten))) := by
  rw [ents_mid]
  have : A.flatten ++ (p ++ e :: q ++ B.flatten) = (A.flatten ++ p) ++ e :: (q ++ B.flatten) := by simp
  rw [this]
  refine List.perm_middle.trans ?_
  rw [show A.flatten ++ p ++ (q ++ B.flatten) = A.flatten ++ (p ++ q ++ B.flatten) by simp]

theorem Absent.append {ty : Ty K} {k : K} {a b : List (K × V)} (ha : Absent ty k a) (hb : Absent ty k b) : Absent ty k (a ++ b) := by
  intro e he
  rcases List.mem_append.1 he with h | h
  · exact ha e h
  · exact hb e h

theorem Absent.perm {ty : Ty K} {k : K} {a b : List (K × V)} (ha : Absent ty k a) (h : a.Perm b) : Absent ty k b :=
  fun e he => ha e (h.mem_iff.2 he)

/-- A search found an entry or there is none. -/
def Found (ty : Ty K) (k : K) (l : List (K × V)) (o : Option (K × V)) : Prop :=
  (o = none ∧ Absent ty k l) ∨ (∃ e R, o = some e ∧ ty.same k e.1 = true ∧ l.Perm (e :: R))

theorem find_spec {ty : Ty K} (ok : ty.Ok) (d : Dict K V) (k : K) (hi : Inv ty d) :
    ∃ d' o, find ty d k = some (d', o) ∧ Inv ty d' ∧ (ents d').Perm (ents d) ∧ d'.iters = d.iters ∧
      (d.iters ≠ 0 → d' = d) ∧ Found ty k (ents d) o := by
  unfold find
  by_cases hz : d.h0.used + d.h1.used = 0
  · rw [if_pos hz]
    refine ⟨d, none, rfl, hi, List.Perm.refl _, rfl, fun _ => rfl, Or.inl ⟨rfl, ?_⟩⟩
    have : ents d = [] := by
      unfold ents
      rw [ents_nil_of_used hi.w0 (by omega), ents_nil_of_used hi.w1 (by omega)]; rfl
    rw [this]; intro e he; cases he
  rw [if_neg hz]
  obtain ⟨d', h1, h2, h3, h4, h5⟩ := rehashStep_spec ok d hi
  rw [h1]
  simp only [Option.bind_eq_bind, Option.bind_some]
  have hne : d'.h0.table ≠ [] := by
    cases hr : d'.ridx with
    | some r => exact (h2.busy r hr).1
    | none =>
      intro he
      apply hz
      have hl := h3.length_eq
      have e1 : ents d' = [] := by unfold ents HT.ents; rw [he, h2.idle hr]; rfl
      rw [e1] at hl
      have := hi.w0.used
      have := hi.w1.used
      unfold ents at hl
      simp only [List.length_append, List.length_nil] at hl
      omega
  obtain ⟨A, c, B, hs, hA, hc⟩ := chain_split ty d'.h0 k hne
  rw [hc, Option.bind_some]
  cases hf : inChain ty k c with
  | some e =>
    refine ⟨d', some e, rfl, h2, h3, h4, h5, Or.inr ?_⟩
    obtain ⟨hk, p, q, hpq, hp⟩ := inChain_some hf
    subst hpq
    refine ⟨e, A.flatten ++ (p ++ q ++ B.flatten) ++ d'.h1.ents, rfl, hk, h3.symm.trans ?_⟩
    have := List.Perm.append_right d'.h1.ents (mid_perm A B p q e d'.h0.used)
    unfold ents
    have h6 : d'.h0.ents = (HT.mk (A ++ (p ++ e :: q) :: B) d'.h0.used).ents := by unfold HT.ents; rw [hs]
    rw [h6]; exact this
  | none =>
    have ha0 := inChain_none ok h2.w0 hc hf
    simp only
    cases hr : d'.ridx with
    | none =>
      refine ⟨d', none, rfl, h2, h3, h4, h5, Or.inl ⟨rfl, ?_⟩⟩
      apply Absent.perm _ h3
      apply ha0.append
      unfold HT.ents; rw [h2.idle hr]; intro e he; cases he
    | some r =>
      obtain ⟨A1, c1, B1, hs1, hA1, hc1⟩ := chain_split ty d'.h1 k (h2.busy r hr).2.1
      rw [hc1]
      simp only [Option.isNone_some, Bool.false_eq_true, if_false, Option.bind_some]
      refine ⟨d', _, rfl, h2, h3, h4, h5, ?_⟩
      cases hf1 : inChain ty k c1 with
      | none => exact Or.inl ⟨rfl, Absent.perm (ha0.append (inChain_none ok h2.w1 hc1 hf1)) h3⟩
      | some e =>
        right
        obtain ⟨hk, p, q, hpq, hp⟩ := inChain_some hf1
        subst hpq
        refine ⟨e, d'.h0.ents ++ (A1.flatten ++ (p ++ q ++ B1.flatten)), rfl, hk, h3.symm.trans ?_⟩
        have h6 : d'.h1.ents = (HT.mk (A1 ++ (p ++ e :: q) :: B1) d'.h1.used).ents := by unfold HT.ents; rw [hs1]
        unfold ents
        rw [h6]
        exact (List.Perm.append_left _ (mid_perm A1 B1 p q e d'.h1.used)).trans List.perm_middle

/-- Result of `_dict_key_index`, with the chain found. -/
theorem keyIndex_spec {ty : Ty K} (ok : ty.Ok) (d : Dict K V) (k : K) (hi : Inv ty d) (hsz : size d < 2 ^ 61) :
    ∃ d' w, keyIndex ty d k = some (d', w) ∧ expandIfNeeded d = (d', true) ∧ Inv ty d' ∧ ents d' = ents d ∧ d'.iters = d.iters ∧
      d'.h0.table ≠ [] ∧
      ((w = .inH0 ∧ ∃ c e, chain ty d'.h0 k = some c ∧ inChain ty k c = some e) ∨
       (w = .inH1 ∧ ∃ c e, chain ty d'.h1 k = some c ∧ inChain ty k c = some e) ∨
       (w = .absent ∧ Absent ty k (ents d))) := by
  obtain ⟨d', h1, h2, h3, h4, h5, _⟩ := expandIfNeeded_spec (ty := ty) d hi hsz
  unfold keyIndex
  rw [h1]
  simp only [Bool.not_true, Bool.false_eq_true, if_false]
  obtain ⟨A, c, B, hs, hA, hc⟩ := chain_split ty d'.h0 k h4
  simp only [Option.bind_eq_bind, hc, Option.bind_some]
  cases hf : inChain ty k c with
  | some e => exact ⟨d', .inH0, rfl, rfl, h2, h3, h5, h4, Or.inl ⟨rfl, c, e, hc, hf⟩⟩
  | none =>
    have ha0 := inChain_none ok h2.w0 hc hf
    simp only
    cases hr : d'.ridx with
    | none =>
      refine ⟨d', .absent, rfl, rfl, h2, h3, h5, h4, Or.inr (Or.inr ⟨rfl, ?_⟩)⟩
      rw [← h3]
      apply ha0.append
      unfold HT.ents; rw [h2.idle hr]; intro e he; cases he
    | some r =>
      obtain ⟨A1, c1, B1, hs1, hA1, hc1⟩ := chain_split ty d'.h1 k (h2.busy r hr).2.1
      rw [hc1]
      simp only [Option.isNone_some, Bool.false_eq_true, if_false, Option.bind_some]
      cases hf1 : inChain ty k c1 with
      | some e => exact ⟨d', .inH1, rfl, rfl, h2, h3, h5, h4, Or.inr (Or.inl ⟨rfl, c1, e, hc1, hf1⟩)⟩
      | none =>
        refine ⟨d', .absent, rfl, rfl, h2, h3, h5, h4, Or.inr (Or.inr ⟨rfl, ?_⟩)⟩
        rw [← h3]
        exact ha0.append (inChain_none ok h2.w1 hc1 hf1)

theorem Distinct.cons_absent {ty : Ty K} {l : List (K × V)} {k : K} {v : V} (h : Distinct ty l) (ha : Absent ty k l) :
    Distinct ty ((k, v) :: l) := List.pairwise_cons.2 ⟨fun e he => ha e he, h⟩

theorem Distinct.revalue {ty : Ty K} {l : List (K × V)} {e : K × V} {v : V} (h : Distinct ty (e :: l)) :
    Distinct ty ((e.1, v) :: l) := List.pairwise_cons.2 (List.pairwise_cons.1 h)

/-- The tables before and after one chain of the dictionary was changed: the changed chain is in the first or second table. -/
inductive Edit (d d' : Dict K V) (c c' : List (K × V)) : Prop
  | first (A B : List (List (K × V))) (u : Nat) (h : d.h0.table = A ++ c :: B) (h' : d' = { d with h0 := ⟨A ++ c' :: B, u⟩ }) : Edit d d' c c'
  | second (A B : List (List (K × V))) (u : Nat) (h : d.h1.table = A ++ c :: B) (h' : d' = { d with h1 := ⟨A ++ c' :: B, u⟩ }) : Edit d d' c c'

/-- What `set` does: the dictionary `d1` after the steps before, and the change of one chain. -/
structure SetEffect (ty : Ty K) (d : Dict K V) (k : K) (v : V) (d' : Dict K V) (new : Bool) (old : Option V) : Prop where
  inv : Inv ty d'
  iters : d'.iters = d.iters
  change : (new = true ∧ old = none ∧ Absent ty k (ents d) ∧ (ents d').Perm ((k, v) :: ents d)) ∨
    (new = false ∧ ∃ e R, ty.same k e.1 = true ∧ old = some e.2 ∧ (ents d).Perm (e :: R) ∧ (ents d').Perm ((e.1, v) :: R))
  edit : d.iters ≠ 0 → ∃ d1, expandIfNeeded d = (d1, true) ∧
    ((new = true ∧ ∃ c, Edit d1 d' c ((k, v) :: c)) ∨ (new = false ∧ ∃ p e q, ty.same k e.1 = true ∧ Edit d1 d' (p ++ e :: q) (p ++ (e.1, v) :: q)))

theorem set_spec {ty : Ty K} (ok : ty.Ok) (d : Dict K V) (k : K) (v : V) (hi : Inv ty d) (hsz : size d < 2 ^ 61) :
    ∃ d' new old, set ty d k v = some (d', new, old) ∧ SetEffect ty d k v d' new old := by
  obtain ⟨d1, a1, a2, a3, a4, a5⟩ := rehashStep_spec ok d hi
  have hsz1 : size d1 < 2 ^ 61 := by
    have e1 : size d1 = (ents d1).length := by unfold size ents; rw [a2.w0.used, a2.w1.used]; simp
    have e2 : size d = (ents d).length := by unfold size ents; rw [hi.w0.used, hi.w1.used]; simp
    rw [e1, a3.length_eq, ← e2]; exact hsz
  obtain ⟨d2, w, b1, b2, b3, b4, b5, b6, b7⟩ := keyIndex_spec ok d1 k a2 hsz1
  have b2' : d.iters ≠ 0 → expandIfNeeded d = (d2, true) := fun h => by rw [← b2, a5 h]
  unfold set
  rw [a1]
  simp only [Option.bind_eq_bind, Option.bind_some, b1]
  rcases b7 with ⟨hw, c, e, hc, hf⟩ | ⟨hw, c, e, hc, hf⟩ | ⟨hw, hab⟩
  · subst hw
    obtain ⟨A, p, q, B, s1, s2, s3⟩ := setIn_spec b3.w0 v hc hf
    obtain ⟨hk, _⟩ := inChain_some hf
    simp only [s2, Option.bind_some]
    have hp1 : (ents d2).Perm (e :: (A.flatten ++ (p ++ q ++ B.flatten) ++ d2.h1.ents)) := by
      unfold ents
      rw [show d2.h0.ents = (HT.mk (A ++ (p ++ e :: q) :: B) d2.h0.used).ents by unfold HT.ents; rw [s1]]
      exact List.Perm.append_right _ (mid_perm A B p q e _)
    have hp2 : (ents { d2 with h0 := ⟨A ++ (p ++ (e.1, v) :: q) :: B, d2.h0.used⟩ }).Perm
        ((e.1, v) :: (A.flatten ++ (p ++ q ++ B.flatten) ++ d2.h1.ents)) := by
      unfold ents
      exact List.Perm.append_right _ (mid_perm A B p q (e.1, v) _)
    refine ⟨_, false, some e.2, rfl, ?_, by rw [← a4, ← b5], Or.inr ⟨rfl, e, _, hk, rfl, ?_, hp2⟩, fun h => ⟨d2, b2' h, Or.inr ⟨rfl, p, e, q, hk, .first A B _ s1 rfl⟩⟩⟩
    · refine ⟨s3, b3.w1, ?_, b3.idle, ?_⟩
      · apply Distinct.perm ok hp2.symm
        exact ((b4 ▸ a2.uniq : Distinct ty (ents d2)).perm ok hp1).revalue
      · intro r hr
        obtain ⟨y1, y2, y3, y4⟩ := b3.busy r hr
        rw [s1] at y3 y4
        have hlen : (A ++ (p ++ (e.1, v) :: q) :: B).length = (A ++ (p ++ e :: q) :: B).length := by simp
        refine ⟨by simp, y2, by rw [hlen]; exact y3, ?_⟩
        have hrA : r ≤ A.length := by
          rcases Nat.lt_or_ge A.length r with h | h
          · exfalso
            have : e ∈ (List.take r (A ++ (p ++ e :: q) :: B)).flatten := by
              rw [List.mem_flatten]
              refine ⟨p ++ e :: q, ?_, by simp⟩
              rw [List.mem_take_iff_getElem]
              exact ⟨A.length, by simp; omega, by simp⟩
            rw [y4] at this; cases this
          · exact h
        show (List.take r (A ++ (p ++ (e.1, v) :: q) :: B)).flatten = []
        rw [List.take_append_of_le_length hrA]
        rw [List.take_append_of_le_length hrA] at y4
        exact y4
    · rw [b4] at hp1
      exact a3.symm.trans hp1
  · subst hw
    obtain ⟨A, p, q, B, s1, s2, s3⟩ := setIn_spec b3.w1 v hc hf
    obtain ⟨hk, _⟩ := inChain_some hf
    simp only [s2, Option.bind_some]
    have hp1 : (ents d2).Perm (e :: (d2.h0.ents ++ (A.flatten ++ (p ++ q ++ B.flatten)))) := by
      unfold ents
      rw [show d2.h1.ents = (HT.mk (A ++ (p ++ e :: q) :: B) d2.h1.used).ents by unfold HT.ents; rw [s1]]
      exact (List.Perm.append_left _ (mid_perm A B p q e _)).trans List.perm_middle
    have hp2 : (ents { d2 with h1 := ⟨A ++ (p ++ (e.1, v) :: q) :: B, d2.h1.used⟩ }).Perm
        ((e.1, v) :: (d2.h0.ents ++ (A.flatten ++ (p ++ q ++ B.flatten)))) := by
      unfold ents
      exact (List.Perm.append_left _ (mid_perm A B p q (e.1, v) _)).trans List.perm_middle
    refine ⟨_, false, some e.2, rfl, ?_, by rw [← a4, ← b5], Or.inr ⟨rfl, e, _, hk, rfl, ?_, hp2⟩, fun h => ⟨d2, b2' h, Or.inr ⟨rfl, p, e, q, hk, .second A B _ s1 rfl⟩⟩⟩
    · refine ⟨b3.w0, s3, ?_, ?_, ?_⟩
      · apply Distinct.perm ok hp2.symm
        exact ((b4 ▸ a2.uniq : Distinct ty (ents d2)).perm ok hp1).revalue
      · intro hr
        have := b3.idle hr
        rw [this] at s1
        simp at s1
      · intro r hr
        obtain ⟨y1, y2, y3, y4⟩ := b3.busy r hr
        exact ⟨y1, by simp, y3, y4⟩
    · rw [b4] at hp1
      exact a3.symm.trans hp1
  · subst hw
    simp only
    cases hr : d2.ridx with
    | some r =>
      obtain ⟨y1, y2, y3, y4⟩ := b3.busy r hr
      obtain ⟨A, c, B, s1, s2, s3⟩ := moveEntry_spec b3.w1 y2 (k, v)
      unfold pushEntry
      simp only [Option.isSome_some, if_true, s2, Option.bind_some]
      have hp : (ents { d2 with h1 := ⟨A ++ ((k, v) :: c) :: B, d2.h1.used + 1⟩ }).Perm ((k, v) :: ents d2) := by
        unfold ents
        exact (List.Perm.append_left _ (moveEntry_perm s1 rfl)).trans List.perm_middle
      rw [b4] at hp
      refine ⟨{ d2 with h1 := ⟨A ++ ((k, v) :: c) :: B, d2.h1.used + 1⟩ }, true, none, by rw [hr], ?_, by rw [← a4, ← b5], Or.inl ⟨rfl, rfl, hab.perm a3, hp.trans (List.Perm.cons _ a3)⟩, fun h => ⟨d2, b2' h, Or.inl ⟨rfl, c, .second A B _ s1 rfl⟩⟩⟩
      refine ⟨b3.w0, s3, Distinct.perm ok hp.symm (a2.uniq.cons_absent hab), ?_, ?_⟩
      · intro h
        have h' : d2.ridx = none := h
        rw [hr] at h'; cases h'
      · intro r' hr'
        obtain ⟨y1, y2, y3, y4⟩ := b3.busy r' hr'
        exact ⟨y1, by simp, y3, y4⟩
    | none =>
      obtain ⟨A, c, B, s1, s2, s3⟩ := moveEntry_spec b3.w0 b6 (k, v)
      unfold pushEntry
      simp only [Option.isSome_none, Bool.false_eq_true, if_false, s2, Option.bind_some]
      have hp : (ents { d2 with h0 := ⟨A ++ ((k, v) :: c) :: B, d2.h0.used + 1⟩ }).Perm ((k, v) :: ents d2) := by
        unfold ents
        exact List.Perm.append_right d2.h1.ents (moveEntry_perm s1 rfl)
      rw [b4] at hp
      refine ⟨{ d2 with h0 := ⟨A ++ ((k, v) :: c) :: B, d2.h0.used + 1⟩ }, true, none, by rw [hr], ?_, by rw [← a4, ← b5], Or.inl ⟨rfl, rfl, hab.perm a3, hp.trans (List.Perm.cons _ a3)⟩, fun h => ⟨d2, b2' h, Or.inl ⟨rfl, c, .first A B _ s1 rfl⟩⟩⟩
      refine ⟨s3, b3.w1, Distinct.perm ok hp.symm (a2.uniq.cons_absent hab), b3.idle, ?_⟩
      intro r hr'
      have h' : d2.ridx = some r := hr'
      rw [hr] at h'; cases h'

theorem size_eq {ty : Ty K} {d : Dict K V} (hi : Inv ty d) : size d = (ents d).length := by
  unfold size ents; rw [hi.w0.used, hi.w1.used]; simp

/-- A chain of the first table changed without touching the ones already moved. -/
theorem busy_mid {t : List (List (K × V))} {A B : List (List (K × V))} {c c' : List (K × V)} {r : Nat} (hs : t = A ++ c :: B)
    (hr : r ≤ t.length) (h0 : (t.take r).flatten = []) (hc : c ≠ []) : r ≤ (A ++ c' :: B).length ∧ ((A ++ c' :: B).take r).flatten = [] := by
  subst hs
  have hlen : (A ++ c' :: B).length = (A ++ c :: B).length := by simp
  refine ⟨by rw [hlen]; exact hr, ?_⟩
  have hrA : r ≤ A.length := by
    rcases Nat.lt_or_ge A.length r with h | h
    · exfalso
      obtain ⟨e, he⟩ := List.exists_mem_of_ne_nil c hc
      have : e ∈ (List.take r (A ++ c :: B)).flatten := by
        rw [List.mem_flatten]
        refine ⟨c, ?_, he⟩
        rw [List.mem_take_iff_getElem]
        exact ⟨A.length, by simp; omega, by simp⟩
      rw [h0] at this; cases this
    · exact h
  rw [List.take_append_of_le_length hrA]
  rw [List.take_append_of_le_length hrA] at h0
  exact h0

structure DelEffect (ty : Ty K) (d : Dict K V) (k : K) (d' : Dict K V) (o : Option V) : Prop where
  inv : Inv ty d'
  iters : d'.iters = d.iters
  change : (o = none ∧ Absent ty k (ents d) ∧ (ents d').Perm (ents d)) ∨
    (∃ e R, ty.same k e.1 = true ∧ o = some e.2 ∧ (ents d).Perm (e :: R) ∧ (ents d').Perm R)
  edit : d.iters ≠ 0 → d' = d ∨ ∃ p e q, ty.same k e.1 = true ∧ Edit d d' (p ++ e :: q) (p ++ q)

theorem Distinct.tail {ty : Ty K} {l : List (K × V)} {e : K × V} (h : Distinct ty (e :: l)) : Distinct ty l := (List.pairwise_cons.1 h).2

theorem delete_spec {ty : Ty K} (ok : ty.Ok) (d : Dict K V) (k : K) (hi : Inv ty d) :
    ∃ d' o, delete ty d k = some (d', o) ∧ DelEffect ty d k d' o := by
  unfold delete
  by_cases hz : d.h0.used = 0 ∧ d.h1.used = 0
  · rw [if_pos hz]
    refine ⟨d, none, rfl, hi, rfl, Or.inl ⟨rfl, ?_, List.Perm.refl _⟩, fun _ => Or.inl rfl⟩
    have : ents d = [] := by
      unfold ents
      rw [ents_nil_of_used hi.w0 hz.1, ents_nil_of_used hi.w1 hz.2]; rfl
    rw [this]; intro e he; cases he
  rw [if_neg hz]
  obtain ⟨d', h1, h2, h3, h4, h5⟩ := rehashStep_spec ok d hi
  rw [h1]
  simp only [Option.bind_eq_bind, Option.bind_some]
  have hne : d'.h0.table ≠ [] := by
    cases hr : d'.ridx with
    | some r => exact (h2.busy r hr).1
    | none =>
      intro he
      apply hz
      have hl := h3.length_eq
      have e1 : ents d' = [] := by unfold ents HT.ents; rw [he, h2.idle hr]; rfl
      rw [e1] at hl
      have := hi.w0.used
      have := hi.w1.used
      unfold ents at hl
      simp only [List.length_append, List.length_nil] at hl
      omega
  obtain ⟨A, c, B, hs, hA, hc⟩ := chain_split ty d'.h0 k hne
  cases hf : inChain ty k c with
  | some e =>
    obtain ⟨hk, _⟩ := inChain_some hf
    obtain ⟨A, p, q, B, s1, s2, s3⟩ := delIn_found h2.w0 hc hf
    simp only [s2, Option.bind_some, Option.isSome_some, if_true]
    have hp1 : (ents d').Perm (e :: (A.flatten ++ (p ++ q ++ B.flatten) ++ d'.h1.ents)) := by
      unfold ents
      rw [show d'.h0.ents = (HT.mk (A ++ (p ++ e :: q) :: B) d'.h0.used).ents by unfold HT.ents; rw [s1]]
      exact List.Perm.append_right _ (mid_perm A B p q e _)
    have hp2 : ents { d' with h0 := ⟨A ++ (p ++ q) :: B, d'.h0.used - 1⟩ } = A.flatten ++ (p ++ q ++ B.flatten) ++ d'.h1.ents := by
      unfold ents
      rw [ents_mid]
    refine ⟨_, some e.2, rfl, ?_, h4, Or.inr ⟨e, _, hk, rfl, h3.symm.trans hp1, by rw [hp2]⟩, fun h => Or.inr ⟨p, e, q, hk, ?_⟩⟩
    · refine ⟨s3, h2.w1, ?_, h2.idle, ?_⟩
      · rw [hp2]; exact (h2.uniq.perm ok hp1).tail
      · intro r hr
        obtain ⟨y1, y2, y3, y4⟩ := h2.busy r hr
        obtain ⟨z1, z2⟩ := busy_mid (c' := p ++ q) s1 y3 y4 (by simp)
        exact ⟨by simp, y2, z1, z2⟩
    · rw [← h5 h]
      exact .first A B _ s1 rfl
  | none =>
    have ha0 := inChain_none ok h2.w0 hc hf
    rw [delIn_none hc hf]
    simp only [Option.bind_some, Option.isSome_none, Bool.false_eq_true, if_false]
    cases hr : d'.ridx with
    | none =>
      refine ⟨d', none, rfl, h2, h4, Or.inl ⟨rfl, Absent.perm (ha0.append ?_) h3, h3⟩, fun h => Or.inl (h5 h)⟩
      unfold HT.ents; rw [h2.idle hr]; intro e he; cases he
    | some r =>
      obtain ⟨y1, y2, y3, y4⟩ := h2.busy r hr
      obtain ⟨A1, c1, B1, hs1, hA1, hc1⟩ := chain_split ty d'.h1 k y2
      simp only [Option.isNone_some, Bool.false_eq_true, if_false]
      cases hf1 : inChain ty k c1 with
      | none =>
        rw [delIn_none hc1 hf1, Option.bind_some]
        refine ⟨d', none, by rw [← hr], h2, h4, Or.inl ⟨rfl, Absent.perm (ha0.append (inChain_none ok h2.w1 hc1 hf1)) h3, h3⟩, fun h => Or.inl (h5 h)⟩
      | some e =>
        obtain ⟨hk, _⟩ := inChain_some hf1
        obtain ⟨A, p, q, B, s1, s2, s3⟩ := delIn_found h2.w1 hc1 hf1
        rw [s2, Option.bind_some]
        have hp1 : (ents d').Perm (e :: (d'.h0.ents ++ (A.flatten ++ (p ++ q ++ B.flatten)))) := by
          unfold ents
          rw [show d'.h1.ents = (HT.mk (A ++ (p ++ e :: q) :: B) d'.h1.used).ents by unfold HT.ents; rw [s1]]
          exact (List.Perm.append_left _ (mid_perm A B p q e _)).trans List.perm_middle
        have hp2 : ents { d' with h1 := ⟨A ++ (p ++ q) :: B, d'.h1.used - 1⟩ } = d'.h0.ents ++ (A.flatten ++ (p ++ q ++ B.flatten)) := by
          unfold ents
          rw [ents_mid]
        refine ⟨{ d' with h1 := ⟨A ++ (p ++ q) :: B, d'.h1.used - 1⟩ }, some e.2, by rw [← hr], ?_, h4,
          Or.inr ⟨e, _, hk, rfl, h3.symm.trans hp1, by rw [hp2]⟩, fun h => Or.inr ⟨p, e, q, hk, ?_⟩⟩
        · refine ⟨h2.w0, s3, ?_, ?_, ?_⟩
          · rw [hp2]; exact (h2.uniq.perm ok hp1).tail
          · intro h
            have h' : d'.ridx = none := h
            rw [hr] at h'; cases h'
          · intro r' hr'
            obtain ⟨y1, y2, y3, y4⟩ := h2.busy r' hr'
            exact ⟨y1, by simp, y3, y4⟩
        · rw [← h5 h]
          exact .second A B _ s1 rfl

theorem inv_create (ty : Ty K) : Inv ty (create : Dict K V) where
  w0 := HT.WF.reset ty
  w1 := HT.WF.reset ty
  uniq := List.Pairwise.nil
  idle _ := rfl
  busy r h := by cases h

theorem clearLoop_spec (t : List (List (K × V))) : clearLoop t t.flatten.length = t.flatten.map (·.2) := by
  induction t with
  | nil => rfl
  | cons c t ih =>
    unfold clearLoop
    rw [List.flatten_cons, List.length_append, List.map_append]
    by_cases h : c.length + t.flatten.length > 0
    · rw [if_pos h, Nat.add_sub_cancel_left, ih]
    · rw [if_neg h]
      have h1 : c = [] := List.length_eq_zero_iff.1 (by omega)
      have h2 : t.flatten = [] := List.length_eq_zero_iff.1 (by omega)
      rw [h1, h2]; rfl

theorem empty_spec {ty : Ty K} {d : Dict K V} (hi : Inv ty d) : empty d = (create, (ents d).map (·.2)) := by
  unfold empty ents
  rw [hi.w0.used, hi.w1.used, List.map_append]
  unfold HT.ents
  rw [clearLoop_spec, clearLoop_spec]

end Sis.Dict
