import Verif.Dict.DictLemmas
/-
Lemmas about iterating over a dictionary while it is being changed.
-/
namespace Sis.Dict

variable {K V : Type}

/-- The table an iterator is in. -/
def itTable (d : Dict K V) (it : Iter K) : List (List (K × V)) := if it.second then d.h1.table else d.h0.table

/-- The entries an iterator has not reached, `suf` being those of the chain it is in. -/
def rem (d : Dict K V) (it : Iter K) (suf : List (K × V)) : List (K × V) :=
  match it.index with
  | none => ents d
  | some i => suf ++ (((itTable d it).drop (i + 1)).flatten ++ (if it.second then [] else d.h1.ents))

structure IterInv (d : Dict K V) (it : Iter K) (suf : List (K × V)) : Prop where
  start : it.index = none → it.second = false ∧ it.cur = false
  iters : it.index ≠ none → d.iters ≠ 0
  second : it.second = true → d.ridx.isSome = true
  idle : it.cur = false → suf = []
  chain : it.cur = true → ∃ A p B, itTable d it = A ++ (p ++ suf) :: B ∧ it.index = some A.length ∧ it.nxt = suf.head?.map (·.1)

theorem suffixIn_absent {ty : Ty K} {k : K} {c : List (K × V)} (h : Absent ty k c) : suffixIn ty k c = [] := by
  unfold suffixIn
  induction c with
  | nil => rfl
  | cons a c ih =>
    rw [List.dropWhile_cons_of_pos (by rw [h a (by simp)]; rfl)]
    exact ih fun e he => h e (by simp [he])

theorem suffixIn_mid {ty : Ty K} {k : K} {p q : List (K × V)} {e : K × V} (h : Absent ty k p) (hk : ty.same k e.1 = true) :
    suffixIn ty k (p ++ e :: q) = e :: q := by
  unfold suffixIn
  rw [List.dropWhile_append_of_pos]
  · rw [List.dropWhile_cons_of_neg]; rw [hk]; simp
  · intro a ha; rw [h a ha]; rfl

/-- In a list without duplicate keys nothing in front of an entry has its key. -/
theorem absent_before {ty : Ty K} (ok : ty.Ok) {X Y : List (K × V)} {e : K × V} (h : Distinct ty (X ++ e :: Y)) : Absent ty e.1 X := by
  intro a ha
  have := (List.pairwise_append.1 h).2.2 a ha e (by simp)
  exact same_symm_false ok this

theorem follow_spec {ty : Ty K} (ok : ty.Ok) {d : Dict K V} (hu : Distinct ty (ents d)) {X Y : List (List (K × V))}
    {p s : List (K × V)} {e : K × V} (h : d.h0.table ++ d.h1.table = X ++ (p ++ e :: s) :: Y) :
    follow ty d e.1 = some (e :: s) := by
  have he : ents d = (X.flatten ++ p) ++ e :: (s ++ Y.flatten) := by
    unfold ents HT.ents
    rw [← List.flatten_append, h]; simp
  rw [he] at hu
  have ha := absent_before ok hu
  unfold follow
  rw [h, List.map_append, List.map_cons, suffixIn_mid (fun a ha' => ha a (by simp [ha'])) (ok.refl _)]
  rw [List.find?_append]
  have h1 : List.find? (fun s => decide (s ≠ [])) (List.map (suffixIn ty e.1) X) = none := by
    rw [List.find?_eq_none]
    intro x hx
    obtain ⟨c, hc, rfl⟩ := List.mem_map.1 hx
    rw [suffixIn_absent fun a ha' => ha a (List.mem_append_left _ (List.mem_flatten.2 ⟨c, hc, ha'⟩))]
    simp
  rw [h1]
  simp

/-- Passes of the loop that are enough. -/
def need (d : Dict K V) (it : Iter K) : Nat :=
  (if it.cur then 1 else 0) + 1 +
    match it.index with
    | none => d.h0.table.length + d.h1.table.length
    | some i => if it.second then d.h1.table.length - (i + 1) else d.h0.table.length - (i + 1) + d.h1.table.length

theorem drop_flat {t : List (List (K × V))} {j : Nat} {c : List (K × V)} (h : t[j]? = some c) :
    (t.drop j).flatten = c ++ (t.drop (j + 1)).flatten := by
  obtain ⟨hl, hc⟩ := List.getElem?_eq_some_iff.1 h
  rw [List.drop_eq_getElem_cons hl, hc]; simp

theorem drop_all {t : List (List (K × V))} {j : Nat} (h : j ≥ t.length) : (t.drop j).flatten = [] := by
  rw [List.drop_of_length_le h]; rfl

theorem h1_nil {ty : Ty K} {d : Dict K V} (hi : Inv ty d) (h : d.ridx = none) : d.h1.ents = [] := by
  unfold HT.ents; rw [hi.idle h]; rfl

structure NextEffect (d : Dict K V) (it : Iter K) (suf : List (K × V)) (d' : Dict K V) (it' : Iter K) (o : Option (K × V)) (suf' : List (K × V)) : Prop where
  inv : IterInv d' it' suf'
  h0 : d'.h0 = d.h0
  h1 : d'.h1 = d.h1
  ridx : d'.ridx = d.ridx
  started : it'.index ≠ none
  none : o = none → rem d it suf = []
  some : ∀ e, o = some e → rem d it suf = e :: rem d' it' suf'

theorem Inv.of_tables {ty : Ty K} {d d' : Dict K V} (hi : Inv ty d) (h0 : d'.h0 = d.h0) (h1 : d'.h1 = d.h1) (hr : d'.ridx = d.ridx) :
    Inv ty d' := by
  cases d; cases d'
  cases h0; cases h1; cases hr
  exact ⟨hi.w0, hi.w1, hi.uniq, hi.idle, hi.busy⟩

theorem nextN_spec {ty : Ty K} (ok : ty.Ok) (n : Nat) (d : Dict K V) (it : Iter K) (suf : List (K × V)) (hi : Inv ty d)
    (ht : IterInv d it suf) (hn : need d it ≤ n) (hit : it.index = none → d.iters < 2 ^ 64 - 1) :
    ∃ d' it' o suf', nextN ty n d it = some (d', it', o) ∧ NextEffect d it suf d' it' o suf' := by
  induction n generalizing d it suf with
  | zero => unfold need at hn; omega
  | succ n ih =>
    unfold nextN
    by_cases hc : it.cur = true
    · rw [if_pos hc]
      obtain ⟨A, p, B, t1, t2, t3⟩ := ht.chain hc
      cases suf with
      | nil =>
        rw [t3]
        simp only [List.head?_nil, Option.map_none]
        have hi2 : IterInv d { it with cur := false } [] :=
          ⟨(fun h => by rw [t2] at h; cases h), ht.iters, ht.second, fun _ => rfl, (fun h => by cases h)⟩
        obtain ⟨d', it', o, suf', e1, e2⟩ := ih d { it with cur := false } [] hi hi2
          (by unfold need at hn ⊢; simp only [hc, if_true] at hn; simp only [Bool.false_eq_true, if_false]; omega) hit
        refine ⟨d', it', o, suf', by rw [← e1, t3]; rfl, e2.inv, e2.h0, e2.h1, e2.ridx, e2.started, ?_, ?_⟩
        · intro h; exact e2.none h
        · intro e h; exact e2.some e h
      | cons e s =>
        rw [t3]
        simp only [List.head?_cons, Option.map_some]
        have hf : follow ty d e.1 = some (e :: s) := by
          by_cases hs : it.second = true
          · unfold itTable at t1; rw [if_pos hs] at t1
            exact follow_spec ok hi.uniq (X := d.h0.table ++ A) (Y := B) (p := p) (by rw [t1]; simp)
          · unfold itTable at t1; rw [if_neg hs] at t1
            exact follow_spec ok hi.uniq (X := A) (Y := B ++ d.h1.table) (p := p) (by rw [t1]; simp)
        rw [hf]
        refine ⟨_, _, _, s, rfl, ⟨?_, ht.iters, ht.second, ?_, ?_⟩, rfl, rfl, rfl, ?_, ?_, ?_⟩
        · intro h; rw [t2] at h; cases h
        · intro h; rw [hc] at h; cases h
        · intro _; exact ⟨A, p ++ [e], B, by show itTable d it = _; rw [t1]; simp, t2, rfl⟩
        · show it.index ≠ none
          rw [t2]; simp
        · intro h; cases h
        · intro e' h; cases h
          unfold rem
          simp only [t2]
          rfl
    · have hcf : it.cur = false := by simpa using hc
      rw [if_neg hc]
      have hsuf := ht.idle hcf
      subst hsuf
      -- the counter
      generalize hd : countIter d it = d1
      have d10 : d1.h0 = d.h0 := by rw [← hd]; unfold countIter; split <;> rfl
      have d11 : d1.h1 = d.h1 := by rw [← hd]; unfold countIter; split <;> rfl
      have d1r : d1.ridx = d.ridx := by rw [← hd]; unfold countIter; split <;> rfl
      have d1i : d1.iters ≠ 0 := by
        rw [← hd]
        unfold countIter
        cases hx : it.index with
        | none =>
          rw [if_pos ⟨rfl, (ht.start hx).1⟩]
          show (d.iters + 1) % 2 ^ 64 ≠ 0
          have := hit hx
          omega
        | some i => rw [if_neg (by simp)]; exact ht.iters (by rw [hx]; simp)
      have hi1 : Inv ty d1 := hi.of_tables d10 d11 d1r
      simp only
      generalize hj : it.advance = i
      unfold Iter.advance at hj
      have hrem : rem d it [] = ((itTable d it).drop i).flatten ++ (if it.second then [] else d.h1.ents) := by
        unfold rem
        cases hx : it.index with
        | none =>
          rw [hx] at hj
          simp only at hj
          subst hj
          have := (ht.start hx).1
          simp [itTable, this, ents, HT.ents]
        | some i' =>
          rw [hx] at hj
          simp only at hj
          subst hj
          rfl
      by_cases hs : it.second = true
      · -- second table
        have hidx : ∃ i', it.index = some i' := by
          cases hx : it.index with
          | none => have := (ht.start hx).1; rw [hs] at this; cases this
          | some i' => exact ⟨i', rfl⟩
        obtain ⟨i', hx⟩ := hidx
        rw [hx] at hj
        simp only at hj
        simp only [hs, if_true]
        have htab : itTable d it = d.h1.table := by unfold itTable; rw [if_pos hs]
        rw [htab, if_pos hs, List.append_nil] at hrem
        by_cases hlen : i ≥ d1.h1.table.length
        · rw [if_pos (show i ≥ d1.h1.table.length ∧ ¬(d1.ridx.isSome = true ∧ true = false) from ⟨hlen, by simp⟩)]
          refine ⟨_, _, _, [], rfl, ⟨(fun h => by cases h), fun _ => d1i, ?_, fun _ => rfl, ?_⟩, d10, d11, d1r, (by simp), ?_, ?_⟩
          · intro _; rw [d1r]; exact ht.second hs
          · intro h; rw [show ({ it with index := some i } : Iter K).cur = it.cur from rfl, hcf] at h; cases h
          · intro _; rw [hrem, ← d11]; exact drop_all hlen
          · intro e h; cases h
        · rw [if_neg (show ¬(i ≥ d1.h1.table.length ∧ ¬(d1.ridx.isSome = true ∧ true = false)) from fun h => hlen h.1)]
          simp only [if_neg hlen]
          have hg : d1.h1.table[i]? = some (d1.h1.table[i]'(by omega)) := List.getElem?_eq_getElem (by omega)
          generalize d1.h1.table[i]'(by omega) = c at hg
          rw [hg]
          have hg' := hg
          rw [d11] at hg'
          cases c with
          | nil =>
            have hi2 : IterInv d1 { it with index := some i, second := true } [] :=
              ⟨(fun h => by cases h), fun _ => d1i, (fun _ => by rw [d1r]; exact ht.second hs), fun _ => rfl,
                fun h => by rw [show ({ it with index := some i, second := true } : Iter K).cur = it.cur from rfl, hcf] at h; cases h⟩
            obtain ⟨d', it', o, suf', e1, e2⟩ := ih d1 { it with index := some i, second := true } [] hi1 hi2 (by
                unfold need at hn ⊢
                simp only [hcf, hs, hx, if_true, Bool.false_eq_true, if_false] at hn ⊢
                rw [d11] at hlen ⊢
                omega) (fun h => by cases h)
            have hr2 : rem d1 { it with index := some i, second := true } [] = rem d it [] := by
              rw [hrem, drop_flat hg']
              show [] ++ ((d1.h1.table.drop (i + 1)).flatten ++ []) = _
              rw [d11]; simp
            refine ⟨d', it', o, suf', e1, e2.inv, e2.h0.trans d10, e2.h1.trans d11, e2.ridx.trans d1r, e2.started, ?_, ?_⟩
            · intro h; rw [← hr2]; exact e2.none h
            · intro e h; rw [← hr2]; exact e2.some e h
          | cons e s =>
            obtain ⟨A, B, sp, sl⟩ := split_at hg
            refine ⟨_, _, _, s, rfl, ⟨(fun h => by cases h), fun _ => d1i, (fun _ => by rw [d1r]; exact ht.second hs), (fun h => by cases h), ?_⟩, d10, d11, d1r, (by simp), (fun h => by cases h), ?_⟩
            · intro _; exact ⟨A, [e], B, by show d1.h1.table = _; rw [sp]; simp, by show some i = _; rw [sl], rfl⟩
            · intro e' h; cases h
              rw [hrem, drop_flat hg']
              show _ = e :: (s ++ ((d1.h1.table.drop (i + 1)).flatten ++ []))
              rw [d11]; simp
      · have hsf : it.second = false := by simpa using hs
        have htab : itTable d it = d.h0.table := by unfold itTable; rw [if_neg hs]
        rw [htab, if_neg hs] at hrem
        simp only [hsf, Bool.false_eq_true, if_false]
        by_cases hlen : i ≥ d1.h0.table.length
        · cases hr : d1.ridx with
          | none =>
            rw [if_pos (show i ≥ d1.h0.table.length ∧ ¬((none : Option Nat).isSome = true ∧ True) from ⟨hlen, by simp⟩)]
            refine ⟨_, _, _, [], rfl, ⟨(fun h => by cases h), fun _ => d1i, (fun h => by cases h), fun _ => rfl, ?_⟩, d10, d11, d1r, (by simp), ?_, (fun e h => by cases h)⟩
            · intro h; rw [show ({ it with index := some i, second := false } : Iter K).cur = it.cur from rfl, hcf] at h; cases h
            · intro _
              rw [hrem, ← d10, drop_all hlen, ← d11, h1_nil hi1 hr]; rfl
          | some r =>
            rw [if_neg (show ¬(i ≥ d1.h0.table.length ∧ ¬((some r).isSome = true ∧ True)) from fun h => h.2 ⟨rfl, trivial⟩)]
            simp only [if_pos hlen]
            obtain ⟨b1, b2, b3, b4⟩ := hi1.busy r hr
            have hpos : 0 < d1.h1.table.length := List.length_pos_iff.2 b2
            have hg : d1.h1.table[0]? = some (d1.h1.table[0]'hpos) := List.getElem?_eq_getElem hpos
            generalize d1.h1.table[0]'hpos = c at hg
            rw [hg]
            have hfl : d1.h1.ents = c ++ (d1.h1.table.drop 1).flatten := by
              have := drop_flat hg
              simpa [HT.ents] using this
            have hrem' : rem d it [] = c ++ (d1.h1.table.drop 1).flatten := by
              rw [hrem, ← d10, drop_all hlen, ← d11, hfl]; rfl
            cases c with
            | nil =>
              have hi2 : IterInv d1 { it with index := some 0, second := true } [] :=
                ⟨(fun h => by cases h), fun _ => d1i, (fun _ => by rw [hr]; rfl), fun _ => rfl,
                  fun h => by rw [show ({ it with index := some 0, second := true } : Iter K).cur = it.cur from rfl, hcf] at h; cases h⟩
              have hx : it.index ≠ none := by
                intro hx
                rw [hx] at hj
                simp only at hj
                subst hj
                apply b1
                exact List.length_eq_zero_iff.1 (by omega)
              obtain ⟨i', hx'⟩ := Option.ne_none_iff_exists'.1 hx
              obtain ⟨d', it', o, suf', e1, e2⟩ := ih d1 { it with index := some 0, second := true } [] hi1 hi2 (by
                  unfold need at hn ⊢
                  simp only [hcf, hsf, hx', if_true, Bool.false_eq_true, if_false] at hn ⊢
                  rw [d11] at hpos ⊢
                  omega) (fun h => by cases h)
              have hr2 : rem d1 { it with index := some 0, second := true } [] = rem d it [] := by
                rw [hrem']
                show [] ++ ((d1.h1.table.drop (0 + 1)).flatten ++ []) = _
                simp
              refine ⟨d', it', o, suf', e1, e2.inv, e2.h0.trans d10, e2.h1.trans d11, e2.ridx.trans d1r, e2.started, ?_, ?_⟩
              · intro h; rw [← hr2]; exact e2.none h
              · intro e h; rw [← hr2]; exact e2.some e h
            | cons e s =>
              obtain ⟨A, B, sp, sl⟩ := split_at hg
              refine ⟨_, _, _, s, rfl, ⟨(fun h => by cases h), fun _ => d1i, (fun _ => by rw [hr]; rfl), (fun h => by cases h), ?_⟩, d10, d11, d1r, (by simp), (fun h => by cases h), ?_⟩
              · intro _; exact ⟨A, [e], B, by show d1.h1.table = _; rw [sp]; simp, by show some 0 = _; rw [sl], rfl⟩
              · intro e' h; cases h
                rw [hrem']
                show _ = e :: (s ++ ((d1.h1.table.drop (0 + 1)).flatten ++ []))
                simp
        · rw [if_neg (show ¬(i ≥ d1.h0.table.length ∧ ¬(d1.ridx.isSome = true ∧ True)) from fun h => hlen h.1)]
          simp only [if_neg hlen]
          have hg : d1.h0.table[i]? = some (d1.h0.table[i]'(by omega)) := List.getElem?_eq_getElem (by omega)
          generalize d1.h0.table[i]'(by omega) = c at hg
          rw [hg]
          have hg' := hg
          rw [d10] at hg'
          rw [drop_flat hg'] at hrem
          cases c with
          | nil =>
            have hi2 : IterInv d1 { it with index := some i, second := false } [] :=
              ⟨(fun h => by cases h), fun _ => d1i, (fun h => by cases h), fun _ => rfl,
                fun h => by rw [show ({ it with index := some i, second := false } : Iter K).cur = it.cur from rfl, hcf] at h; cases h⟩
            obtain ⟨d', it', o, suf', e1, e2⟩ := ih d1 { it with index := some i, second := false } [] hi1 hi2 (by
                unfold need at hn ⊢
                simp only [hcf, hsf, Bool.false_eq_true, if_false] at hn ⊢
                rw [d11, d10]
                rw [d10] at hlen
                cases hx : it.index with
                | none => rw [hx] at hn hj; simp only at hn hj; omega
                | some i' => rw [hx] at hn hj; simp only at hn hj; omega) (fun h => by cases h)
            have hr2 : rem d1 { it with index := some i, second := false } [] = rem d it [] := by
              rw [hrem]
              show [] ++ ((d1.h0.table.drop (i + 1)).flatten ++ d1.h1.ents) = _
              rw [d11, d10]; simp
            refine ⟨d', it', o, suf', e1, e2.inv, e2.h0.trans d10, e2.h1.trans d11, e2.ridx.trans d1r, e2.started, ?_, ?_⟩
            · intro h; rw [← hr2]; exact e2.none h
            · intro e h; rw [← hr2]; exact e2.some e h
          | cons e s =>
            obtain ⟨A, B, sp, sl⟩ := split_at hg
            refine ⟨_, _, _, s, rfl, ⟨(fun h => by cases h), fun _ => d1i, (fun h => by cases h), (fun h => by cases h), ?_⟩, d10, d11, d1r, (by simp), (fun h => by cases h), ?_⟩
            · intro _; exact ⟨A, [e], B, by show d1.h0.table = _; rw [sp]; simp, by show some i = _; rw [sl], rfl⟩
            · intro e' h; cases h
              rw [hrem]
              show _ = e :: (s ++ ((d1.h0.table.drop (i + 1)).flatten ++ d1.h1.ents))
              rw [d10, d11]; simp

theorem next_spec {ty : Ty K} (ok : ty.Ok) (d : Dict K V) (it : Iter K) (suf : List (K × V)) (hi : Inv ty d)
    (ht : IterInv d it suf) (hit : it.index = none → d.iters < 2 ^ 64 - 1) :
    ∃ d' it' o suf', next ty d it = some (d', it', o) ∧ NextEffect d it suf d' it' o suf' := by
  apply nextN_spec ok _ d it suf hi ht _ hit
  unfold need
  have h : (if it.cur = true then 1 else 0) ≤ 1 := by split <;> omega
  cases it.index with
  | none => simp only; omega
  | some i =>
    have h2 : (if it.second = true then d.h1.table.length - (i + 1) else d.h0.table.length - (i + 1) + d.h1.table.length) ≤
        d.h0.table.length + d.h1.table.length := by split <;> omega
    simp only
    omega

/-- Some entry of the list has the key. -/
def Pres (ty : Ty K) (k : K) (l : List (K × V)) : Prop := ∃ e ∈ l, ty.same k e.1 = true

theorem pres_append {ty : Ty K} {k : K} {a b : List (K × V)} : Pres ty k (a ++ b) ↔ Pres ty k a ∨ Pres ty k b := by
  unfold Pres
  constructor
  · rintro ⟨e, he, h⟩
    rcases List.mem_append.1 he with h1 | h1
    · exact Or.inl ⟨e, h1, h⟩
    · exact Or.inr ⟨e, h1, h⟩
  · rintro (⟨e, he, h⟩ | ⟨e, he, h⟩)
    · exact ⟨e, by simp [he], h⟩
    · exact ⟨e, by simp [he], h⟩

theorem pres_cons {ty : Ty K} {k : K} {a : K × V} {b : List (K × V)} : Pres ty k (a :: b) ↔ ty.same k a.1 = true ∨ Pres ty k b := by
  unfold Pres
  constructor
  · rintro ⟨e, he, h⟩
    rcases List.mem_cons.1 he with h1 | h1
    · subst h1; exact Or.inl h
    · exact Or.inr ⟨e, h1, h⟩
  · rintro (h | ⟨e, he, h⟩)
    · exact ⟨a, by simp, h⟩
    · exact ⟨e, by simp [he], h⟩

theorem pres_perm {ty : Ty K} {k : K} {a b : List (K × V)} (h : a.Perm b) : Pres ty k a ↔ Pres ty k b := by
  unfold Pres
  constructor
  · rintro ⟨e, he, h'⟩; exact ⟨e, h.mem_iff.1 he, h'⟩
  · rintro ⟨e, he, h'⟩; exact ⟨e, h.mem_iff.2 he, h'⟩

theorem not_pres {ty : Ty K} {k : K} {l : List (K × V)} : ¬ Pres ty k l ↔ Absent ty k l := by
  unfold Pres Absent
  constructor
  · intro h e he
    by_cases hk : ty.same k e.1 = true
    · exact absurd ⟨e, he, hk⟩ h
    · simpa using hk
  · rintro h ⟨e, he, hk⟩
    rw [h e he] at hk; cases hk

theorem pres_keys {ty : Ty K} {k : K} {a b : List (K × V)} (h : a.map (·.1) = b.map (·.1)) : Pres ty k a ↔ Pres ty k b := by
  have key : ∀ l : List (K × V), Pres ty k l ↔ ∃ x ∈ l.map (·.1), ty.same k x = true := by
    intro l
    unfold Pres
    constructor
    · rintro ⟨e, he, hk⟩; exact ⟨e.1, List.mem_map_of_mem he, hk⟩
    · rintro ⟨x, hx, hk⟩
      obtain ⟨e, he, rfl⟩ := List.mem_map.1 hx
      exact ⟨e, he, hk⟩
  rw [key, key, h]

/-- How an operation on the key `k` changes one chain. -/
inductive Chg (ty : Ty K) (k : K) : List (K × V) → List (K × V) → Prop
  | add (v : V) (c : List (K × V)) : Chg ty k c ((k, v) :: c)
  | rev (p : List (K × V)) (e : K × V) (v : V) (q : List (K × V)) : Chg ty k (p ++ e :: q) (p ++ (e.1, v) :: q)
  | del (p : List (K × V)) (e : K × V) (q : List (K × V)) (h : ty.same k e.1 = true) : Chg ty k (p ++ e :: q) (p ++ q)

/-- A change of one key leaves the presence of the others. -/
theorem Chg.pres {ty : Ty K} (ok : ty.Ok) {k : K} {c c' : List (K × V)} (h : Chg ty k c c') (x : K) (hx : ty.same k x = false) :
    Pres ty x c' ↔ Pres ty x c := by
  cases h with
  | add v c =>
    rw [pres_cons]
    constructor
    · rintro (h | h)
      · rw [ok.symm _ _ h] at hx; cases hx
      · exact h
    · exact Or.inr
  | rev p e v q => simp only [pres_append, pres_cons]
  | del p e q he =>
    simp only [pres_append, pres_cons]
    constructor
    · rintro (h | h)
      · exact Or.inl h
      · exact Or.inr (Or.inr h)
    · rintro (h | h | h)
      · exact Or.inl h
      · have := ok.trans _ _ _ he (ok.symm _ _ h)
        rw [this] at hx; cases hx
      · exact Or.inr h

/-- A change of a chain an iterator stands in, unless the entry it goes to next is deleted. -/
theorem Chg.split {ty : Ty K} {k : K} {p0 suf c' : List (K × V)} (h : Chg ty k (p0 ++ suf) c')
    (hn : ∀ e s, suf = e :: s → (ty.same k e.1 = false ∨ c'.map (·.1) = (p0 ++ suf).map (·.1) ∨ ∃ v, c' = (k, v) :: (p0 ++ suf))) :
    ∃ p1 suf', c' = p1 ++ suf' ∧ suf'.head?.map (·.1) = suf.head?.map (·.1) ∧
      (suf' = suf ∨ Chg ty k suf suf') ∧ (c'.map (·.1) = (p0 ++ suf).map (·.1) → suf'.map (·.1) = suf.map (·.1)) := by
  generalize hc : p0 ++ suf = c at h hn
  cases h with
  | add v c => subst hc; exact ⟨(k, v) :: p0, suf, rfl, rfl, Or.inl rfl, fun _ => rfl⟩
  | rev p e v q =>
    rcases List.append_eq_append_iff.1 hc with ⟨a, h1, h2⟩ | ⟨a, h1, h2⟩
    · -- p = p0 ++ a, suf = a ++ e :: q
      subst h1 h2
      refine ⟨p0, a ++ (e.1, v) :: q, by simp, ?_, Or.inr (.rev a e v q), fun _ => by simp⟩
      cases a <;> rfl
    · -- p0 = p ++ a, a ++ suf = e :: q
      cases a with
      | nil =>
        simp only [List.nil_append] at h2
        subst h2
        exact ⟨p, (e.1, v) :: q, rfl, rfl, Or.inr (.rev [] e v q), fun _ => rfl⟩
      | cons b a =>
        simp only [List.cons_append, List.cons.injEq] at h2
        obtain ⟨h2, h3⟩ := h2
        subst h2 h3 h1
        exact ⟨p ++ (e.1, v) :: a, suf, by simp, rfl, Or.inl rfl, fun _ => rfl⟩
  | del p e q he =>
    have hlen : (p ++ q).map (·.1) ≠ (p ++ e :: q).map (·.1) := by
      intro h
      have := congrArg List.length h
      simp at this
    have hv : ∀ v, p ++ q ≠ (k, v) :: (p ++ e :: q) := by
      intro v h
      have := congrArg List.length h
      simp at this
      omega
    rcases List.append_eq_append_iff.1 hc with ⟨a, h1, h2⟩ | ⟨a, h1, h2⟩
    · subst h1 h2
      cases a with
      | nil =>
        rcases hn e q rfl with h | h | ⟨v, h⟩
        · rw [he] at h; cases h
        · exact absurd h hlen
        · exact absurd h (hv v)
      | cons b a =>
        exact ⟨p0, b :: a ++ q, by simp, rfl, Or.inr (.del (b :: a) e q he), fun h => absurd h hlen⟩
    · cases a with
      | nil =>
        simp only [List.nil_append] at h2
        subst h2
        rcases hn e q rfl with h | h | ⟨v, h⟩
        · rw [he] at h; cases h
        · exact absurd h hlen
        · exact absurd h (hv v)
      | cons b a =>
        simp only [List.cons_append, List.cons.injEq] at h2
        obtain ⟨h2, h3⟩ := h2
        subst h2 h3 h1
        exact ⟨p ++ a, suf, by simp, rfl, Or.inl rfl, fun _ => rfl⟩

/-- Two lists with the same keys, or differing only in the key `k`. -/
structure Sim (ty : Ty K) (k : K) (same : Prop) (a b : List (K × V)) : Prop where
  pres : ∀ x, ty.same k x = false → (Pres ty x b ↔ Pres ty x a)
  keys : same → b.map (·.1) = a.map (·.1)

theorem Sim.refl {ty : Ty K} {k : K} {s : Prop} (a : List (K × V)) : Sim ty k s a a := ⟨fun _ _ => Iff.rfl, fun _ => rfl⟩

theorem Sim.append {ty : Ty K} {k : K} {s : Prop} {a b c d : List (K × V)} (h1 : Sim ty k s a b) (h2 : Sim ty k s c d) :
    Sim ty k s (a ++ c) (b ++ d) :=
  ⟨fun x hx => by rw [pres_append, pres_append, h1.pres x hx, h2.pres x hx], fun h => by simp [h1.keys h, h2.keys h]⟩

theorem Chg.sim {ty : Ty K} (ok : ty.Ok) {k : K} {c c' : List (K × V)} (h : Chg ty k c c') : Sim ty k (c'.map (·.1) = c.map (·.1)) c c' :=
  ⟨h.pres ok, id⟩

/-- The chains of a table from a place on, after one chain changed. -/
theorem drop_sim {ty : Ty K} (ok : ty.Ok) {k : K} {A B : List (List (K × V))} {c c' : List (K × V)} (h : Chg ty k c c') (j : Nat) :
    Sim ty k (c'.map (·.1) = c.map (·.1)) ((A ++ c :: B).drop j).flatten ((A ++ c' :: B).drop j).flatten := by
  rcases Nat.lt_or_ge A.length j with hj | hj
  · have e : ∀ c : List (K × V), (A ++ c :: B).drop j = B.drop (j - (A.length + 1)) := by
      intro c
      rw [List.drop_append, List.drop_of_length_le (by omega)]
      rw [show j - A.length = (j - (A.length + 1)) + 1 by omega]
      rfl
    rw [e, e]; exact Sim.refl _
  · rw [List.drop_append_of_le_length hj, List.drop_append_of_le_length hj]
    simp only [List.flatten_append, List.flatten_cons]
    exact (Sim.refl _).append ((h.sim ok).append (Sim.refl _))

theorem mid_inj {α : Type} {A B A2 B2 : List α} {c c2 : α} (h : A ++ c :: B = A2 ++ c2 :: B2) (hl : A.length = A2.length) :
    A = A2 ∧ c = c2 ∧ B = B2 := by
  obtain ⟨h1, h2⟩ := List.append_inj h hl
  cases h2
  exact ⟨h1, rfl, rfl⟩

/-- An iterator after one chain of the dictionary changed. -/
theorem edit_iter {ty : Ty K} (ok : ty.Ok) {d d' : Dict K V} {k : K} {c c' : List (K × V)} (hed : Edit d d' c c')
    (hc : Chg ty k c c') {it : Iter K} {suf : List (K × V)} (ht : IterInv d it suf) (hx : it.index ≠ none)
    (hn : ∀ e s, suf = e :: s → (ty.same k e.1 = false ∨ c'.map (·.1) = c.map (·.1) ∨ ∃ v, c' = (k, v) :: c)) :
    ∃ suf', IterInv d' it suf' ∧ Sim ty k (c'.map (·.1) = c.map (·.1)) (rem d it suf) (rem d' it suf') := by
  obtain ⟨i, hi⟩ := Option.ne_none_iff_exists'.1 hx
  have hit : d'.iters = d.iters := by cases hed with | first A B u h h' => rw [h'] | second A B u h h' => rw [h']
  have hri : d'.ridx = d.ridx := by cases hed with | first A B u h h' => rw [h'] | second A B u h h' => rw [h']
  have hit' : it.index ≠ none → d'.iters ≠ 0 := fun h => by rw [hit]; exact ht.iters h
  have hse' : it.second = true → d'.ridx.isSome = true := fun h => by rw [hri]; exact ht.second h
  -- the changed table is the iterator's or not
  have main : ∀ (A B : List (List (K × V))), itTable d it = A ++ c :: B → itTable d' it = A ++ c' :: B →
      ((it.second = false) → Sim ty k (c'.map (·.1) = c.map (·.1)) d.h1.ents d'.h1.ents) →
      ∃ suf', IterInv d' it suf' ∧ Sim ty k (c'.map (·.1) = c.map (·.1)) (rem d it suf) (rem d' it suf') := by
    intro A B h1 h2 h3
    have htail : ∀ s s' : List (K × V), Sim ty k (c'.map (·.1) = c.map (·.1)) s s' →
        Sim ty k (c'.map (·.1) = c.map (·.1)) (rem d it s) (rem d' it s') := by
      intro s s' hs
      unfold rem
      simp only [hi, h1, h2]
      refine hs.append ((drop_sim ok hc (i + 1)).append ?_)
      by_cases hs : it.second = true
      · simp only [hs, if_true]; exact Sim.refl _
      · simp only [hs]; exact h3 (by simpa using hs)
    by_cases hcur : it.cur = true
    · obtain ⟨A2, p, B2, t1, t2, t3⟩ := ht.chain hcur
      by_cases hA : A.length = A2.length
      · obtain ⟨e1, e2, e3⟩ := mid_inj (h1.symm.trans t1) hA
        subst e1 e3
        rw [e2] at hc hn
        obtain ⟨p1, suf', s1, s2, s3, s4⟩ := hc.split hn
        refine ⟨suf', ⟨ht.start, hit', hse', fun h => by (rw [hcur] at h; cases h), fun _ => ⟨A, p1, B, by rw [h2, s1], t2, by rw [t3, s2]⟩⟩, htail _ _ ?_⟩
        refine ⟨?_, fun h => s4 (by rw [h, e2])⟩
        rcases s3 with h | h
        · rw [h]; exact fun _ _ => Iff.rfl
        · exact h.pres ok
      · -- another chain
        refine ⟨suf, ⟨ht.start, hit', hse', ht.idle, fun _ => ?_⟩, htail _ _ (Sim.refl _)⟩
        have hg : (itTable d' it)[A2.length]? = some (p ++ suf) := by
          rw [h2, ← set_mid A B c c', List.getElem?_set_ne hA, ← h1, t1]
          exact mid_get _ _ _
        obtain ⟨A3, B3, g1, g2⟩ := split_at hg
        exact ⟨A3, p, B3, g1, by rw [g2]; exact t2, t3⟩
    · have hcur' : it.cur = false := by simpa using hcur
      have hs := ht.idle hcur'
      subst hs
      exact ⟨[], ⟨ht.start, hit', hse', fun _ => rfl, fun h => absurd h hcur⟩, htail _ _ (Sim.refl _)⟩
  cases hed with
  | first A B u h h' =>
    by_cases hs : it.second = true
    · have e1 : itTable d' it = itTable d it := by unfold itTable; rw [if_pos hs, if_pos hs, h']
      refine ⟨suf, ⟨ht.start, hit', hse', ht.idle, fun hcur => by rw [e1]; exact ht.chain hcur⟩, ?_⟩
      unfold rem
      simp only [hi, e1, hs, if_true]
      exact Sim.refl _
    · apply main A B
      · unfold itTable; rw [if_neg hs]; exact h
      · unfold itTable; rw [if_neg hs, h']
      · intro _; rw [h']; exact Sim.refl _
  | second A B u h h' =>
    have hents : Sim ty k (c'.map (·.1) = c.map (·.1)) d.h1.ents d'.h1.ents := by
      have := drop_sim ok (A := A) (B := B) hc 0
      rw [h']
      unfold HT.ents
      rw [h]
      simpa using this
    by_cases hs : it.second = true
    · apply main A B
      · unfold itTable; rw [if_pos hs]; exact h
      · unfold itTable; rw [if_pos hs, h']
      · intro h2; rw [hs] at h2; cases h2
    · have e1 : itTable d' it = itTable d it := by unfold itTable; rw [if_neg hs, if_neg hs, h']
      refine ⟨suf, ⟨ht.start, hit', hse', ht.idle, fun hcur => by rw [e1]; exact ht.chain hcur⟩, ?_⟩
      unfold rem
      simp only [hi, e1, hs]
      exact (Sim.refl _).append ((Sim.refl _).append hents)

/-- An iterator after `_dict_expand_if_needed`. -/
theorem expand_iter {ty : Ty K} {d d1 : Dict K V} (hi : Inv ty d) (hsz : size d < 2 ^ 61) (he : expandIfNeeded d = (d1, true))
    {it : Iter K} {suf : List (K × V)} (ht : IterInv d it suf) (hx : it.index ≠ none) :
    IterInv d1 it suf ∧ rem d1 it suf = rem d it suf := by
  obtain ⟨d2, e1, e2, e3, e4, e5, e6⟩ := expandIfNeeded_spec (ty := ty) d hi hsz
  rw [he] at e1
  have : d1 = d2 := by injection e1
  subst this
  obtain ⟨i, hix⟩ := Option.ne_none_iff_exists'.1 hx
  rcases e6 with e6 | ⟨f1, f2, f3, f4, f5⟩ | ⟨f1, f2, f3, f4, f5⟩
  · subst e6; exact ⟨ht, rfl⟩
  · have hs : it.second = false := by
      by_cases h : it.second = true
      · have := ht.second h; rw [f1] at this; cases this
      · simpa using h
    have e1 : itTable d1 it = itTable d it := by unfold itTable; rw [hs, f4]; rfl
    refine ⟨⟨ht.start, fun h => by (rw [e5]; exact ht.iters h), fun h => by (rw [hs] at h; cases h), ht.idle, fun h => by (rw [e1]; exact ht.chain h)⟩, ?_⟩
    unfold rem
    simp only [hix, e1, hs, f2, h1_nil hi f1]
  · have hs : it.second = false := by
      by_cases h : it.second = true
      · have := ht.second h; rw [f2] at this; cases this
      · simpa using h
    have hcur : it.cur = false := by
      by_cases h : it.cur = true
      · obtain ⟨A, p, B, t1, _⟩ := ht.chain h
        unfold itTable at t1
        rw [hs] at t1
        simp [f1] at t1
      · simpa using h
    refine ⟨⟨ht.start, fun h => by (rw [e5]; exact ht.iters h), fun h => by (rw [hs] at h; cases h), ht.idle, fun h => by (rw [hcur] at h; cases h)⟩, ?_⟩
    unfold rem itTable
    simp only [hix, hs, Bool.false_eq_true, if_false, f1, f3]
    have : ∀ j, (d1.h0.table.drop j).flatten = [] := by
      intro j
      have h1 : d1.h0.table.flatten = [] := f5
      have h2 : (d1.h0.table.take j ++ d1.h0.table.drop j).flatten = [] := by rw [List.take_append_drop]; exact h1
      rw [List.flatten_append] at h2
      exact (List.append_eq_nil_iff.1 h2).2
    rw [this]
    simp

end Sis.Dict
