import Verif.Lists.LinkListSpec
/-
Segments of linked nodes in memory, and what the writes to memory do to them.
-/
namespace Sis.Link

variable {V : Type}

abbrev addrs (xs : List (Nat × V)) : List Nat := xs.map (·.1)

def firstOf : List (Nat × V) → Option Nat → Option Nat
  | [], n => n
  | e :: _, _ => some e.1

def lastOf : List (Nat × V) → Option Nat → Option Nat
  | [], p => p
  | e :: xs, _ => lastOf xs (some e.1)

/-- The nodes of `xs` are linked in memory, between `p` and `n`. -/
def Seg (h : Heap V) : Option Nat → List (Nat × V) → Option Nat → Prop
  | _, [], _ => True
  | p, e :: xs, n => h e.1 = some ⟨p, firstOf xs n, e.2⟩ ∧ Seg h (some e.1) xs n

theorem put_same {α} (f : Nat → α) (i : Nat) (x : α) : put f i x i = x := if_pos rfl
theorem put_other {α} (f : Nat → α) {i j : Nat} (x : α) (h : j ≠ i) : put f i x j = f j := if_neg h

theorem firstOf_append (xs ys : List (Nat × V)) (n : Option Nat) : firstOf (xs ++ ys) n = firstOf xs (firstOf ys n) := by
  cases xs <;> rfl

theorem lastOf_append (xs ys : List (Nat × V)) : ∀ p, lastOf (xs ++ ys) p = lastOf ys (lastOf xs p) := by
  induction xs with
  | nil => intro p; rfl
  | cons e xs ih => intro p; exact ih _

theorem lastOf_some (xs : List (Nat × V)) : ∀ p : Nat, (lastOf xs (some p)).isSome = true := by
  induction xs with
  | nil => intro p; rfl
  | cons e xs ih => intro p; exact ih _

theorem lastOf_isSome {xs : List (Nat × V)} (h : xs ≠ []) (p : Option Nat) : (lastOf xs p).isSome = true := by
  cases xs with
  | nil => exact absurd rfl h
  | cons e xs => exact lastOf_some xs _

theorem firstOf_mem {xs : List (Nat × V)} {a : Nat} (h : firstOf xs none = some a) : a ∈ addrs xs := by
  cases xs with
  | nil => cases h
  | cons e xs => cases h; exact List.mem_cons_self

theorem lastOf_mem (xs : List (Nat × V)) : ∀ {p : Option Nat} {a : Nat}, lastOf xs p = some a → a ∈ addrs xs ∨ p = some a := by
  induction xs with
  | nil => intro p a h; exact .inr h
  | cons e xs ih =>
    intro p a h
    rcases ih h with h | h
    · exact .inl (List.mem_cons_of_mem _ h)
    · cases h; exact .inl List.mem_cons_self

theorem seg_append (h : Heap V) (xs ys : List (Nat × V)) (n : Option Nat) :
    ∀ p, Seg h p (xs ++ ys) n ↔ Seg h p xs (firstOf ys n) ∧ Seg h (lastOf xs p) ys n := by
  induction xs with
  | nil => intro p; simp [Seg, lastOf]
  | cons e xs ih =>
    intro p
    simp only [List.cons_append, Seg, lastOf, firstOf_append, ih, and_assoc]

theorem seg_frame {h h' : Heap V} {xs : List (Nat × V)} {n : Option Nat} (hf : ∀ a ∈ addrs xs, h' a = h a) :
    ∀ {p}, Seg h p xs n → Seg h' p xs n := by
  induction xs with
  | nil => intro p _; exact trivial
  | cons e xs ih =>
    intro p hs
    exact ⟨by rw [hf _ List.mem_cons_self]; exact hs.1, ih (fun a ha => hf a (List.mem_cons_of_mem _ ha)) hs.2⟩

theorem seg_live {h : Heap V} {xs : List (Nat × V)} {n : Option Nat} : ∀ {p}, Seg h p xs n → ∀ a ∈ addrs xs, (h a).isSome = true := by
  induction xs with
  | nil => intro p _ a ha; cases ha
  | cons e xs ih =>
    intro p hs a ha
    rcases List.mem_cons.1 ha with rfl | ha
    · rw [hs.1]; rfl
    · exact ih hs.2 a ha

/-- Only the addresses in `F` may have changed, and none was allocated or freed. -/
def Same (h h' : Heap V) (F : List Nat) : Prop := (∀ a, a ∉ F → h' a = h a) ∧ ∀ a, (h' a).isSome = (h a).isSome

theorem Same.refl (h : Heap V) (F : List Nat) : Same h h F := ⟨fun _ _ => rfl, fun _ => rfl⟩

theorem Same.put {h : Heap V} {a : Nat} {n : Node V} {F : List Nat} (hl : (h a).isSome = true) (ha : a ∈ F) : Same h (put h a (some n)) F := by
  refine ⟨fun b hb => put_other _ _ (by rintro rfl; exact hb ha), fun b => ?_⟩
  by_cases hb : b = a
  · subst hb; rw [put_same, hl]; rfl
  · rw [put_other _ _ hb]

theorem link_last {h : Heap V} {xs : List (Nat × V)} {m : Option Nat} (hs : Seg h none xs m) (nd : (addrs xs).Nodup) (n : Option Nat) :
    ∃ h', linkNext h (lastOf xs none) n = some h' ∧ Seg h' none xs n ∧ Same h h' (addrs xs) := by
  rcases List.eq_nil_or_concat xs with rfl | ⟨ys, e, rfl⟩
  · exact ⟨h, rfl, trivial, Same.refl _ _⟩
  · rw [List.concat_eq_append] at hs nd ⊢
    obtain ⟨h1, h2⟩ := (seg_append _ _ _ _ _).1 hs
    obtain ⟨h2, -⟩ := h2
    have hl : lastOf (ys ++ [e]) none = some e.1 := by rw [lastOf_append]; rfl
    rw [hl]
    refine ⟨put h e.1 (some ⟨lastOf ys none, n, e.2⟩), by show setNext _ _ _ = _; unfold setNext; rw [h2]; rfl, ?_, Same.put (by rw [h2]; rfl) (by simp)⟩
    refine (seg_append _ _ _ _ _).2 ⟨seg_frame ?_ h1, put_same _ _ _, trivial⟩
    intro a ha
    refine put_other _ _ ?_
    rintro rfl
    rw [addrs, List.map_append] at nd
    exact (List.nodup_append.1 nd).2.2 _ ha e.1 (by simp) rfl

theorem link_first {h : Heap V} {xs : List (Nat × V)} {p : Option Nat} (hs : Seg h p xs none) (nd : (addrs xs).Nodup) (q : Option Nat) :
    ∃ h', linkPrev h (firstOf xs none) q = some h' ∧ Seg h' q xs none ∧ Same h h' (addrs xs) := by
  cases xs with
  | nil => exact ⟨h, rfl, trivial, Same.refl _ _⟩
  | cons e xs =>
    obtain ⟨h1, h2⟩ := hs
    refine ⟨put h e.1 (some ⟨q, firstOf xs none, e.2⟩), by show setPrev _ _ _ = _; unfold setPrev; rw [h1]; rfl, ⟨put_same _ _ _, seg_frame ?_ h2⟩,
      Same.put (by rw [h1]; rfl) List.mem_cons_self⟩
    intro a ha
    refine put_other _ _ ?_
    rintro rfl
    exact (List.nodup_cons.1 nd).1 ha

theorem nodup_split {L R : List (Nat × V)} (nd : (addrs (L ++ R)).Nodup) :
    (addrs L).Nodup ∧ (addrs R).Nodup ∧ ∀ a ∈ addrs L, a ∉ addrs R := by
  rw [addrs, List.map_append] at nd
  obtain ⟨h1, h2, h3⟩ := List.nodup_append.1 nd
  exact ⟨h1, h2, fun a ha hb => h3 a ha a hb rfl⟩

theorem Same.trans {h h1 h2 : Heap V} {F G : List Nat} (s : Same h h1 F) (t : Same h1 h2 G) : Same h h2 (F ++ G) :=
  ⟨fun a ha => (t.1 a (fun x => ha (List.mem_append_right _ x))).trans (s.1 a (fun x => ha (List.mem_append_left _ x))), fun a => (t.2 a).trans (s.2 a)⟩

/-- Two parts are made neighbours. -/
theorem relink {h : Heap V} {L R : List (Nat × V)} {m q : Option Nat} (hL : Seg h none L m) (hR : Seg h q R none) (nd : (addrs (L ++ R)).Nodup) (n p : Option Nat) :
    ∃ h', ((linkNext h (lastOf L none) n).bind fun h => linkPrev h (firstOf R none) p) = some h' ∧ Seg h' none L n ∧ Seg h' p R none ∧
      Same h h' (addrs (L ++ R)) := by
  obtain ⟨n1, n2, n3⟩ := nodup_split nd
  obtain ⟨h1, a1, a2, a3⟩ := link_last hL n1 n
  obtain ⟨h2, b1, b2, b3⟩ := link_first (seg_frame (h' := h1) (fun a ha => a3.1 a (fun x => n3 a x ha)) hR) n2 p
  refine ⟨h2, by rw [a1]; exact b1, seg_frame (fun a ha => b3.1 a (n3 a ha)) a2, b2, ?_⟩
  rw [addrs, List.map_append]
  exact a3.trans b3

/-- A node is put between two parts. -/
theorem splice {h : Heap V} {L R : List (Nat × V)} (hs : Seg h none (L ++ R) none) (nd : (addrs (L ++ R)).Nodup) {a : Nat} (v : V) (ha : a ∉ addrs (L ++ R)) :
    ∃ h', ((linkNext (put h a (some ⟨lastOf L none, firstOf R none, v⟩)) (lastOf L none) (some a)).bind fun h => linkPrev h (firstOf R none) (some a)) = some h' ∧
      Seg h' none (L ++ (a, v) :: R) none ∧ (∀ b, b ∉ addrs (L ++ R) → b ≠ a → h' b = h b) ∧
      ∀ b, (h' b).isSome = true ↔ b = a ∨ (h b).isSome = true := by
  obtain ⟨s1, s2⟩ := (seg_append _ _ _ _ _).1 hs
  have hf : ∀ b ∈ addrs (L ++ R), put h a (some (⟨lastOf L none, firstOf R none, v⟩ : Node V)) b = h b := fun b hb => put_other _ _ (by rintro rfl; exact ha hb)
  obtain ⟨h', r1, r2, r3, r4⟩ := relink (seg_frame (fun b hb => hf b (by simp only [addrs, List.map_append]; exact List.mem_append_left _ hb)) s1)
    (seg_frame (fun b hb => hf b (by simp only [addrs, List.map_append]; exact List.mem_append_right _ hb)) s2) nd (some a) (some a)
  refine ⟨h', r1, (seg_append _ _ _ _ _).2 ⟨r2, ?_, r3⟩, ?_, ?_⟩
  · rw [r4.1 a ha]; exact put_same _ _ _
  · intro b hb hba
    rw [r4.1 b hb]; exact put_other _ _ hba
  · intro b
    rw [r4.2 b]
    by_cases hb : b = a
    · subst hb; simp [put_same]
    · rw [put_other _ _ hb]; simp [hb]

/-- A list in memory. -/
structure Rep (h : Heap V) (l : Lst) (xs : List (Nat × V)) : Prop where
  seg : Seg h none xs none
  head : l.head = firstOf xs none
  tail : l.tail = lastOf xs none
  len : l.len = xs.length

/-- The lists in memory. -/
structure Good (st : St V) (X : Seqs V) : Prop where
  rep : ∀ i, Rep st.heap (st.ls i) (X i)
  nodup : ∀ i, (addrs (X i)).Nodup
  apart : ∀ i j, i ≠ j → ∀ a ∈ addrs (X i), a ∉ addrs (X j)
  live : ∀ a, (st.heap a).isSome = true ↔ ∃ i, a ∈ addrs (X i)

theorem good_new : Good (St.new : St V) (fun _ => []) :=
  ⟨fun _ => ⟨trivial, rfl, rfl, rfl⟩, fun _ => List.nodup_nil, fun _ _ _ a h => (by cases h), fun a => ⟨fun h => (by cases h), fun ⟨_, h⟩ => (by cases h)⟩⟩

/-- One list was changed. -/
theorem Good.change {st : St V} {X : Seqs V} (g : Good st X) {i : Nat} {h' : Heap V} {l' : Lst} {xs' : List (Nat × V)}
    (r : Rep h' l' xs') (nd : (addrs xs').Nodup) (hsub : ∀ a ∈ addrs xs', a ∈ addrs (X i) ∨ ∀ j, a ∉ addrs (X j))
    (hf : ∀ a, a ∉ addrs (X i) → a ∉ addrs xs' → h' a = st.heap a)
    (hl : ∀ a ∈ addrs (X i), a ∉ addrs xs' → h' a = none) :
    Good ⟨h', put st.ls i l'⟩ (put X i xs') := by
  have hap : ∀ j, j ≠ i → ∀ a ∈ addrs (X j), a ∉ addrs (X i) ∧ a ∉ addrs xs' := by
    intro j hj a ha
    refine ⟨g.apart j i hj a ha, fun hx => ?_⟩
    rcases hsub a hx with h | h
    · exact g.apart j i hj a ha h
    · exact h j ha
  refine ⟨fun j => ?_, fun j => ?_, fun j k hjk a ha hb => ?_, fun a => ?_⟩
  · by_cases hj : j = i
    · subst hj
      show Rep h' (put st.ls j l' j) (put X j xs' j)
      rw [put_same, put_same]; exact r
    · show Rep h' (put st.ls i l' j) (put X i xs' j)
      rw [put_other _ _ hj, put_other _ _ hj]
      exact ⟨seg_frame (fun a ha => hf a (hap j hj a ha).1 (hap j hj a ha).2) (g.rep j).seg, (g.rep j).head, (g.rep j).tail, (g.rep j).len⟩
  · by_cases hj : j = i
    · subst hj; rw [put_same]; exact nd
    · rw [put_other _ _ hj]; exact g.nodup j
  · by_cases hj : j = i
    · subst hj
      rw [put_same] at ha
      rw [put_other _ _ (Ne.symm hjk)] at hb
      exact (hap k (Ne.symm hjk) a hb).2 ha
    · rw [put_other _ _ hj] at ha
      by_cases hk : k = i
      · subst hk
        rw [put_same] at hb
        exact (hap j hj a ha).2 hb
      · rw [put_other _ _ hk] at hb
        exact g.apart j k hjk a ha hb
  · show (h' a).isSome = true ↔ _
    by_cases hx : a ∈ addrs xs'
    · exact ⟨fun _ => ⟨i, by rw [put_same]; exact hx⟩, fun _ => seg_live r.seg a hx⟩
    · by_cases hi : a ∈ addrs (X i)
      · rw [hl a hi hx]
        constructor
        · intro h; cases h
        · rintro ⟨j, hj⟩
          exfalso
          by_cases hji : j = i
          · subst hji; rw [put_same] at hj; exact hx hj
          · rw [put_other _ _ hji] at hj; exact (hap j hji a hj).1 hi
      · rw [hf a hi hx, g.live a]
        constructor
        · rintro ⟨j, hj⟩
          have hji : j ≠ i := by rintro rfl; exact hi hj
          exact ⟨j, by rw [put_other _ _ hji]; exact hj⟩
        · rintro ⟨j, hj⟩
          have hji : j ≠ i := by rintro rfl; rw [put_same] at hj; exact hx hj
          rw [put_other _ _ hji] at hj; exact ⟨j, hj⟩

theorem nodup_insert {L R : List (Nat × V)} {a : Nat} {v : V} (nd : (addrs (L ++ R)).Nodup) (ha : a ∉ addrs (L ++ R)) : (addrs (L ++ (a, v) :: R)).Nodup := by
  have : (addrs (L ++ (a, v) :: R)).Perm (addrs ((a, v) :: (L ++ R))) := (List.perm_middle).map _
  exact this.nodup_iff.2 (List.nodup_cons.2 ⟨ha, nd⟩)

/-- A node was put in: what all ways of doing so have in common. -/
theorem Good.insert {st : St V} {X : Seqs V} (g : Good st X) {i a : Nat} {v : V} {L R : List (Nat × V)} (hx : X i = L ++ R) (ha : ∀ j, a ∉ addrs (X j))
    {l' : Lst} (l1 : l'.head = firstOf (L ++ (a, v) :: R) none) (l2 : l'.tail = lastOf (L ++ (a, v) :: R) none) (l3 : l'.len = (st.ls i).len + 1) :
    ∃ h', ((linkNext (put st.heap a (some ⟨lastOf L none, firstOf R none, v⟩)) (lastOf L none) (some a)).bind fun h => linkPrev h (firstOf R none) (some a)) = some h' ∧
      Good ⟨h', put st.ls i l'⟩ (put X i (L ++ (a, v) :: R)) := by
  have r := g.rep i
  have nd := g.nodup i
  have hai := ha i
  rw [hx] at r nd hai
  obtain ⟨h', s1, s2, s3, s4⟩ := splice r.seg nd v hai
  refine ⟨h', s1, g.change ⟨s2, l1, l2, by rw [l3, r.len]; simp; omega⟩ (nodup_insert nd hai) ?_ ?_ ?_⟩
  · intro b hb
    rw [addrs, List.map_append, List.map_cons, List.mem_append, List.mem_cons] at hb
    rw [hx, addrs, List.map_append, List.mem_append]
    rcases hb with h | rfl | h
    · exact .inl (.inl h)
    · exact .inr ha
    · exact .inl (.inr h)
  · intro b hb hb'
    refine s3 b (by rw [← hx]; exact hb) ?_
    rintro rfl
    exact hb' (by simp)
  · intro b hb hb'
    exfalso; apply hb'
    rw [hx, addrs, List.map_append, List.mem_append] at hb
    rw [addrs, List.map_append, List.map_cons, List.mem_append, List.mem_cons]
    rcases hb with h | h
    · exact .inl h
    · exact .inr (.inr h)

theorem good_addHead {st : St V} {X : Seqs V} (g : Good st X) {i a : Nat} (v : V) (ha : ∀ j, a ∉ addrs (X j)) :
    ∃ s, addHead st i a v = some s ∧ Good s (put X i ((a, v) :: X i)) := by
  have r := g.rep i
  unfold addHead
  cases hx : X i with
  | nil =>
    rw [hx] at r
    obtain ⟨h', s1, s2⟩ := g.insert (L := []) (R := []) (v := v) hx ha (l' := ⟨some a, some a, (st.ls i).len + 1⟩) rfl rfl rfl
    cases s1
    exact ⟨_, by simp only [r.len, List.length_nil, if_true]; rfl, by simpa [r.len, lastOf, firstOf] using s2⟩
  | cons e xs =>
    have hne : (st.ls i).len ≠ 0 := by rw [r.len, hx]; simp
    rw [hx] at r
    obtain ⟨h', s1, s2⟩ := g.insert (L := []) (R := X i) (v := v) rfl ha (l' := { st.ls i with head := some a, len := (st.ls i).len + 1 }) rfl (by rw [r.tail, hx]; rfl) rfl
    rw [hx] at s1 s2
    refine ⟨_, ?_, s2⟩
    simp only [if_neg hne]
    rw [r.head]
    have s1' : setPrev (put st.heap a (some ⟨none, some e.1, v⟩)) e.1 (some a) = some h' := s1
    show ((setPrev (put st.heap a (some ⟨none, some e.1, v⟩)) e.1 (some a)).map _) = _
    rw [s1']; rfl

theorem last_split {xs : List (Nat × V)} (h : xs ≠ []) : ∃ L e, xs = L ++ [e] := by
  rcases List.eq_nil_or_concat xs with rfl | ⟨L, e, rfl⟩
  · exact absurd rfl h
  · exact ⟨L, e, by rw [List.concat_eq_append]⟩

theorem good_push {st : St V} {X : Seqs V} (g : Good st X) {i a : Nat} (v : V) (ha : ∀ j, a ∉ addrs (X j)) :
    ∃ s, push st i a v = some s ∧ Good s (put X i (X i ++ [(a, v)])) := by
  have r := g.rep i
  unfold push
  by_cases hx : X i = []
  · rw [hx] at r
    obtain ⟨h', s1, s2⟩ := g.insert (L := []) (R := []) (v := v) hx ha (l' := ⟨some a, some a, (st.ls i).len + 1⟩) rfl rfl rfl
    cases s1
    exact ⟨_, by simp only [r.len, List.length_nil, if_true]; rfl, by rw [hx]; simpa [r.len, lastOf, firstOf] using s2⟩
  · have hne : (st.ls i).len ≠ 0 := by rw [r.len]; simpa using hx
    obtain ⟨h', s1, s2⟩ := g.insert (L := X i) (R := []) (v := v) (by simp) ha (l' := { st.ls i with tail := some a, len := (st.ls i).len + 1 })
      (by rw [r.head]; cases h : X i with | nil => exact absurd h hx | cons => rfl) (by rw [lastOf_append]; rfl) rfl
    refine ⟨_, ?_, s2⟩
    simp only [if_neg hne]
    rw [r.tail]
    obtain ⟨t, ht⟩ := Option.isSome_iff_exists.1 (lastOf_isSome hx none)
    rw [ht] at s1 ⊢
    have s1' : setNext (put st.heap a (some ⟨some t, none, v⟩)) t (some a) = some h' := by
      have : ((setNext (put st.heap a (some ⟨some t, none, v⟩)) t (some a)).bind fun h => some h) = some h' := s1
      rwa [Option.bind_fun_some] at this
    show ((setNext (put st.heap a (some ⟨some t, none, v⟩)) t (some a)).map _) = _
    rw [s1']; rfl

theorem split_at {xs : List (Nat × V)} {x : Nat} (h : x ∈ addrs xs) : ∃ L w R, xs = L ++ (x, w) :: R := by
  obtain ⟨e, he, rfl⟩ := List.mem_map.1 h
  obtain ⟨L, R, rfl⟩ := List.append_of_mem he
  exact ⟨L, e.2, R, rfl⟩

theorem flatMap_other {L : List (Nat × V)} {x : Nat} (hx : x ∉ addrs L) (f : Nat × V → List (Nat × V)) : (L.flatMap fun e => if e.1 = x then f e else [e]) = L := by
  induction L with
  | nil => rfl
  | cons e L ih =>
    have h1 : e.1 ≠ x := by rintro rfl; exact hx List.mem_cons_self
    rw [List.flatMap_cons, if_neg h1, ih fun h => hx (List.mem_cons_of_mem _ h)]; rfl

theorem flatMap_at {L R : List (Nat × V)} {x : Nat} {w : V} (nd : (addrs (L ++ (x, w) :: R)).Nodup) (f : Nat × V → List (Nat × V)) :
    ((L ++ (x, w) :: R).flatMap fun e => if e.1 = x then f e else [e]) = L ++ f (x, w) ++ R := by
  obtain ⟨-, n2, n3⟩ := nodup_split nd
  rw [List.flatMap_append, List.flatMap_cons, if_pos rfl, flatMap_other (fun h => n3 x h List.mem_cons_self), flatMap_other (List.nodup_cons.1 n2).1, List.append_assoc]

theorem node_at {h : Heap V} {L R : List (Nat × V)} {x : Nat} {w : V} (hs : Seg h none (L ++ (x, w) :: R) none) :
    h x = some ⟨lastOf L none, firstOf R none, w⟩ := ((seg_append _ _ _ _ _).1 hs).2.1

theorem first_is {L R : List (Nat × V)} {x : Nat} {w : V} (nd : (addrs (L ++ (x, w) :: R)).Nodup) : firstOf (L ++ (x, w) :: R) none = some x ↔ L = [] := by
  cases L with
  | nil => simp [firstOf]
  | cons e L =>
    simp only [List.cons_append, firstOf, Option.some.injEq]
    constructor
    · intro h
      exfalso
      exact (nodup_split nd).2.2 x (by rw [← h]; exact List.mem_cons_self) List.mem_cons_self
    · intro h; cases h

theorem last_is {L R : List (Nat × V)} {x : Nat} {w : V} (nd : (addrs (L ++ (x, w) :: R)).Nodup) : lastOf (L ++ (x, w) :: R) none = some x ↔ R = [] := by
  rw [lastOf_append]
  show lastOf R (some x) = some x ↔ _
  cases R with
  | nil => simp [lastOf]
  | cons e R =>
    constructor
    · intro h
      exfalso
      rcases lastOf_mem R (show lastOf R (some e.1) = some x from h) with h | h
      · exact (List.nodup_cons.1 (nodup_split nd).2.1).1 (List.mem_cons_of_mem _ h)
      · cases h
        exact (List.nodup_cons.1 (nodup_split nd).2.1).1 List.mem_cons_self
    · intro h; cases h

theorem good_before {st : St V} {X : Seqs V} (g : Good st X) {i x a : Nat} (v : V) (hx : x ∈ addrs (X i)) (ha : ∀ j, a ∉ addrs (X j)) :
    ∃ s, insert st i x a v false = some s ∧ Good s (put X i ((X i).flatMap fun e => if e.1 = x then [(a, v), e] else [e])) := by
  obtain ⟨L, w, R, hX⟩ := split_at hx
  have r := g.rep i
  have nd := g.nodup i
  rw [hX] at r nd
  obtain ⟨h', s1, s2⟩ := g.insert (v := v) hX ha (l' := { (if (st.ls i).head = some x then { st.ls i with head := some a } else st.ls i) with len := (st.ls i).len + 1 })
    (by
      by_cases h : (st.ls i).head = some x
      · rw [if_pos h]
        have hL := h
        rw [r.head, first_is nd] at hL
        rw [hL]; rfl
      · rw [if_neg h]
        show (st.ls i).head = _
        have hL := h
        rw [r.head, first_is nd] at hL
        rw [r.head]
        cases L with
        | nil => exact absurd rfl hL
        | cons => rfl)
    (by
      have : (st.ls i).tail = lastOf (L ++ (a, v) :: (x, w) :: R) none := by rw [r.tail, lastOf_append, lastOf_append]; rfl
      by_cases h : (st.ls i).head = some x
      · rw [if_pos h]; exact this
      · rw [if_neg h]; exact this) rfl
  rw [hX, flatMap_at nd (fun e => [(a, v), e])]
  refine ⟨_, ?_, by simpa using s2⟩
  unfold insert
  rw [node_at r.seg, Option.bind_some]
  simp only [Bool.false_eq_true, if_false]
  obtain ⟨h1, e1, e2⟩ := Option.bind_eq_some_iff.1 s1
  have e1' : linkNext (put st.heap a (some ⟨lastOf L none, some x, v⟩)) (lastOf L none) (some a) = some h1 := e1
  have e2' : linkPrev h1 (some x) (some a) = some h' := e2
  rw [e1', Option.bind_some, e2', Option.map_some]
  by_cases h : (st.ls i).head = some x
  · simp only [if_pos h]
  · simp only [if_neg h]

theorem good_after {st : St V} {X : Seqs V} (g : Good st X) {i x a : Nat} (v : V) (hx : x ∈ addrs (X i)) (ha : ∀ j, a ∉ addrs (X j)) :
    ∃ s, insert st i x a v true = some s ∧ Good s (put X i ((X i).flatMap fun e => if e.1 = x then [e, (a, v)] else [e])) := by
  obtain ⟨L, w, R, hX⟩ := split_at hx
  have r := g.rep i
  have nd := g.nodup i
  rw [hX] at r nd
  have hX' : X i = (L ++ [(x, w)]) ++ R := by rw [hX]; simp
  have hlast : lastOf (L ++ [(x, w)]) none = some x := by rw [lastOf_append]; rfl
  obtain ⟨h', s1, s2⟩ := g.insert (v := v) hX' ha (l' := { (if (st.ls i).tail = some x then { st.ls i with tail := some a } else st.ls i) with len := (st.ls i).len + 1 })
    (by
      have : (st.ls i).head = firstOf ((L ++ [(x, w)]) ++ (a, v) :: R) none := by rw [r.head]; cases L <;> rfl
      by_cases h : (st.ls i).tail = some x
      · rw [if_pos h]; exact this
      · rw [if_neg h]; exact this)
    (by
      by_cases h : (st.ls i).tail = some x
      · rw [if_pos h]
        have hL := h
        rw [r.tail, last_is nd] at hL
        rw [hL, lastOf_append]; rfl
      · rw [if_neg h]
        show (st.ls i).tail = _
        have hL := h
        rw [r.tail, last_is nd] at hL
        rw [r.tail, lastOf_append, lastOf_append]
        cases R with
        | nil => exact absurd rfl hL
        | cons => rfl) rfl
  rw [hX, flatMap_at nd (fun e => [e, (a, v)])]
  refine ⟨_, ?_, by simpa using s2⟩
  unfold insert
  rw [node_at r.seg, Option.bind_some]
  simp only [if_true]
  rw [hlast] at s1
  obtain ⟨h1, e1, e2⟩ := Option.bind_eq_some_iff.1 s1
  rw [e1, Option.bind_some, e2, Option.map_some]
  by_cases h : (st.ls i).tail = some x
  · simp only [if_pos h]
  · simp only [if_neg h]

theorem filter_other {L : List (Nat × V)} {x : Nat} (hx : x ∉ addrs L) : (L.filter fun e => e.1 ≠ x) = L ∧ (L.filter fun e => e.1 = x) = [] := by
  constructor
  · refine List.filter_eq_self.2 fun e he => ?_
    simp only [ne_eq, decide_not, Bool.not_eq_true', decide_eq_false_iff_not]
    rintro rfl; exact hx (List.mem_map_of_mem he)
  · refine List.filter_eq_nil_iff.2 fun e he => ?_
    simp only [decide_eq_true_eq]
    rintro rfl; exact hx (List.mem_map_of_mem he)

/-- A node is taken out. -/
theorem good_delete_at {st : St V} {X : Seqs V} (g : Good st X) {i x : Nat} {w : V} {L R : List (Nat × V)} (hX : X i = L ++ (x, w) :: R) :
    ∃ s, delete st i x = some (s, [w]) ∧ Good s (put X i (L ++ R)) := by
  have r := g.rep i
  have nd := g.nodup i
  rw [hX] at r nd
  have hp : (addrs (L ++ (x, w) :: R)).Perm (x :: addrs (L ++ R)) := (List.perm_middle).map _
  have nd' := hp.nodup_iff.1 nd
  obtain ⟨hxn, nd2⟩ := List.nodup_cons.1 nd'
  have hn := node_at r.seg
  obtain ⟨s1, s2⟩ := (seg_append _ _ _ _ _).1 r.seg
  obtain ⟨h', r1, r2, r3, r4⟩ := relink s1 s2.2 nd2 (firstOf R none) (lastOf L none)
  obtain ⟨h1, e1, e2⟩ := Option.bind_eq_some_iff.1 r1
  refine ⟨_, by unfold delete; rw [hn, Option.bind_some]; simp only []; rw [e1, Option.bind_some, e2, Option.map_some], ?_⟩
  refine g.change ⟨?_, ?_, ?_, ?_⟩ nd2 ?_ ?_ ?_
  · refine seg_frame (h := h') (fun a ha => put_other _ _ (by rintro rfl; exact hxn ha)) ((seg_append _ _ _ _ _).2 ⟨r2, r3⟩)
  · cases L with
    | nil => cases R <;> rfl
    | cons e L =>
      have h1 : (lastOf (e :: L) none).isSome = true := lastOf_isSome (by simp) _
      cases R <;> simp [h1, firstOf, r.head]
  · cases R with
    | nil =>
      rw [List.append_nil]; rfl
    | cons e R =>
      have h1 : (st.ls i).tail = lastOf (L ++ e :: R) none := by rw [r.tail, lastOf_append, lastOf_append]; rfl
      cases (lastOf L none).isSome <;> simp [firstOf, h1]
  · have hl : (st.ls i).len - 1 = (L ++ R).length := by rw [r.len]; simp
    cases (lastOf L none).isSome <;> cases (firstOf R none).isSome <;> exact hl
  · intro a ha
    rw [hX]
    exact .inl (hp.mem_iff.2 (List.mem_cons_of_mem _ ha))
  · intro a ha hb
    rw [hX] at ha
    rw [put_other _ _ (by rintro rfl; exact ha (hp.mem_iff.2 List.mem_cons_self))]
    exact r4.1 a hb
  · intro a ha hb
    rw [hX, hp.mem_iff] at ha
    rcases List.mem_cons.1 ha with rfl | ha
    · exact put_same _ _ _
    · exact absurd ha hb

theorem good_delete {st : St V} {X : Seqs V} (g : Good st X) {i x : Nat} (hx : x ∈ addrs (X i)) :
    ∃ s, delete st i x = some (s, ((X i).filter fun e => e.1 = x).map (·.2)) ∧ Good s (put X i ((X i).filter fun e => e.1 ≠ x)) := by
  obtain ⟨L, w, R, hX⟩ := split_at hx
  obtain ⟨s, h1, h2⟩ := good_delete_at g hX
  have nd := g.nodup i
  rw [hX] at nd
  obtain ⟨n1, n2, n3⟩ := nodup_split nd
  have f1 := filter_other (fun h => n3 x h List.mem_cons_self)
  have f2 := filter_other (List.nodup_cons.1 n2).1
  refine ⟨s, ?_, ?_⟩
  · rw [h1, hX, List.filter_append, f1.2, List.filter_cons, f2.2]; simp
  · rw [hX, List.filter_append, f1.1, List.filter_cons, f2.1]; simpa using h2

theorem clear_loop (xs : List (Nat × V)) : ∀ {h : Heap V} {p : Option Nat}, Seg h p xs none → (addrs xs).Nodup →
    ∃ h', clearLoop h xs.length (firstOf xs none) = some (h', xs.map (·.2)) ∧ (∀ a ∈ addrs xs, h' a = none) ∧ ∀ a, a ∉ addrs xs → h' a = h a := by
  induction xs with
  | nil => intro h p _ _; exact ⟨h, rfl, fun a ha => by (cases ha), fun _ _ => rfl⟩
  | cons e xs ih =>
    intro h p hs nd
    obtain ⟨n1, n2⟩ := List.nodup_cons.1 nd
    obtain ⟨h', a1, a2, a3⟩ := ih (h := put h e.1 none) (seg_frame (fun a ha => put_other _ _ (by rintro rfl; exact n1 ha)) hs.2) n2
    refine ⟨h', ?_, ?_, ?_⟩
    · show clearLoop h (xs.length + 1) (some e.1) = _
      rw [clearLoop, Option.bind_some, hs.1, Option.bind_some, a1]; rfl
    · intro a ha
      rcases List.mem_cons.1 ha with rfl | ha
      · rw [a3 _ n1]; exact put_same _ _ _
      · exact a2 a ha
    · intro a ha
      rw [a3 a fun h => ha (List.mem_cons_of_mem _ h)]
      exact put_other _ _ (by rintro rfl; exact ha List.mem_cons_self)

theorem good_clear {st : St V} {X : Seqs V} (g : Good st X) (i : Nat) :
    ∃ s, clear st i = some (s, (X i).map (·.2)) ∧ Good s (put X i []) := by
  have r := g.rep i
  obtain ⟨h', a1, a2, a3⟩ := clear_loop (X i) r.seg (g.nodup i)
  refine ⟨_, by unfold clear; rw [r.len, r.head, a1]; rfl, ?_⟩
  exact g.change ⟨trivial, rfl, rfl, rfl⟩ List.nodup_nil (fun a ha => by cases ha) (fun a ha _ => a3 a ha) (fun a ha _ => a2 a ha)

theorem put_self {α} (f : Nat → α) (i : Nat) : put f i (f i) = f := by
  funext j
  by_cases h : j = i
  · subst h; exact put_same _ _ _
  · exact put_other _ _ h

theorem good_rotate {st : St V} {X : Seqs V} (g : Good st X) (i : Nat) :
    ∃ s, rotate st i = some s ∧ Good s (put X i ((X i).getLast?.toList ++ (X i).dropLast)) := by
  have r := g.rep i
  have nd := g.nodup i
  unfold rotate
  by_cases hs : (X i).length ≤ 1
  · refine ⟨st, by simp only [r.len, if_pos hs], ?_⟩
    have : (X i).getLast?.toList ++ (X i).dropLast = X i := by
      cases hx : X i with
      | nil => rfl
      | cons e xs =>
        cases xs with
        | nil => rfl
        | cons f xs => rw [hx] at hs; simp at hs
    rw [this, put_self]; exact g
  · simp only [r.len, if_neg hs]
    obtain ⟨L, t, hX⟩ := last_split (xs := X i) (by rintro h; rw [h] at hs; simp at hs)
    have hLne : L ≠ [] := by rintro rfl; rw [hX] at hs; simp at hs
    obtain ⟨L', t', hL⟩ := last_split hLne
    obtain ⟨e, L2, hL2⟩ := List.exists_cons_of_ne_nil hLne
    rw [hX] at r nd
    obtain ⟨n1, n2, n3⟩ := nodup_split nd
    have htL : t.1 ∉ addrs L := fun h => n3 _ h (by simp)
    obtain ⟨s1, s2⟩ := (seg_append _ _ _ _ _).1 r.seg
    obtain ⟨s2, -⟩ := s2
    have hl : lastOf L none = some t'.1 := by rw [hL, lastOf_append]; rfl
    have hh : firstOf L none = some e.1 := by rw [hL2]; rfl
    have ht : (st.ls i).tail = some t.1 := by rw [r.tail, lastOf_append]; rfl
    have hd : (st.ls i).head = some e.1 := by rw [r.head, hL2]; rfl
    obtain ⟨h1, a1, a2, a3⟩ := link_last s1 n1 none
    obtain ⟨h2, b1, b2, b3⟩ := link_first a2 n1 (some t.1)
    rw [hl] at a1
    rw [hh] at b1
    have a1' : setNext st.heap t'.1 none = some h1 := a1
    have b1' : setPrev h1 e.1 (some t.1) = some h2 := b1
    have c1 : h2 t.1 = some ⟨lastOf L none, none, t.2⟩ := by rw [b3.1 _ htL, a3.1 _ htL]; exact s2
    have c2 : setPrev h2 t.1 none = some (put h2 t.1 (some ⟨none, none, t.2⟩)) := by unfold setPrev; rw [c1]; rfl
    have c3 : setNext (put h2 t.1 (some ⟨none, none, t.2⟩)) t.1 (some e.1) = some (put (put h2 t.1 (some ⟨none, none, t.2⟩)) t.1 (some ⟨none, some e.1, t.2⟩)) := by
      unfold setNext; rw [put_same]; rfl
    refine ⟨_, by rw [ht, Option.bind_some, s2, Option.bind_some, hl, Option.bind_some, a1', Option.bind_some, hd, Option.bind_some, b1', Option.bind_some,
      c2, Option.bind_some, c3, Option.map_some], ?_⟩
    have hx' : (X i).getLast?.toList ++ (X i).dropLast = t :: L := by rw [hX]; simp
    rw [hx']
    have hp : (addrs (L ++ [t])).Perm (addrs (t :: L)) := (List.perm_append_comm (l₁ := L) (l₂ := [t])).map _
    have hfr : ∀ a, a ≠ t.1 → put (put h2 t.1 (some (⟨none, none, t.2⟩ : Node V))) t.1 (some ⟨none, some e.1, t.2⟩) a = h2 a := by
      intro a ha; rw [put_other _ _ ha, put_other _ _ ha]
    refine g.change ⟨⟨by rw [put_same, hh], seg_frame (h := h2) (fun a ha => hfr a (by rintro rfl; exact htL ha)) b2⟩, rfl, ?_, by show (X i).length = _; rw [hX]; simp⟩
      (hp.nodup_iff.1 nd) ?_ ?_ ?_
    · show some t'.1 = lastOf L (some t.1)
      rw [hL, lastOf_append]; rfl
    · intro a ha; rw [hX]; exact .inl (hp.mem_iff.2 ha)
    · intro a _ hb
      have q1 : a ≠ t.1 := by rintro rfl; exact hb List.mem_cons_self
      have q2 : a ∉ addrs L := fun h => hb (List.mem_cons_of_mem _ h)
      rw [hfr a q1, b3.1 _ q2, a3.1 _ q2]
    · intro a ha hb
      rw [hX, hp.mem_iff] at ha
      exact absurd ha hb

theorem good_join {st : St V} {X : Seqs V} (g : Good st X) {i j : Nat} (hij : i ≠ j) :
    ∃ s, join st i j = some s ∧ Good s (put (put X i (X i ++ X j)) j []) := by
  have ri := g.rep i
  have rj := g.rep j
  have hap := g.apart i j hij
  obtain ⟨h1, b1, b2, b3⟩ := link_first rj.seg (g.nodup j) (st.ls i).tail
  obtain ⟨h2, a1, a2, a3⟩ := link_last (seg_frame (h' := h1) (fun a ha => b3.1 a (hap a ha)) ri.seg) (g.nodup i) (firstOf (X j) none)
  have b4 := seg_frame (h' := h2) (fun a ha => a3.1 a (fun h => hap a h ha)) b2
  have hsame := b3.trans a3
  refine ⟨_, by unfold join; rw [rj.head, b1, Option.bind_some, ri.tail, a1, Option.map_some], ?_⟩
  simp only []
  have hseg : Seg h2 none (X i ++ X j) none := by
    refine (seg_append _ _ _ _ _).2 ⟨a2, ?_⟩
    rw [← ri.tail]; exact b4
  have hrep : Rep h2 { (if (lastOf (X i) none).isSome = true then st.ls i else { st.ls i with head := firstOf (X j) none }) with
      tail := if (st.ls j).tail.isSome = true then (st.ls j).tail else (if (lastOf (X i) none).isSome = true then st.ls i else { st.ls i with head := firstOf (X j) none }).tail,
      len := (if (lastOf (X i) none).isSome = true then st.ls i else { st.ls i with head := firstOf (X j) none }).len + (st.ls j).len } (X i ++ X j) := by
    refine ⟨hseg, ?_, ?_, ?_⟩
    · cases hx : X i with
      | nil => rfl
      | cons e xs =>
        have : (lastOf (e :: xs) none).isSome = true := lastOf_isSome (by simp) _
        simp only [this, if_true]
        rw [ri.head, hx]; rfl
    · show (if (st.ls j).tail.isSome = true then (st.ls j).tail else _) = _
      rw [rj.tail, lastOf_append]
      by_cases hx : X j = []
      · rw [hx]
        show (if (lastOf (X i) none).isSome = true then st.ls i else { st.ls i with head := firstOf ([] : List (Nat × V)) none }).tail = lastOf (X i) none
        rw [← ri.tail]
        by_cases h : ((st.ls i).tail.isSome = true)
        · rw [if_pos h]
        · rw [if_neg h]
      · rw [if_pos (lastOf_isSome hx _)]
        obtain ⟨L, e, hL⟩ := last_split hx
        rw [hL, lastOf_append, lastOf_append]; rfl
    · show (if (lastOf (X i) none).isSome = true then st.ls i else { st.ls i with head := firstOf (X j) none }).len + (st.ls j).len = _
      rw [List.length_append, rj.len, ← ri.len]
      by_cases h : ((lastOf (X i) none).isSome = true)
      · rw [if_pos h]
      · rw [if_neg h]
  have hmem : ∀ a, a ∈ addrs (X i ++ X j) ↔ a ∈ addrs (X i) ∨ a ∈ addrs (X j) := by intro a; simp [addrs]
  have hX : ∀ k a, a ∈ addrs (put (put X i (X i ++ X j)) j [] k) ↔ (k = i ∧ (a ∈ addrs (X i) ∨ a ∈ addrs (X j))) ∨ (k ≠ i ∧ k ≠ j ∧ a ∈ addrs (X k)) := by
    intro k a
    by_cases hk : k = j
    · subst hk
      rw [put_same]
      simp [Ne.symm hij]
    · rw [put_other _ _ hk]
      by_cases hk' : k = i
      · subst hk'
        rw [put_same, hmem]; simp
      · rw [put_other _ _ hk']; simp [hk, hk']
  refine ⟨fun k => ?_, fun k => ?_, fun k m hkm a ha hb => ?_, fun a => ?_⟩
  · show Rep h2 (put (put st.ls i _) j {} k) (put (put X i (X i ++ X j)) j [] k)
    by_cases hk : k = j
    · subst hk; rw [put_same, put_same]; exact ⟨trivial, rfl, rfl, rfl⟩
    · rw [put_other _ _ hk, put_other _ _ hk]
      by_cases hk' : k = i
      · subst hk'; rw [put_same, put_same]; rw [← ri.tail, ← rj.head] at hrep; exact hrep
      · rw [put_other _ _ hk', put_other _ _ hk']
        refine ⟨seg_frame (h := st.heap) (fun a ha => hsame.1 a fun h => ?_) (g.rep k).seg, (g.rep k).head, (g.rep k).tail, (g.rep k).len⟩
        rcases List.mem_append.1 h with h | h
        · exact g.apart k j hk a ha h
        · exact g.apart k i hk' a ha h
  · by_cases hk : k = j
    · subst hk; rw [put_same]; exact List.nodup_nil
    · rw [put_other _ _ hk]
      by_cases hk' : k = i
      · subst hk'
        rw [put_same, addrs, List.map_append]
        refine List.nodup_append.2 ⟨g.nodup k, g.nodup j, ?_⟩
        rintro a ha b hb rfl
        exact hap a ha hb
      · rw [put_other _ _ hk']; exact g.nodup k
  · rw [hX] at ha hb
    rcases ha with ⟨rfl, ha⟩ | ⟨k1, k2, ha⟩ <;> rcases hb with ⟨rfl, hb⟩ | ⟨m1, m2, hb⟩
    · exact hkm rfl
    · rcases ha with ha | ha
      · exact g.apart _ _ hkm a ha hb
      · exact g.apart _ _ (Ne.symm m2) a ha hb
    · rcases hb with hb | hb
      · exact g.apart _ _ hkm a ha hb
      · exact g.apart _ _ k2 a ha hb
    · exact g.apart _ _ hkm a ha hb
  · show (h2 a).isSome = true ↔ _
    rw [hsame.2 a, g.live a]
    constructor
    · rintro ⟨k, hk⟩
      by_cases h1 : k = i ∨ k = j
      · refine ⟨i, (hX i a).2 (.inl ⟨rfl, ?_⟩)⟩
        rcases h1 with rfl | rfl
        · exact .inl hk
        · exact .inr hk
      · exact ⟨k, (hX k a).2 (.inr ⟨fun h => h1 (.inl h), fun h => h1 (.inr h), hk⟩)⟩
    · rintro ⟨k, hk⟩
      rcases (hX k a).1 hk with ⟨-, h | h⟩ | ⟨-, -, h⟩
      · exact ⟨i, h⟩
      · exact ⟨j, h⟩
      · exact ⟨k, h⟩

theorem put_put {α} (f : Nat → α) (i : Nat) (x y : α) : put (put f i x) i y = put f i y := by
  funext j
  by_cases h : j = i
  · subst h; rw [put_same, put_same]
  · rw [put_other _ _ h, put_other _ _ h, put_other _ _ h]

theorem sweep_fwd (i : Nat) (keep : V → Bool) (R : List (Nat × V)) : ∀ {st : St V} {X : Seqs V} (L : List (Nat × V)), Good st X → X i = L ++ R →
    ∀ n, R.length < n → ∃ s, sweepLoop i true keep n st (firstOf R none) = some (s, R, (R.filter fun e => !keep e.2).map (·.2)) ∧
      Good s (put X i (L ++ R.filter fun e => keep e.2)) := by
  induction R with
  | nil =>
    intro st X L g hX n hn
    obtain ⟨m, rfl⟩ : ∃ m, n = m + 1 := ⟨n - 1, by omega⟩
    refine ⟨st, rfl, ?_⟩
    have : put X i (L ++ List.filter (fun e => keep e.2) []) = X := by
      rw [List.filter_nil, ← hX]; exact put_self _ _
    rw [this]; exact g
  | cons e R ih =>
    intro st X L g hX n hn
    obtain ⟨m, rfl⟩ : ∃ m, n = m + 1 := ⟨n - 1, by omega⟩
    have hm : R.length < m := by simp at hn; omega
    have hn := node_at (x := e.1) (w := e.2) (by rw [← hX]; exact (g.rep i).seg)
    show ∃ s, sweepLoop i true keep (m + 1) st (some e.1) = _ ∧ _
    rw [sweepLoop, hn, Option.bind_some]
    simp only [if_true]
    cases hk : keep e.2 with
    | true =>
      obtain ⟨s, h1, h2⟩ := ih (L ++ [e]) g (by rw [hX]; simp) m hm
      refine ⟨s, by simp only [if_true, Option.bind_some, h1, Option.map_some]; simp [hk], ?_⟩
      simpa [hk] using h2
    | false =>
      obtain ⟨s1, d1, d2⟩ := good_delete_at g (x := e.1) (w := e.2) hX
      obtain ⟨s, h1, h2⟩ := ih L d2 (put_same _ _ _) m hm
      refine ⟨s, by simp only [Bool.false_eq_true, if_false, d1, Option.bind_some, h1, Option.map_some]; simp [hk], ?_⟩
      rw [put_put] at h2
      simpa [hk] using h2

theorem sweep_bwd (i : Nat) (keep : V → Bool) : ∀ (k : Nat) {st : St V} {X : Seqs V} (L R : List (Nat × V)), L.length = k → Good st X → X i = L ++ R →
    ∀ n, L.length < n → ∃ s, sweepLoop i false keep n st (lastOf L none) = some (s, L.reverse, (L.reverse.filter fun e => !keep e.2).map (·.2)) ∧
      Good s (put X i ((L.filter fun e => keep e.2) ++ R)) := by
  intro k
  induction k with
  | zero =>
    intro st X L R hL g hX n hn
    obtain rfl := List.length_eq_zero_iff.1 hL
    obtain ⟨m, rfl⟩ : ∃ m, n = m + 1 := ⟨n - 1, by omega⟩
    refine ⟨st, rfl, ?_⟩
    have : put X i (List.filter (fun e => keep e.2) [] ++ R) = X := by
      rw [List.filter_nil, ← hX]; exact put_self _ _
    rw [this]; exact g
  | succ k ih =>
    intro st X L' R hL g hX n hn
    obtain ⟨m, rfl⟩ : ∃ m, n = m + 1 := ⟨n - 1, by omega⟩
    obtain ⟨L, e, rfl⟩ := last_split (xs := L') (by rintro rfl; simp at hL)
    have hk' : L.length = k := by simp at hL; exact hL
    have hm : L.length < m := by simp at hn; omega
    have hX' : X i = L ++ (e.1, e.2) :: R := by rw [hX]; simp
    have hn := node_at (x := e.1) (w := e.2) (by rw [← hX']; exact (g.rep i).seg)
    have hlast : lastOf (L ++ [e]) none = some e.1 := by rw [lastOf_append]; rfl
    rw [hlast, sweepLoop, hn, Option.bind_some]
    simp only [Bool.false_eq_true, if_false]
    cases hk : keep e.2 with
    | true =>
      obtain ⟨s, h1, h2⟩ := ih L (e :: R) hk' g hX' m hm
      refine ⟨s, by simp only [if_true, Option.bind_some, h1, Option.map_some]; simp [hk], ?_⟩
      simpa [hk] using h2
    | false =>
      obtain ⟨s1, d1, d2⟩ := good_delete_at g (x := e.1) (w := e.2) hX'
      obtain ⟨s, h1, h2⟩ := ih L R hk' d2 (put_same _ _ _) m hm
      refine ⟨s, by simp only [Bool.false_eq_true, if_false, d1, Option.bind_some, h1, Option.map_some]; simp [hk], ?_⟩
      rw [put_put] at h2
      simpa [hk] using h2

theorem walk_fwd {h : Heap V} (k : Nat) : ∀ {p : Option Nat} {xs : List (Nat × V)}, Seg h p xs none →
    walk h true k (firstOf xs none) = some (xs[k]?.map (·.1)) := by
  induction k with
  | zero => intro p xs _; cases xs <;> rfl
  | succ k ih =>
    intro p xs hs
    cases xs with
    | nil => rfl
    | cons e xs =>
      show walk h true (k + 1) (some e.1) = _
      rw [walk, hs.1, Option.bind_some]
      simp only [if_true]
      rw [ih hs.2]; rfl

theorem walk_bwd {h : Heap V} (k : Nat) : ∀ {n : Option Nat} {xs : List (Nat × V)}, Seg h none xs n →
    walk h false k (lastOf xs none) = some (xs.reverse[k]?.map (·.1)) := by
  induction k with
  | zero =>
    intro n xs _
    rcases List.eq_nil_or_concat xs with rfl | ⟨L, e, rfl⟩
    · rfl
    · rw [List.concat_eq_append, lastOf_append]; simp [walk, lastOf]
  | succ k ih =>
    intro n xs hs
    rcases List.eq_nil_or_concat xs with rfl | ⟨L, e, rfl⟩
    · rfl
    · rw [List.concat_eq_append] at hs ⊢
      obtain ⟨s1, s2⟩ := (seg_append _ _ _ _ _).1 hs
      have : lastOf (L ++ [e]) none = some e.1 := by rw [lastOf_append]; rfl
      rw [this, walk, s2.1, Option.bind_some]
      simp only [Bool.false_eq_true, if_false]
      rw [ih s1]; simp

theorem search_loop {h : Heap V} (p : V → Bool) (xs : List (Nat × V)) : ∀ {q : Option Nat}, Seg h q xs none → ∀ n, xs.length < n →
    searchLoop h p n (firstOf xs none) = some ((xs.find? fun e => p e.2).map (·.1)) := by
  induction xs with
  | nil =>
    intro q _ n hn
    obtain ⟨m, rfl⟩ : ∃ m, n = m + 1 := ⟨n - 1, by omega⟩
    rfl
  | cons e xs ih =>
    intro q hs n hn
    obtain ⟨m, rfl⟩ : ∃ m, n = m + 1 := ⟨n - 1, by omega⟩
    show searchLoop h p (m + 1) (some e.1) = _
    rw [searchLoop, hs.1, Option.bind_some, List.find?_cons]
    simp only []
    cases hp : p e.2 with
    | true => rfl
    | false =>
      simp only [Bool.false_eq_true, if_false]
      exact ih hs.2 m (by simp at hn; omega)

theorem dup_loop {i j : Nat} (hij : i ≠ j) (copy : V → V) (R : List (Nat × V)) : ∀ {st : St V} {X : Seqs V} (L : List (Nat × V)) (as : List Nat), Good st X →
    X i = L ++ R → as.length = R.length → as.Nodup → (∀ a ∈ as, ∀ k, a ∉ addrs (X k)) → ∀ n, R.length < n →
    ∃ s, dupLoop j copy n st (firstOf R none) as = some s ∧ Good s (put X j (X j ++ as.zip (R.map fun e => copy e.2))) := by
  induction R with
  | nil =>
    intro st X L as g hX hl _ _ n hn
    obtain ⟨m, rfl⟩ : ∃ m, n = m + 1 := ⟨n - 1, by omega⟩
    refine ⟨st, by cases as <;> rfl, ?_⟩
    rw [List.map_nil, List.zip_nil_right, List.append_nil, put_self]; exact g
  | cons e R ih =>
    intro st X L as g hX hl nd hf n hn
    obtain ⟨m, rfl⟩ : ∃ m, n = m + 1 := ⟨n - 1, by omega⟩
    cases as with
    | nil => simp at hl
    | cons b as =>
      have hnode := node_at (x := e.1) (w := e.2) (by rw [← hX]; exact (g.rep i).seg)
      obtain ⟨s1, p1, p2⟩ := good_push g (i := j) (copy e.2) (hf b List.mem_cons_self)
      obtain ⟨nb, nd'⟩ := List.nodup_cons.1 nd
      obtain ⟨s, h1, h2⟩ := ih (L ++ [e]) as p2 (by rw [put_other _ _ hij, hX]; simp) (by simpa using hl) nd' (by
        intro a ha k hk
        by_cases hkj : k = j
        · subst hkj
          rw [put_same, addrs, List.map_append, List.mem_append] at hk
          rcases hk with hk | hk
          · exact hf a (List.mem_cons_of_mem _ ha) k hk
          · rw [List.map_cons, List.map_nil, List.mem_singleton] at hk
            have : a = b := hk
            exact nb (this ▸ ha)
        · rw [put_other _ _ hkj] at hk
          exact hf a (List.mem_cons_of_mem _ ha) k hk) m (by simp at hn; omega)
      refine ⟨s, ?_, ?_⟩
      · show dupLoop j copy (m + 1) st (some e.1) (b :: as) = _
        rw [dupLoop, hnode, Option.bind_some]
        simp only []
        rw [p1, Option.bind_some, h1]
      · rw [put_put, put_same] at h2
        simpa using h2

theorem good_call {st : St V} {X : Seqs V} (g : Good st X) {c : Call V} (o : Owed X c) :
    ∃ s, call st c = some (s, (means X c).2) ∧ Good s (means X c).1 := by
  cases c with
  | addHead i a v => obtain ⟨s, h1, h2⟩ := good_addHead g v o; exact ⟨s, by rw [call, h1]; rfl, h2⟩
  | push i a v => obtain ⟨s, h1, h2⟩ := good_push g v o; exact ⟨s, by rw [call, h1]; rfl, h2⟩
  | before i x a v => obtain ⟨s, h1, h2⟩ := good_before g v o.1 o.2; exact ⟨s, by rw [call, h1]; rfl, h2⟩
  | after i x a v => obtain ⟨s, h1, h2⟩ := good_after g v o.1 o.2; exact ⟨s, by rw [call, h1]; rfl, h2⟩
  | delete i x => obtain ⟨s, h1, h2⟩ := good_delete g o; exact ⟨s, by rw [call, h1]; rfl, h2⟩
  | clear i => obtain ⟨s, h1, h2⟩ := good_clear g i; exact ⟨s, by rw [call, h1]; rfl, h2⟩
  | rotate i => obtain ⟨s, h1, h2⟩ := good_rotate g i; exact ⟨s, by rw [call, h1]; rfl, h2⟩
  | join i j => obtain ⟨s, h1, h2⟩ := good_join g o; exact ⟨s, by rw [call, h1]; rfl, h2⟩
  | sweep i fwd keep =>
    have r := g.rep i
    cases fwd with
    | true =>
      obtain ⟨s, h1, h2⟩ := sweep_fwd i keep (X i) [] g rfl ((st.ls i).len + 1) (by rw [r.len]; omega)
      refine ⟨s, ?_, by simpa [means] using h2⟩
      rw [call, sweep]
      simp only [if_true]
      rw [r.head, h1]; rfl
    | false =>
      obtain ⟨s, h1, h2⟩ := sweep_bwd i keep _ (X i) [] rfl g (by simp) ((st.ls i).len + 1) (by rw [r.len]; omega)
      refine ⟨s, ?_, by simpa [means] using h2⟩
      rw [call, sweep]
      simp only [Bool.false_eq_true, if_false]
      rw [r.tail, h1]; rfl
  | dup i j copy as =>
    obtain ⟨o1, o2, o3, o4, o5⟩ := o
    obtain ⟨s, h1, h2⟩ := dup_loop o1 copy (X i) [] as g rfl o3 o4 o5 ((st.ls i).len + 1) (by rw [(g.rep i).len]; omega)
    refine ⟨s, by rw [call, dup, (g.rep i).head, h1]; rfl, ?_⟩
    rw [o2, List.nil_append] at h2
    exact h2

theorem good_calls (cs : List (Call V)) : ∀ {st : St V} {X : Seqs V}, Good st X → AllOwed X cs →
    ∃ s, calls st cs = some (s, (meaning X cs).2) ∧ Good s (meaning X cs).1 := by
  induction cs with
  | nil => intro st X g _; exact ⟨st, rfl, g⟩
  | cons c cs ih =>
    intro st X g o
    obtain ⟨s1, h1, h2⟩ := good_call g o.1
    obtain ⟨s, h3, h4⟩ := ih h2 o.2
    exact ⟨s, by rw [calls, h1, Option.bind_some, h3]; rfl, h4⟩

end Sis.Link
