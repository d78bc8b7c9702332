import Verif.Snodb.SnodbLemmas
/-
Lemmas about the stream of a day: what one event does to one subscriber.
-/
namespace Sis.Snodb
open Sis

theorem got_none {cid : Nat} {o : List Out} (h : ∀ x ∈ o, ∀ c y n, x ≠ .send c y n) : got cid [o] = [] := by
  unfold got
  rw [List.filterMap_eq_nil_iff]
  intro x hx
  simp at hx
  have := h x hx
  cases x with
  | send c y n => exact absurd rfl (this c y n)
  | answer _ => rfl
  | coded _ _ _ => rfl

theorem got_answer (cid : Nat) (b : Bool) : got cid [[.answer b]] = [] := rfl

theorem mem_remove {s : St} {c : Nat} {r : Reader} (h : r ∈ (remove s c).readers) : r ∈ s.readers := by
  unfold remove at h
  split at h
  · exact (List.mem_filter.1 h).1
  · exact h

theorem remove_mem {s : St} {c : Nat} {r : Reader} (h : r ∈ s.readers) (hc : r.cid ≠ c) : r ∈ (remove s c).readers := by
  unfold remove
  split
  · exact List.mem_filter.2 ⟨h, by simp [hc]⟩
  · exact h

theorem remove_same (s : St) (c : Nat) : (remove s c).out = s.out ∧ (remove s c).near = s.near ∧ (remove s c).keys = s.keys ∧
    (remove s c).sdbs = s.sdbs ∧ (remove s c).dict = s.dict ∧ (remove s c).status = s.status := by
  unfold remove
  split <;> exact ⟨rfl, rfl, rfl, rfl, rfl, rfl⟩

theorem sub_facts (s : St) (a : Ask) : (sub s a).1.out = s.out ∧ (sub s a).1.near = s.near ∧ (sub s a).1.keys = s.keys ∧
    (sub s a).1.sdbs = s.sdbs ∧ (sub s a).1.dict = s.dict ∧ (sub s a).1.status = s.status ∧ (sub s a).2 = [.answer true] ∧
    (∀ r ∈ s.readers, r.cid ≠ a.cid → r ∈ (sub s a).1.readers) ∧
    (∀ r ∈ (sub s a).1.readers, r ∈ s.readers ∨ ∃ k t, a.parts = some (k, t) ∧ r = reader a k t) ∧
    (a.parts ≠ none → a.day = none → ∃ r ∈ (sub s a).1.readers, r.cid = a.cid) := by
  unfold sub
  dsimp only
  split
  · rename_i hp
    exact ⟨rfl, rfl, rfl, rfl, rfl, rfl, rfl, fun r hr _ => hr, fun r hr => Or.inl hr, fun h => absurd hp h⟩
  · rename_i k t hp
    split
    · rename_i hday
      have hz : a.parts ≠ none → a.day = none → False := by
        intro _ h2
        rw [h2] at hday
        simp at hday
      have hs := remove_same { s with date := max s.date a.today } a.cid
      refine ⟨?_, ?_, ?_, ?_, ?_, ?_, rfl, ?_, ?_, fun h1 h2 => (hz h1 h2).elim⟩
      · split <;> split <;> first | exact hs.1 | rfl
      · split <;> split <;> first | exact hs.2.1 | rfl
      · split <;> split <;> first | exact hs.2.2.1 | rfl
      · split <;> split <;> first | exact hs.2.2.2.1 | rfl
      · split <;> split <;> first | exact hs.2.2.2.2.1 | rfl
      · split <;> split <;> first | exact hs.2.2.2.2.2 | rfl
      · intro r hr hc
        split <;> split <;> first | exact hr | exact remove_mem (s := { s with date := max s.date a.today }) hr hc
      · intro r hr
        refine Or.inl ?_
        split at hr <;> split at hr <;> first | exact hr | exact mem_remove (s := { s with date := max s.date a.today }) hr
    · split
      · rename_i hany
        refine ⟨rfl, rfl, rfl, rfl, rfl, rfl, rfl, fun r hr _ => hr, fun r hr => Or.inl hr, fun _ _ => ?_⟩
        obtain ⟨r, hr, hc⟩ := List.any_eq_true.1 hany
        exact ⟨r, hr, by simpa using hc⟩
      · refine ⟨rfl, rfl, rfl, rfl, rfl, rfl, rfl, fun r hr _ => List.mem_append_left _ hr, fun r hr => ?_, fun _ _ => ?_⟩
        · rcases List.mem_append.1 hr with h | h
          · exact Or.inl h
          · exact Or.inr ⟨k, t, hp, List.mem_singleton.1 h⟩
        · exact ⟨reader a k t, List.mem_append_right _ (List.mem_singleton.2 rfl), rfl⟩

theorem writeBytes_facts {s s' : St} {k t : Int} {d : Bytes} (h : writeBytes s k t d = some s') :
    s'.out = s.out ∧ s'.near = s.near ∧ s'.readers = s.readers ∧ s'.keys = s.keys ∧ s'.sdbs = s.sdbs ∧ s'.status = s.status ∧
    (s'.dict = s.dict ∨ ∃ a b, s.keys = .val a ∧ s.sdbs = .val b ∧ s.dict = none ∧ s'.dict = some (a, b)) := by
  unfold writeBytes at h
  split at h
  · cases h; exact ⟨rfl, rfl, rfl, rfl, rfl, rfl, Or.inl rfl⟩
  · split at h
    · cases h; exact ⟨rfl, rfl, rfl, rfl, rfl, rfl, Or.inl rfl⟩
    · rename_i a b hd hk ht
      cases h; exact ⟨rfl, rfl, rfl, rfl, rfl, rfl, Or.inr ⟨a, b, hk, ht, hd, rfl⟩⟩
    · cases h

/-- What publishing does. -/
theorem publish_facts {m : Mode} {B : Nat} {e : Env} {s s' : St} {v : Ev} {o : List Out} (hv : (∃ k t d, v = .pub k t d) ∨ ∃ p, v = .zpub p)
    (hg : Good m B s) (h : step e s v = some (s', o)) :
    ∃ s1 b o1, writeInit e s = some (s1, b, o1) ∧ (∃ x, o = o1 ++ [.answer x] ∧ (x = true → b = true)) ∧ s'.readers = s1.readers ∧ s'.keys = s1.keys ∧
      s'.sdbs = s1.sdbs ∧ s'.status = s1.status ∧ s'.out = s.out ++ brings v o ∧
      (s'.dict = s1.dict ∨ ∃ a b, s1.keys = .val a ∧ s1.sdbs = .val b ∧ s1.dict = none ∧ s'.dict = some (a, b)) ∧
      (∀ M c r n, Serve M c s1.out s1.near r n → (∀ k, r.cursor = .pos k → k ≤ s1.out.length) → c ≤ s1.out.length → Serve M c s'.out s'.near r n) := by
  rcases hv with ⟨k, t, d, rfl⟩ | ⟨p, rfl⟩
  · dsimp only [step] at h
    unfold pub at h
    cases hw : writeInit e s with
    | none => rw [hw] at h; cases h
    | some x =>
      obtain ⟨s1, b, o1⟩ := x
      obtain ⟨f1, f2, f3, f4, f5, f6, f7, f8, f9, f10, f11⟩ := writeInit_facts hg.count hw
      rw [hw] at h
      have hb0 : ∀ z, brings (.pub k t d) (o1 ++ [.answer z]) = [] := by
        intro z
        unfold brings
        rw [List.flatMap_eq_nil_iff]
        intro y hy
        rcases List.mem_append.1 hy with h1 | h1
        · cases b with
          | false => rw [(f10 rfl).2] at h1; simp at h1
          | true =>
            obtain ⟨_, _, _, _, _, K, T, _, ho⟩ := f11 rfl
            rw [ho] at h1
            obtain ⟨r, _, hr⟩ := List.mem_flatMap.1 h1
            obtain ⟨_, _, rfl⟩ := startNotes_send e s.date K T r y hr
            rfl
        · rw [List.mem_singleton] at h1; subst h1; rfl
      cases b with
      | false =>
        cases h
        refine ⟨s', false, o1, rfl, ⟨false, rfl, fun h => (by cases h)⟩, rfl, rfl, rfl, rfl, ?_, Or.inl rfl, fun M c r n hs _ _ => hs⟩
        rw [hb0, f1]; simp
      | true =>
        simp only [Option.map_eq_some_iff, Prod.mk.injEq] at h
        obtain ⟨s2, h2, rfl, rfl⟩ := h
        obtain ⟨g1, g2, g3, g4, g5, g6, g7⟩ := writeBytes_facts h2
        refine ⟨s1, true, o1, rfl, ⟨true, rfl, fun _ => rfl⟩, g3, g4, g5, g6, ?_, g7, fun M c r n hs _ _ => by rw [g1, g2]; exact hs⟩
        rw [hb0, g1, f1]; simp
  · dsimp only [step] at h
    unfold zpub at h
    cases hw : writeInit e s with
    | none => rw [hw] at h; cases h
    | some x =>
      obtain ⟨s1, b, o1⟩ := x
      obtain ⟨f1, f2, f3, f4, f5, f6, f7, f8, f9, f10, f11⟩ := writeInit_facts hg.count hw
      have hg1 := good_writeInit hg hw
      rw [hw] at h
      have hno : ∀ z, Out.answer z ∉ o1 := by
        intro z h1
        cases b with
        | false => rw [(f10 rfl).2] at h1; simp at h1
        | true =>
          obtain ⟨_, _, _, _, _, K, T, _, ho⟩ := f11 rfl
          rw [ho] at h1
          obtain ⟨r, _, hr⟩ := List.mem_flatMap.1 h1
          obtain ⟨_, _, h2⟩ := startNotes_send e s.date K T r _ hr
          cases h2
      cases b with
      | false =>
        cases h
        refine ⟨s', false, o1, rfl, ⟨false, rfl, fun h => (by cases h)⟩, rfl, rfl, rfl, rfl, ?_, Or.inl rfl, fun M c r n hs _ _ => hs⟩
        unfold brings
        dsimp only
        rw [if_neg (by simp [hno]), f1]; simp
      | true =>
        cases h
        obtain ⟨p1, p2, p3, p4, p5, p6, p7, p8⟩ := pushes_facts [p] s1
        rw [← push_eq] at p1 p2 p3 p4 p5 p6 p7 p8
        have hkd : (push s1 p).keys = s1.keys ∧ (push s1 p).sdbs = s1.sdbs ∧ (push s1 p).dict = s1.dict := by
          unfold push; split <;> exact ⟨rfl, rfl, rfl⟩
        refine ⟨s1, true, o1, rfl, ⟨_, rfl, fun _ => rfl⟩, p2, hkd.1, hkd.2.1, p4, ?_, Or.inl hkd.2.2, fun M c r n hs hb hc => p8 M c r n hs hb hc⟩
        rw [p1, f1]
        unfold brings
        dsimp only
        by_cases hp : p = []
        · rw [if_neg (by simp [hno, hp])]; simp [hp]
        · rw [if_pos (by simp [hp])]; simp [hp]

theorem pack_facts (s : St) (ps : List Bytes) : (pack s ps).1.readers = s.readers ∧ (pack s ps).1.keys = s.keys ∧ (pack s ps).1.sdbs = s.sdbs ∧
    (pack s ps).1.dict = s.dict ∧ (pack s ps).1.out = s.out ++ brings (.pack ps) (pack s ps).2 ∧ (∀ cid, got cid [(pack s ps).2] = []) ∧
    (∀ k t qs, .coded k t qs ∈ (pack s ps).2 → s.dict = some (k, t)) ∧
    (∀ m c r n, Serve m c s.out s.near r n → (∀ k, r.cursor = .pos k → k ≤ s.out.length) → c ≤ s.out.length →
      Serve m c (pack s ps).1.out (pack s ps).1.near r n) := by
  have hkd : ∀ (qs : List Bytes) (s : St), (pushes s qs).keys = s.keys ∧ (pushes s qs).sdbs = s.sdbs ∧ (pushes s qs).dict = s.dict := by
    intro qs
    induction qs with
    | nil => intro s; exact ⟨rfl, rfl, rfl⟩
    | cons q qs ih =>
      intro s
      obtain ⟨a1, a2, a3⟩ := ih (push s q)
      have : (push s q).keys = s.keys ∧ (push s q).sdbs = s.sdbs ∧ (push s q).dict = s.dict := by
        unfold push; split <;> exact ⟨rfl, rfl, rfl⟩
      exact ⟨a1.trans this.1, a2.trans this.2.1, a3.trans this.2.2⟩
  obtain ⟨p1, p2, p3, p4, p5, p6, p7, p8⟩ := pushes_facts ps s
  obtain ⟨k1, k2, k3⟩ := hkd ps s
  unfold pack
  split
  · rename_i d _ hd
    refine ⟨p2, k1, k2, k3, ?_, fun cid => rfl, ?_, fun m c r n hs hb hc => p8 m c r n hs hb hc⟩
    · show (pushes s ps).out = _
      rw [p1]; simp [brings, codedOf]
    · intro k t qs h
      simp at h
      rw [hd, h.1, h.2.1]
  · exact ⟨rfl, rfl, rfl, rfl, by simp [brings, codedOf], fun _ => rfl, fun _ _ _ h => by simp at h, fun _ _ _ _ h _ _ => h⟩

/-- A subscriber that works goes on. -/
theorem serve_step {m : Mode} {B : Nat} {e : Env} (hmw : m ≠ .weak) {b cid : Nat} {s s' : St} {v : Ev} {o : List Out} {r : Reader} {n : List Note} (hg : Good m B s)
    (h : step e s v = some (s', o)) (h1 : isStart v = false) (h2 : isStop v = false) (h3 : about cid v = false) (hr : r ∈ s.readers)
    (hc : r.cid = cid) (hw : r.status = .work) (hs : Serve m b s.out s.near r n) (hb : b ≤ s.out.length) :
    ∃ r' ∈ s'.readers, r'.cid = cid ∧ r'.status = .work ∧ r'.whole = r.whole ∧ r'.zip = r.zip ∧ r'.head = r.head ∧
      Serve m b s'.out s'.near r' (n ++ got cid [o]) := by
  have hpub : ((∃ k t d, v = .pub k t d) ∨ ∃ p, v = .zpub p) → _ := fun hv => publish_facts hv hg h
  have hbd := hg.bound r hr
  cases v with
  | start d => cases h1
  | stop l => cases h2
  | keys x =>
    dsimp only [step] at h
    unfold setKeys at h
    cases x with
    | none => cases h
    | some x => cases h; exact ⟨r, hr, hc, hw, rfl, rfl, rfl, by rw [got_answer, List.append_nil]; exact hs⟩
  | sdbs x =>
    dsimp only [step] at h
    unfold setSdbs at h
    split at h
    · cases h
    · cases x with
      | none => cases h
      | some x =>
        dsimp only at h
        cases hcv : e.conv x with
        | none => rw [hcv] at h; cases h; exact ⟨r, hr, hc, hw, rfl, rfl, rfl, by rw [got_answer, List.append_nil]; exact hs⟩
        | some t => rw [hcv] at h; cases h; exact ⟨r, hr, hc, hw, rfl, rfl, rfl, by rw [got_answer, List.append_nil]; exact hs⟩
  | pub _ _ _ =>
    obtain ⟨s1, x, o1, hwi, ⟨z, rfl, _⟩, g1, g2, g3, g4, g5, g6, g7⟩ := hpub (Or.inl ⟨_, _, _, rfl⟩)
    obtain ⟨f1, f2, f3, f4, f5, f6, f7, f8, f9, f10, f11⟩ := writeInit_facts hg.count hwi
    have hmem : r ∈ s1.readers ∧ got cid [o1] = [] := by
      cases x with
      | false => rw [(f10 rfl).1, (f10 rfl).2]; exact ⟨hr, rfl⟩
      | true =>
        obtain ⟨_, _, q2, _, _, K, T, _, ho⟩ := f11 rfl
        have hne : r.status ≠ .init := by rw [hw]; simp
        refine ⟨by rw [q2]; exact List.mem_map.2 ⟨r, hr, started_of hne⟩, ?_⟩
        rw [ho, (got_flatMap cid _ (startNotes_send e s.date K T) s.readers hg.nodup).1 r hr hc]
        unfold startNotes
        rw [if_neg hne]; rfl
    refine ⟨r, by rw [g1]; exact hmem.1, hc, hw, rfl, rfl, rfl, ?_⟩
    rw [got1_append, hmem.2, got_answer, List.append_nil, List.append_nil]
    exact g7 m b r n (by rw [f1, f2]; exact hs) (by rw [f1]; exact hbd) (by rw [f1]; exact hb)
  | zpub _ =>
    obtain ⟨s1, x, o1, hwi, ⟨z, rfl, _⟩, g1, g2, g3, g4, g5, g6, g7⟩ := hpub (Or.inr ⟨_, rfl⟩)
    obtain ⟨f1, f2, f3, f4, f5, f6, f7, f8, f9, f10, f11⟩ := writeInit_facts hg.count hwi
    have hmem : r ∈ s1.readers ∧ got cid [o1] = [] := by
      cases x with
      | false => rw [(f10 rfl).1, (f10 rfl).2]; exact ⟨hr, rfl⟩
      | true =>
        obtain ⟨_, _, q2, _, _, K, T, _, ho⟩ := f11 rfl
        have hne : r.status ≠ .init := by rw [hw]; simp
        refine ⟨by rw [q2]; exact List.mem_map.2 ⟨r, hr, started_of hne⟩, ?_⟩
        rw [ho, (got_flatMap cid _ (startNotes_send e s.date K T) s.readers hg.nodup).1 r hr hc]
        unfold startNotes
        rw [if_neg hne]; rfl
    refine ⟨r, by rw [g1]; exact hmem.1, hc, hw, rfl, rfl, rfl, ?_⟩
    rw [got1_append, hmem.2, got_answer, List.append_nil, List.append_nil]
    exact g7 m b r n (by rw [f1, f2]; exact hs) (by rw [f1]; exact hbd) (by rw [f1]; exact hb)
  | pack ps =>
    obtain ⟨a1, _, _, _, a5, a6, _, a8⟩ := pack_facts s ps
    simp only [step, Option.some.injEq] at h
    rw [show s' = (pack s ps).1 from by rw [h], show o = (pack s ps).2 from by rw [h]]
    refine ⟨r, by rw [a1]; exact hr, hc, hw, rfl, rfl, rfl, ?_⟩
    rw [a6, List.append_nil]
    exact a8 m b r n hs hbd hb
  | sub a =>
    obtain ⟨a1, a2, _, _, _, _, a7, a8, _⟩ := sub_facts s a
    have hne : r.cid ≠ a.cid := by
      intro heq
      simp [about, ← heq, hc] at h3
    have e1 : s' = (sub s a).1 := by simp only [step, Option.some.injEq] at h; rw [h]
    have e2 : o = (sub s a).2 := by simp only [step, Option.some.injEq] at h; rw [h]
    subst e1 e2
    refine ⟨r, a8 r hr hne, hc, hw, rfl, rfl, rfl, ?_⟩
    rw [a7, a1, a2, got_answer, List.append_nil]
    exact hs
  | unsub c =>
    have hne : r.cid ≠ c := by
      intro heq
      simp [about, ← heq, hc] at h3
    obtain ⟨a1, a2, _⟩ := remove_same s c
    cases h
    refine ⟨r, remove_mem hr hne, hc, hw, rfl, rfl, rfl, ?_⟩
    rw [a1, a2, got_answer, List.append_nil]
    exact hs
  | shed =>
    cases h
    have hsh : (shed e s).out = s.out ∧ (shed e s).near = s.near ∧ (shed e s).readers = s.readers := by
      unfold shed; split <;> exact ⟨rfl, rfl, rfl⟩
    rw [hsh.1, hsh.2.1, hsh.2.2]
    exact ⟨r, hr, hc, hw, rfl, rfl, rfl, by rw [show got cid [[]] = [] from rfl, List.append_nil]; exact hs⟩
  | read c =>
    dsimp only [step] at h
    unfold read at h
    cases hf : s.readers.find? (fun r => decide (r.cid = c)) with
    | none =>
      rw [hf] at h
      simp only [Option.some.injEq, Prod.mk.injEq] at h
      obtain ⟨rfl, rfl⟩ := h
      exact ⟨r, hr, hc, hw, rfl, rfl, rfl, by rw [show got cid [[]] = [] from rfl, List.append_nil]; exact hs⟩
    | some q =>
      rw [hf] at h
      obtain ⟨hq, hqc⟩ := find_mem hf
      simp only [Option.map_eq_some_iff, Prod.mk.injEq] at h
      obtain ⟨⟨q', ns⟩, hx, rfl, rfl⟩ := h
      obtain ⟨a1, a2, a3, a4, a5, a6, a7, a8, a9⟩ := readOne_facts hg.room hx
      by_cases hcc : c = cid
      · have hrq : q = r := mem_unique hg.nodup hq hr (by rw [hqc, hcc, hc])
        subst hrq
        refine ⟨q', List.mem_map.2 ⟨q, hr, by rw [if_pos hqc]⟩, by rw [a1, hc], by rw [a3, hw], a4, a5, a6, ?_⟩
        rw [got_sends, if_pos hc]
        exact serve_read hs hg hmw hx
      · refine ⟨r, List.mem_map.2 ⟨r, hr, by rw [if_neg (by rw [hc]; exact fun h => hcc h.symm)]⟩, hc, hw, rfl, rfl, rfl, ?_⟩
        rw [got_sends, if_neg (by rw [hqc]; exact hcc), List.append_nil]
        exact hs

/-- The packets of an event are put behind those before. -/
theorem stream_step {m : Mode} {B : Nat} {e : Env} {s s' : St} {v : Ev} {o : List Out} (hg : Good m B s)
    (h : step e s v = some (s', o)) (h1 : isStart v = false) : s'.out = s.out ++ brings v o := by
  have hpub : ((∃ k t d, v = .pub k t d) ∨ ∃ p, v = .zpub p) → _ := fun hv => publish_facts hv hg h
  cases v with
  | start d => cases h1
  | stop l =>
    simp only [step, Option.some.injEq] at h
    unfold stop at h
    split at h
    · cases h; simp [brings, codedOf]
    · dsimp only at h
      have hz : ∀ (rs : List Reader) (d : Nat), (rs.flatMap (stopNote d)).flatMap codedOf = [] := by
        intro rs d
        rw [List.flatMap_eq_nil_iff]
        intro y hy
        obtain ⟨r, _, hr⟩ := List.mem_flatMap.1 hy
        obtain ⟨_, _, rfl⟩ := stopNote_send d r y hr
        rfl
      cases hd : s.dict with
      | none =>
        rw [hd] at h
        cases h
        unfold brings
        dsimp only
        rw [List.flatMap_append, List.flatMap_append, hz]
        simp [codedOf]
      | some d =>
        rw [hd] at h
        cases h
        unfold brings
        dsimp only
        rw [List.flatMap_append, List.flatMap_append, hz, (pushes_facts l _).1]
        simp [codedOf]
  | keys x =>
    dsimp only [step] at h
    unfold setKeys at h
    cases x with
    | none => cases h
    | some x => cases h; simp [brings, codedOf]
  | sdbs x =>
    dsimp only [step] at h
    unfold setSdbs at h
    split at h
    · cases h
    · cases x with
      | none => cases h
      | some x =>
        dsimp only at h
        cases hcv : e.conv x with
        | none => rw [hcv] at h; cases h; simp [brings, codedOf]
        | some t => rw [hcv] at h; cases h; simp [brings, codedOf]
  | pub _ _ _ =>
    obtain ⟨_, _, _, _, _, _, _, _, _, g5, _⟩ := hpub (Or.inl ⟨_, _, _, rfl⟩)
    exact g5
  | zpub _ =>
    obtain ⟨_, _, _, _, _, _, _, _, _, g5, _⟩ := hpub (Or.inr ⟨_, rfl⟩)
    exact g5
  | pack ps =>
    obtain ⟨_, _, _, _, a5, _⟩ := pack_facts s ps
    simp only [step, Option.some.injEq] at h
    rw [show s' = (pack s ps).1 from by rw [h], show o = (pack s ps).2 from by rw [h]]
    exact a5
  | sub a =>
    obtain ⟨a1, _, _, _, _, _, a7, _⟩ := sub_facts s a
    simp only [step, Option.some.injEq] at h
    rw [show s' = (sub s a).1 from by rw [h], show o = (sub s a).2 from by rw [h], a1, a7]
    simp [brings, codedOf]
  | unsub c =>
    obtain ⟨a1, _⟩ := remove_same s c
    cases h
    rw [a1]; simp [brings, codedOf]
  | shed =>
    cases h
    have hsh : (shed e s).out = s.out := by unfold shed; split <;> rfl
    rw [hsh]
    simp [brings, codedOf]
  | read c =>
    dsimp only [step] at h
    unfold read at h
    cases hf : s.readers.find? (fun r => decide (r.cid = c)) with
    | none =>
      rw [hf] at h
      cases h
      simp [brings, codedOf]
    | some q =>
      rw [hf] at h
      simp only [Option.map_eq_some_iff, Prod.mk.injEq] at h
      obtain ⟨⟨q', ns⟩, hx, rfl, rfl⟩ := h
      unfold brings
      dsimp only
      rw [List.flatMap_eq_nil_iff.2]
      · simp
      · intro y hy
        obtain ⟨n, _, rfl⟩ := List.mem_map.1 hy
        rfl

/-! Histories -/

theorem run_cons {e : Env} {s s' : St} {v : Ev} {vs : List Ev} {outs : List (List Out)} :
    run e s (v :: vs) = some (s', outs) ↔ ∃ s1 o os, step e s v = some (s1, o) ∧ run e s1 vs = some (s', os) ∧ outs = o :: os := by
  constructor
  · intro h
    simp only [run, Option.bind_eq_some_iff, Option.map_eq_some_iff, Prod.mk.injEq] at h
    obtain ⟨⟨s1, o⟩, h1, ⟨s2, os⟩, h2, rfl, rfl⟩ := h
    exact ⟨s1, o, os, h1, h2, rfl⟩
  · rintro ⟨s1, o, os, h1, h2, rfl⟩
    simp [run, h1, h2]

theorem run_append {e : Env} {a b : List Ev} : ∀ {s s' : St} {outs : List (List Out)},
    run e s (a ++ b) = some (s', outs) ↔ ∃ s1 o1 o2, run e s a = some (s1, o1) ∧ run e s1 b = some (s', o2) ∧ outs = o1 ++ o2 := by
  induction a with
  | nil =>
    intro s s' outs
    constructor
    · intro h; exact ⟨s, [], outs, rfl, h, rfl⟩
    · rintro ⟨s1, o1, o2, h1, h2, rfl⟩
      cases h1
      exact h2
  | cons v a ih =>
    intro s s' outs
    rw [List.cons_append, run_cons]
    constructor
    · rintro ⟨s1, o, os, h1, h2, rfl⟩
      obtain ⟨s2, o1, o2, h3, h4, rfl⟩ := ih.1 h2
      exact ⟨s2, o :: o1, o2, run_cons.2 ⟨s1, o, o1, h1, h3, rfl⟩, h4, rfl⟩
    · rintro ⟨s2, o1, o2, h1, h2, rfl⟩
      obtain ⟨s1, o, os, h3, h4, rfl⟩ := run_cons.1 h1
      exact ⟨s1, o, os ++ o2, h3, ih.2 ⟨s2, os, o2, h4, h2, rfl⟩, rfl⟩

theorem run_length {e : Env} {a : List Ev} : ∀ {s s' : St} {outs : List (List Out)}, run e s a = some (s', outs) → outs.length = a.length := by
  induction a with
  | nil => intro s s' outs h; cases h; rfl
  | cons v a ih =>
    intro s s' outs h
    obtain ⟨s1, o, os, h1, h2, rfl⟩ := run_cons.1 h
    simp [ih h2]

theorem good_run {m : Mode} {B : Nat} {e : Env} (hk : m = .all → e.keep = true) {a : List Ev} : ∀ {s s' : St} {outs : List (List Out)}, Good m B s →
    (m = .part → ∀ v ∈ a, isStart v = false) → run e s a = some (s', outs) → Good m B s' := by
  induction a with
  | nil => intro s s' outs hg _ h; cases h; exact hg
  | cons v a ih =>
    intro s s' outs hg hno h
    obtain ⟨s1, o, os, h1, h2, rfl⟩ := run_cons.1 h
    exact ih (good_step hk hg h1 (fun hm => hno hm v (by simp))) (fun hm v hv => hno hm v (by simp [hv])) h2

theorem stream_run {m : Mode} {B : Nat} {e : Env} (hk : m = .all → e.keep = true) {a : List Ev} : ∀ {s s' : St} {outs : List (List Out)}, Good m B s →
    (∀ v ∈ a, isStart v = false) → run e s a = some (s', outs) → s'.out = s.out ++ stream a outs := by
  induction a with
  | nil => intro s s' outs hg _ h; cases h; simp [stream]
  | cons v a ih =>
    intro s s' outs hg hno h
    obtain ⟨s1, o, os, h1, h2, rfl⟩ := run_cons.1 h
    rw [ih (good_step hk hg h1 (fun _ => hno v (by simp))) (fun v hv => hno v (by simp [hv])) h2, stream_step hg h1 (hno v (by simp))]
    simp [stream]

end Sis.Snodb
