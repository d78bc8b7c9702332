import Verif.Snodb.SnodbDay
/-
Lemmas about the stream of a day: where subscribers come from, how they get to the end, and what they are told.
-/
namespace Sis.Snodb
open Sis

theorem begins_iff (p : Bytes) : begins p = true ↔ Begins p := by
  have key : ∀ n : Fin 256, ((UInt8.ofNat n.val) &&& 0x80 != 0) = decide (128 ≤ n.val) := by decide +kernel
  have hb : ∀ b : UInt8, (b &&& 0x80 != 0) = decide (128 ≤ b.toNat) := by
    intro b
    have := key ⟨b.toNat, b.toNat_lt⟩
    simpa using this
  unfold Begins
  cases p with
  | nil => simp [begins]
  | cons b r =>
    unfold begins
    dsimp only
    rw [hb]
    simp

theorem begins_false (p : Bytes) : begins p = false ↔ ¬ Begins p := by
  rw [← begins_iff]; simp

theorem run_split {e : Env} {s s' : St} {a b : List Ev} {o1 o2 : List (List Out)} (h : run e s (a ++ b) = some (s', o1 ++ o2))
    (hl : o1.length = a.length) : ∃ s1, run e s a = some (s1, o1) ∧ run e s1 b = some (s', o2) := by
  obtain ⟨s1, x1, x2, h1, h2, h3⟩ := run_append.1 h
  obtain ⟨rfl, rfl⟩ := List.append_inj h3 (by rw [hl, run_length h1])
  exact ⟨s1, h1, h2⟩

theorem run_head {e : Env} {s s' : St} {v : Ev} {a : List Ev} {o : List Out} {os : List (List Out)} (h : run e s (v :: a) = some (s', o :: os)) :
    ∃ s1, step e s v = some (s1, o) ∧ run e s1 a = some (s', os) := by
  obtain ⟨s1, x, xs, h1, h2, h3⟩ := run_cons.1 h
  cases h3
  exact ⟨s1, h1, h2⟩

/-- A subscriber is what its subscription says. -/
def From (x : Ask) (r : Reader) : Prop :=
  r.cid = x.cid ∧ r.zip = x.zip ∧ r.head = x.head ∧ ∃ k t, x.parts = some (k, t) ∧ r.keys = k ∧ r.sdbs = t ∧ r.whole = (decide (k = [42]) && decide (t = [42]))

theorem from_of {x : Ask} {r q : Reader} (h : From x q) (h1 : r.cid = q.cid) (h2 : r.whole = q.whole) (h3 : r.zip = q.zip) (h4 : r.head = q.head)
    (h5 : r.keys = q.keys) (h6 : r.sdbs = q.sdbs) : From x r := by
  obtain ⟨a, b, c, k, t, d1, d2, d3, d4⟩ := h
  exact ⟨h1.trans a, h3.trans b, h4.trans c, k, t, d1, h5.trans d2, h6.trans d3, h2.trans d4⟩

theorem started_same (r : Reader) : (started r).whole = r.whole ∧ (started r).zip = r.zip ∧ (started r).head = r.head ∧ (started r).keys = r.keys ∧
    (started r).sdbs = r.sdbs := by
  unfold started; split <;> exact ⟨rfl, rfl, rfl, rfl, rfl⟩

theorem origin_step {B : Nat} {e : Env} {s s' : St} {v : Ev} {o : List Out} (hg : Good .weak B s) (h : step e s v = some (s', o)) (P : Ask → Prop)
    (hP : ∀ r ∈ s.readers, ∃ x, P x ∧ From x r) (hv : ∀ x, v = .sub x → P x) : ∀ r ∈ s'.readers, ∃ x, P x ∧ From x r := by
  intro r hr
  by_cases h1 : isStart v = true
  · cases v with
    | start d =>
      cases h
      obtain ⟨q, hq, rfl⟩ := List.mem_map.1 hr
      split at hq
      · obtain ⟨z, hz, rfl⟩ := List.mem_map.1 hq
        obtain ⟨x, hx, hf⟩ := hP z hz
        exact ⟨x, hx, from_of hf rfl rfl rfl rfl rfl rfl⟩
      · obtain ⟨x, hx, hf⟩ := hP q hq
        exact ⟨x, hx, from_of hf rfl rfl rfl rfl rfl rfl⟩
    | _ => cases h1
  · by_cases h2 : isStop v = true
    · cases v with
      | stop l =>
        simp only [step, Option.some.injEq] at h
        obtain ⟨_, _, _, _, _, _, f7⟩ := stop_facts h
        obtain ⟨q, hq, a1, a2, a3, a4, a5, a6⟩ := f7 r hr
        obtain ⟨x, hx, hf⟩ := hP q hq
        exact ⟨x, hx, from_of hf a1 a2 a3 a4 a5 a6⟩
      | _ => cases h2
    · by_cases hp : (∃ k t d, v = .pub k t d) ∨ ∃ p, v = .zpub p
      · obtain ⟨s1, b, o1, hwi, _, g1, _⟩ := publish_facts hp hg h
        obtain ⟨_, _, _, _, _, _, _, _, _, f10, f11⟩ := writeInit_facts hg.count hwi
        rw [g1] at hr
        cases b with
        | false => rw [(f10 rfl).1] at hr; exact hP r hr
        | true =>
          rw [(f11 rfl).2.2.1] at hr
          obtain ⟨q, hq, rfl⟩ := List.mem_map.1 hr
          obtain ⟨x, hx, hf⟩ := hP q hq
          obtain ⟨a1, a2, a3, a4, a5⟩ := started_same q
          exact ⟨x, hx, from_of hf (started_cid q) a1 a2 a3 a4 a5⟩
      · obtain ⟨_, _, q3, _⟩ := quiet_step hg h (by simpa using h1) (by simpa using h2) hp
        rcases q3 r hr with ⟨q, hq, a1, a2, a3, a4, a5, a6⟩ | ⟨a, k, t, hva, hpa, rfl⟩
        · obtain ⟨x, hx, hf⟩ := hP q hq
          exact ⟨x, hx, from_of hf a1.symm a2.symm a3.symm a4.symm a5.symm a6.symm⟩
        · exact ⟨a, hv a hva, rfl, rfl, rfl, k, t, hpa, rfl, rfl, rfl⟩

theorem origin_run {B : Nat} {e : Env} {a : List Ev} (P : Ask → Prop) : ∀ {s s' : St} {outs : List (List Out)}, Good .weak B s →
    run e s a = some (s', outs) → (∀ r ∈ s.readers, ∃ x, P x ∧ From x r) → (∀ x, .sub x ∈ a → P x) → ∀ r ∈ s'.readers, ∃ x, P x ∧ From x r := by
  induction a with
  | nil => intro s s' outs hg h hP _; cases h; exact hP
  | cons v a ih =>
    intro s s' outs hg h hP hv
    obtain ⟨s1, o, os, h1, h2, rfl⟩ := run_cons.1 h
    exact ih (good_step (fun h => by cases h) hg h1 (fun h => by cases h)) h2
      (origin_step hg h1 P hP fun x hx => hv x (by simp [hx])) fun x hx => hv x (by simp [hx])

/-! Between the end of a day and the next one -/

theorem closed_step {B : Nat} {e : Env} {s s' : St} {v : Ev} {o : List Out} (hg : Good .weak B s) (h : step e s v = some (s', o))
    (h1 : isPub v = false ∨ s.status = .none) (hc : ∀ r ∈ s.readers, r.cursor = .closed) : ∀ r ∈ s'.readers, r.cursor = .closed := by
  intro r hr
  cases v with
  | keys x =>
    dsimp only [step] at h
    unfold setKeys at h
    cases x with
    | none => cases h
    | some x => cases h; exact hc r hr
  | sdbs x =>
    dsimp only [step] at h
    unfold setSdbs at h
    split at h
    · cases h
    · cases x with
      | none => cases h
      | some x =>
        dsimp only at h
        cases hcv : e.conv x with
        | none => rw [hcv] at h; cases h; exact hc r hr
        | some t => rw [hcv] at h; cases h; exact hc r hr
  | start d =>
    cases h
    obtain ⟨q, hq, rfl⟩ := List.mem_map.1 hr
    split at hq
    · obtain ⟨z, hz, rfl⟩ := List.mem_map.1 hq
      have := hc z hz
      simp [cleared, this]
    · exact hc q hq
  | stop l =>
    have hg' := good_step (fun h => by cases h) hg h (fun h => by cases h)
    simp only [step, Option.some.injEq] at h
    obtain ⟨_, _, f3, _⟩ := stop_facts h
    rcases f3 with rfl | f3
    · exact hc r hr
    · exact hg'.halt r hr (f3 r hr)
  | pub k t d =>
    rcases h1 with h1 | h1
    · cases h1
    · obtain ⟨s1, b, o1, hwi, _, g1, _⟩ := publish_facts (Or.inl ⟨k, t, d, rfl⟩) hg h
      unfold writeInit at hwi
      rw [if_pos h1] at hwi
      cases hwi
      rw [g1] at hr
      exact hc r hr
  | zpub p =>
    rcases h1 with h1 | h1
    · cases h1
    · obtain ⟨s1, b, o1, hwi, _, g1, _⟩ := publish_facts (Or.inr ⟨p, rfl⟩) hg h
      unfold writeInit at hwi
      rw [if_pos h1] at hwi
      cases hwi
      rw [g1] at hr
      exact hc r hr
  | pack ps =>
    simp only [step, Option.some.injEq] at h
    rw [show s' = (pack s ps).1 from by rw [h], (pack_facts s ps).1] at hr
    exact hc r hr
  | sub a =>
    obtain ⟨_, _, _, _, _, _, _, _, a9, _⟩ := sub_facts s a
    simp only [step, Option.some.injEq] at h
    rw [show s' = (sub s a).1 from by rw [h]] at hr
    rcases a9 r hr with h4 | ⟨k, t, _, rfl⟩
    · exact hc r h4
    · rfl
  | unsub c => cases h; exact hc r (mem_remove hr)
  | shed =>
    cases h
    have : (shed e s).readers = s.readers := by unfold shed; split <;> rfl
    rw [this] at hr
    exact hc r hr
  | read c =>
    dsimp only [step] at h
    unfold read at h
    cases hf : s.readers.find? (fun r => decide (r.cid = c)) with
    | none => rw [hf] at h; cases h; exact hc r hr
    | some q =>
      rw [hf] at h
      obtain ⟨hq, hqc⟩ := find_mem hf
      simp only [Option.map_eq_some_iff, Prod.mk.injEq] at h
      obtain ⟨⟨q', ns⟩, hx, rfl, rfl⟩ := h
      obtain ⟨_, _, _, _, _, _, a7, _⟩ := readOne_facts hg.room hx
      obtain ⟨z, hz, rfl⟩ := List.mem_map.1 hr
      split
      · rw [(a7 (hc q hq)).1]; exact hc q hq
      · exact hc z hz

theorem none_step {B : Nat} {e : Env} {s s' : St} {v : Ev} {o : List Out} (hg : Good .weak B s) (h : step e s v = some (s', o)) (h1 : isStart v = false)
    (hs : s.status = .none) : s'.status = .none := by
  cases v with
  | start d => cases h1
  | keys x =>
    dsimp only [step] at h
    unfold setKeys at h
    cases x with
    | none => cases h
    | some x => cases h; exact hs
  | sdbs x =>
    dsimp only [step] at h
    unfold setSdbs at h
    split at h
    · cases h
    · cases x with
      | none => cases h
      | some x =>
        dsimp only at h
        cases hcv : e.conv x with
        | none => rw [hcv] at h; cases h; exact hs
        | some t => rw [hcv] at h; cases h; exact hs
  | stop l =>
    dsimp only [step] at h
    unfold stop at h
    rw [if_pos hs] at h
    cases h
    exact hs
  | pub k t d =>
    obtain ⟨s1, b, o1, hwi, _, _, _, _, g4, _⟩ := publish_facts (Or.inl ⟨k, t, d, rfl⟩) hg h
    unfold writeInit at hwi
    rw [if_pos hs] at hwi
    cases hwi
    rw [g4]; exact hs
  | zpub p =>
    obtain ⟨s1, b, o1, hwi, _, _, _, _, g4, _⟩ := publish_facts (Or.inr ⟨p, rfl⟩) hg h
    unfold writeInit at hwi
    rw [if_pos hs] at hwi
    cases hwi
    rw [g4]; exact hs
  | pack ps =>
    simp only [step, Option.some.injEq] at h
    unfold pack at h
    rw [hs] at h
    cases h
    first | rfl | exact hs
  | sub a =>
    obtain ⟨_, _, _, _, _, a6, _⟩ := sub_facts s a
    simp only [step, Option.some.injEq] at h
    rw [show s' = (sub s a).1 from by rw [h], a6]; exact hs
  | unsub c => cases h; rw [(remove_same s c).2.2.2.2.2]; exact hs
  | shed => cases h; unfold shed; split <;> exact hs
  | read c =>
    dsimp only [step] at h
    unfold read at h
    cases hf : s.readers.find? (fun r => decide (r.cid = c)) with
    | none => rw [hf] at h; cases h; exact hs
    | some q =>
      rw [hf] at h
      simp only [Option.map_eq_some_iff, Prod.mk.injEq] at h
      obtain ⟨⟨q', ns⟩, hx, rfl, rfl⟩ := h
      exact hs

theorem none_run {B : Nat} {e : Env} {a : List Ev} : ∀ {s s' : St} {outs : List (List Out)}, Good .weak B s → run e s a = some (s', outs) →
    (∀ v ∈ a, isStart v = false) → s.status = .none → s'.status = .none := by
  induction a with
  | nil => intro s s' outs hg h _ hs; cases h; exact hs
  | cons v a ih =>
    intro s s' outs hg h hno hs
    obtain ⟨s1, o, os, h1, h2, rfl⟩ := run_cons.1 h
    exact ih (good_step (fun h => by cases h) hg h1 (fun h => by cases h)) h2 (fun v hv => hno v (by simp [hv])) (none_step hg h1 (hno v (by simp)) hs)

theorem closed_run {B : Nat} {e : Env} {a : List Ev} : ∀ {s s' : St} {outs : List (List Out)}, Good .weak B s → run e s a = some (s', outs) →
    (∀ v ∈ a, isPub v = false) → (∀ r ∈ s.readers, r.cursor = .closed) → ∀ r ∈ s'.readers, r.cursor = .closed := by
  induction a with
  | nil => intro s s' outs hg h _ hs; cases h; exact hs
  | cons v a ih =>
    intro s s' outs hg h hno hs
    obtain ⟨s1, o, os, h1, h2, rfl⟩ := run_cons.1 h
    exact ih (good_step (fun h => by cases h) hg h1 (fun h => by cases h)) h2 (fun v hv => hno v (by simp [hv])) (closed_step hg h1 (Or.inl (hno v (by simp))) hs)

/-- A list that keeps nothing: the day starts while nobody reads. -/
theorem good_part {e : Env} (hk : e.keep = false) {s : St} (hg : Good .weak 0 s) (hc : ∀ r ∈ s.readers, r.cursor = .closed) (d : Nat) :
    Good .part s.out.length (start e s d).1 := by
  have hg' := good_step (e := e) (v := .start d) (fun h => by cases h) hg rfl (fun h => by cases h)
  have e1 : (start e s d).1.out = s.out := by unfold start; simp [hk]
  have e2 : (start e s d).1.near = none := rfl
  refine ⟨hg'.nodup, hg'.bound, hg'.room, by rw [e1]; exact Nat.le_refl _, fun h => absurd rfl h, fun _ => ?_, fun h => (by cases h), hg'.halt, hg'.born, ?_,
    hg'.count⟩
  · rw [e1, e2]
    refine ⟨fun j h => (by cases h), fun i p hi hp => ?_⟩
    have := (List.getElem?_eq_some_iff.1 hp).1
    omega
  · intro _ r hr _
    exact Or.inl (closed_step (v := .start d) hg rfl (Or.inl rfl) hc r hr)

/-! Getting to the end -/

theorem serve_run {m : Mode} {B : Nat} {e : Env} (hmw : m ≠ .weak) (hk : m = .all → e.keep = true) {b cid : Nat} {a : List Ev} :
    ∀ {s s' : St} {outs : List (List Out)} {r : Reader} {n : List Note}, Good m B s → run e s a = some (s', outs) →
    (∀ v ∈ a, isStart v = false ∧ isStop v = false ∧ about cid v = false) → r ∈ s.readers → r.cid = cid → r.status = .work → Serve m b s.out s.near r n →
    b ≤ s.out.length → ∃ r' ∈ s'.readers, r'.cid = cid ∧ r'.status = .work ∧ r'.whole = r.whole ∧ r'.zip = r.zip ∧ r'.head = r.head ∧
      Serve m b s'.out s'.near r' (n ++ got cid outs) := by
  induction a with
  | nil =>
    intro s s' outs r n hg h _ hr hc hw hs _
    cases h
    exact ⟨r, hr, hc, hw, rfl, rfl, rfl, by simpa [got] using hs⟩
  | cons v a ih =>
    intro s s' outs r n hg h hno hr hc hw hs hb
    obtain ⟨s1, o, os, h1, h2, rfl⟩ := run_cons.1 h
    obtain ⟨n1, n2, n3⟩ := hno v (by simp)
    obtain ⟨r1, hr1, hc1, hw1, x1, x2, x3, hs1⟩ := serve_step hmw hg h1 n1 n2 n3 hr hc hw hs hb
    have hout := stream_step hg h1 n1
    obtain ⟨r2, hr2, hc2, hw2, y1, y2, y3, hs2⟩ := ih (good_step hk hg h1 (fun _ => n1)) h2 (fun v hv => hno v (by simp [hv])) hr1 hc1 hw1 hs1
      (by rw [hout, List.length_append]; omega)
    refine ⟨r2, hr2, hc2, hw2, y1.trans x1, y2.trans x2, y3.trans x3, ?_⟩
    rw [got_cons, ← List.append_assoc]
    exact hs2

/-- How far a subscriber has to go. -/
def dist (n : Nat) : Cursor → Nat
  | .pos k => n - k
  | .fresh => n + 1
  | .lost => 1
  | .closed => 0

theorem drain {e : Env} (hk : e.keep = true) {cid n : Nat} : ∀ {s s' : St} {outs : List (List Out)} {r : Reader}, Good .all 0 s →
    run e s (List.replicate n (.read cid)) = some (s', outs) → r ∈ s.readers → r.cid = cid → r.cursor ≠ .closed → dist s.out.length r.cursor ≤ n →
    s'.out = s.out ∧ ∃ r' ∈ s'.readers, r'.cid = cid ∧ r'.cursor = .pos s.out.length := by
  induction n with
  | zero =>
    intro s s' outs r hg h hr hc hne hd
    cases h
    refine ⟨rfl, r, hr, hc, ?_⟩
    cases hcur : r.cursor with
    | closed => exact absurd hcur hne
    | fresh => rw [hcur] at hd; simp [dist] at hd
    | lost => rw [hcur] at hd; simp [dist] at hd
    | pos k =>
      rw [hcur] at hd
      simp only [dist] at hd
      have := hg.bound r hr k hcur
      have : k = s.out.length := by omega
      rw [this]
  | succ n ih =>
    intro s s' outs r hg h hr hc hne hd
    rw [List.replicate_succ] at h
    obtain ⟨s1, o, os, h1, h2, rfl⟩ := run_cons.1 h
    have hg1 := good_step (m := .all) (fun _ => hk) hg h1 (fun h => by cases h)
    dsimp only [step] at h1
    unfold read at h1
    rw [show s.readers.find? (fun q => decide (q.cid = cid)) = some r from by rw [← hc]; exact find_of_mem hg.nodup hr] at h1
    simp only [Option.map_eq_some_iff, Prod.mk.injEq] at h1
    obtain ⟨⟨q', ns⟩, hx, rfl, rfl⟩ := h1
    obtain ⟨a1, _⟩ := readOne_facts hg.room hx
    have hmem : q' ∈ s.readers.map (fun q => if q.cid = cid then q' else q) := List.mem_map.2 ⟨r, hr, by rw [if_pos hc]⟩
    have hgone := hg.gone rfl
    have hcur : q'.cursor ≠ .closed ∧ dist s.out.length q'.cursor ≤ n := by
      unfold readOne at hx
      cases hcur : r.cursor with
      | closed => exact absurd hcur hne
      | lost => rw [hcur] at hx; cases hx
      | fresh =>
        rw [hcur] at hx hd
        cases hx
        simp only [dist] at hd
        refine ⟨by simp, ?_⟩
        simp only [dist]
        omega
      | pos k =>
        rw [hcur] at hx hd
        simp only [dist] at hd
        dsimp only at hx
        cases ho : s.out[k]? with
        | some p =>
          rw [ho] at hx
          cases hx
          refine ⟨by simp, ?_⟩
          simp only [dist]
          omega
        | none =>
          rw [ho] at hx
          have := List.getElem?_eq_none_iff.1 ho
          dsimp only at hx
          split at hx
          · cases hx
            rw [hcur]
            refine ⟨by simp, ?_⟩
            simp only [dist]
            omega
          · cases hx
            refine ⟨by simp, ?_⟩
            simp only [dist]
            omega
    obtain ⟨i1, i2⟩ := ih hg1 h2 hmem (a1.trans hc) hcur.1 hcur.2
    exact ⟨i1, i2⟩

/-- A message of a start comes from publishing. -/
theorem start_pub {m : Mode} {B : Nat} {e : Env} {s s' : St} {v : Ev} {o : List Out} (hg : Good m B s) (h : step e s v = some (s', o)) {cid d : Nat}
    (hm : .start d ∈ got cid [o]) : (∃ k t d, v = .pub k t d) ∨ ∃ p, v = .zpub p := by
  by_cases hv : (∃ k t d, v = .pub k t d) ∨ ∃ p, v = .zpub p
  · exact hv
  exfalso
  by_cases h1 : isStart v = true
  · cases v with
    | start d =>
      cases h
      rw [got_answer] at hm
      simp at hm
    | _ => cases h1
  · by_cases h2 : isStop v = true
    · cases v with
      | stop l =>
        simp only [step, Option.some.injEq] at h
        obtain ⟨_, _, _, f4, _⟩ := stop_facts h
        obtain ⟨_, h5⟩ := f4 cid _ hm
        cases h5
      | _ => cases h2
    · obtain ⟨_, _, _, q4⟩ := quiet_step hg h (by simpa using h1) (by simpa using h2) hv
      rcases q4 with ⟨c, rfl⟩ | ⟨hgo, _⟩
      · dsimp only [step] at h
        unfold read at h
        cases hf : s.readers.find? (fun r => decide (r.cid = c)) with
        | none => rw [hf] at h; cases h; simp [got] at hm
        | some q =>
          rw [hf] at h
          simp only [Option.map_eq_some_iff, Prod.mk.injEq] at h
          obtain ⟨⟨q', ns⟩, hx, rfl, rfl⟩ := h
          rw [got_sends] at hm
          split at hm
          · unfold readOne at hx
            split at hx
            · cases hx; simp at hm
            · cases hx
            · cases hx; simp at hm
            · split at hx
              · cases hx
                unfold deliver at hm
                dsimp only at hm
                split at hm
                · split at hm
                  · split at hm <;> simp at hm
                  · simp at hm
                · simp at hm
              · split at hx <;> cases hx <;> simp at hm
          · simp at hm
      · rw [hgo] at hm
        simp at hm

/-! What is set -/

def keysOf (s : St) : Ev → Slot
  | .keys (some b) => .val b
  | _ => s.keys

def sdbsOf (e : Env) (s : St) : Ev → Slot
  | .sdbs (some b) => (match e.conv b with | some t => .val t | none => .freed)
  | _ => s.sdbs

theorem texts_step {B : Nat} {e : Env} {s s' : St} {v : Ev} {o : List Out} (hg : Good .weak B s) (h : step e s v = some (s', o)) :
    s'.keys = keysOf s v ∧ s'.sdbs = sdbsOf e s v := by
  cases v with
  | start d => cases h; exact ⟨rfl, rfl⟩
  | stop l =>
    simp only [step, Option.some.injEq] at h
    obtain ⟨a1, a2, _⟩ := stop_facts h
    exact ⟨a1, a2⟩
  | keys x =>
    dsimp only [step] at h
    unfold setKeys at h
    cases x with
    | none => cases h
    | some x => cases h; exact ⟨rfl, rfl⟩
  | sdbs x =>
    dsimp only [step] at h
    unfold setSdbs at h
    split at h
    · cases h
    · cases x with
      | none => cases h
      | some x =>
        dsimp only at h
        cases hcv : e.conv x with
        | none => rw [hcv] at h; cases h; exact ⟨rfl, by simp [sdbsOf, hcv]⟩
        | some t => rw [hcv] at h; cases h; exact ⟨rfl, by simp [sdbsOf, hcv]⟩
  | pub k t d =>
    obtain ⟨s1, b, o1, hwi, _, _, g2, g3, _⟩ := publish_facts (Or.inl ⟨k, t, d, rfl⟩) hg h
    obtain ⟨_, _, _, _, _, _, f7, f8, _⟩ := writeInit_facts hg.count hwi
    exact ⟨g2.trans f7, g3.trans f8⟩
  | zpub p =>
    obtain ⟨s1, b, o1, hwi, _, _, g2, g3, _⟩ := publish_facts (Or.inr ⟨p, rfl⟩) hg h
    obtain ⟨_, _, _, _, _, _, f7, f8, _⟩ := writeInit_facts hg.count hwi
    exact ⟨g2.trans f7, g3.trans f8⟩
  | pack ps =>
    obtain ⟨_, a2, a3, _⟩ := pack_facts s ps
    simp only [step, Option.some.injEq] at h
    rw [show s' = (pack s ps).1 from by rw [h]]
    exact ⟨a2, a3⟩
  | sub a =>
    obtain ⟨_, _, a3, a4, _⟩ := sub_facts s a
    simp only [step, Option.some.injEq] at h
    rw [show s' = (sub s a).1 from by rw [h]]
    exact ⟨a3, a4⟩
  | unsub c =>
    obtain ⟨_, _, a3, a4, _⟩ := remove_same s c
    cases h
    exact ⟨a3, a4⟩
  | shed =>
    cases h
    unfold shed
    split <;> exact ⟨rfl, rfl⟩
  | read c =>
    dsimp only [step] at h
    unfold read at h
    cases hf : s.readers.find? (fun r => decide (r.cid = c)) with
    | none => rw [hf] at h; cases h; exact ⟨rfl, rfl⟩
    | some q =>
      rw [hf] at h
      simp only [Option.map_eq_some_iff, Prod.mk.injEq] at h
      obtain ⟨⟨q', ns⟩, hx, rfl, rfl⟩ := h
      exact ⟨rfl, rfl⟩

theorem lastKeys_snoc (vs : List Ev) (v : Ev) : lastKeys (vs ++ [v]) = match v with | .keys (some b) => some b | _ => lastKeys vs := by
  unfold lastKeys; rw [List.foldl_append]; rfl

theorem lastSdbs_snoc (vs : List Ev) (v : Ev) : lastSdbs (vs ++ [v]) = match v with | .sdbs (some b) => some b | _ => lastSdbs vs := by
  unfold lastSdbs; rw [List.foldl_append]; rfl

theorem lastKeys_other (vs : List Ev) {v : Ev} (h : ∀ b, v = .keys (some b) → False) : lastKeys (vs ++ [v]) = lastKeys vs := by
  rw [lastKeys_snoc]
  cases v with
  | keys x => cases x with
    | none => rfl
    | some b => exact absurd rfl (h b)
  | _ => rfl

theorem lastSdbs_other (vs : List Ev) {v : Ev} (h : ∀ b, v = .sdbs (some b) → False) : lastSdbs (vs ++ [v]) = lastSdbs vs := by
  rw [lastSdbs_snoc]
  cases v with
  | sdbs x => cases x with
    | none => rfl
    | some b => exact absurd rfl (h b)
  | _ => rfl

theorem texts_run {e : Env} {a pre : List Ev} : ∀ {s s' : St} {outs : List (List Out)}, Good .weak 0 s → run e s a = some (s', outs) →
    ((∀ K, s.keys = .val K → lastKeys pre = some K) ∧ ∀ T, s.sdbs = .val T → ∃ b, lastSdbs pre = some b ∧ e.conv b = some T) →
    ((∀ K, s'.keys = .val K → lastKeys (pre ++ a) = some K) ∧ ∀ T, s'.sdbs = .val T → ∃ b, lastSdbs (pre ++ a) = some b ∧ e.conv b = some T) := by
  induction a generalizing pre with
  | nil => intro s s' outs hg h hi; cases h; simpa using hi
  | cons v a ih =>
    intro s s' outs hg h hi
    obtain ⟨s1, o, os, h1, h2, rfl⟩ := run_cons.1 h
    obtain ⟨t1, t2⟩ := texts_step hg h1
    have := ih (pre := pre ++ [v]) (good_step (fun h => by cases h) hg h1 (fun h => by cases h)) h2 ?_
    · simpa using this
    · constructor
      · intro K hK
        rw [t1] at hK
        unfold keysOf at hK
        split at hK
        · cases hK; exact lastKeys_snoc _ _
        · rename_i hne
          rw [lastKeys_other pre hne]
          exact hi.1 K hK
      · intro T hT
        rw [t2] at hT
        unfold sdbsOf at hT
        split at hT
        · rename_i b
          cases hcv : e.conv b with
          | none => rw [hcv] at hT; cases hT
          | some t => rw [hcv] at hT; cases hT; exact ⟨b, lastSdbs_snoc _ _, hcv⟩
        · rename_i hne
          rw [lastSdbs_other pre hne]
          exact hi.2 T hT

/-! Who is told -/

theorem told_init {B : Nat} {e : Env} {s s' : St} {v : Ev} {o : List Out} (hg : Good .weak B s) (h : step e s v = some (s', o))
    (hv : (∃ k t d, v = .pub k t d) ∨ ∃ p, v = .zpub p) (ho : .answer true ∈ o) {q : Reader} (hq : q ∈ s.readers) (hi : q.status = .init) :
    ∃ d, .start d ∈ got q.cid [o] := by
  obtain ⟨s1, b, o1, hwi, ⟨x, rfl, hx⟩, _⟩ := publish_facts hv hg h
  obtain ⟨_, _, _, _, _, _, _, _, _, f10, f11⟩ := writeInit_facts hg.count hwi
  cases b with
  | false =>
    rw [(f10 rfl).2] at ho
    simp only [List.nil_append, List.mem_singleton, Out.answer.injEq] at ho
    exact absurd (hx ho.symm) (by simp)
  | true =>
    obtain ⟨_, _, _, _, _, k, t, _, ho1⟩ := f11 rfl
    refine ⟨s.date, ?_⟩
    rw [got1_append]
    refine List.mem_append_left _ ?_
    rw [ho1]
    unfold got
    simp only [List.flatten_cons, List.flatten_nil, List.append_nil, List.mem_filterMap, List.mem_flatMap]
    exact ⟨.send q.cid q.serial (.start s.date), ⟨q, hq, by unfold startNotes; rw [if_pos hi]; simp⟩, by simp⟩

/-- Of the subscribers of a connection: none is stopped, and who works was told of the start. -/
def Told (cid : Nat) (s : St) (ns : List Note) : Prop :=
  ∀ r ∈ s.readers, r.cid = cid → r.status ≠ .stop ∧ (r.status = .work → ∃ d, .start d ∈ ns)

theorem told_step {B : Nat} {e : Env} {s s' : St} {v : Ev} {o : List Out} {cid : Nat} {ns : List Note} (hg : Good .weak B s) (h : step e s v = some (s', o))
    (h1 : isStart v = false) (h2 : isStop v = false) (ht : Told cid s ns) : Told cid s' (ns ++ got cid [o]) := by
  have mono : ∀ {q : Reader}, (q.status = .work → ∃ d, .start d ∈ ns) → q.status = .work → ∃ d, .start d ∈ ns ++ got cid [o] := by
    intro q h1 h2
    obtain ⟨d, hd⟩ := h1 h2
    exact ⟨d, List.mem_append_left _ hd⟩
  intro r hr hc
  by_cases hp : (∃ k t d, v = .pub k t d) ∨ ∃ p, v = .zpub p
  · obtain ⟨s1, b, o1, hwi, ⟨x, ho, hx⟩, g1, _⟩ := publish_facts hp hg h
    obtain ⟨_, _, _, _, _, _, _, _, _, f10, f11⟩ := writeInit_facts hg.count hwi
    rw [g1] at hr
    cases b with
    | false =>
      rw [(f10 rfl).1] at hr
      exact ⟨(ht r hr hc).1, mono (ht r hr hc).2⟩
    | true =>
      obtain ⟨_, _, g2, _, _, k, t, _, ho1⟩ := f11 rfl
      rw [g2] at hr
      obtain ⟨q, hq, rfl⟩ := List.mem_map.1 hr
      rw [started_cid] at hc
      by_cases hi : q.status = .init
      · refine ⟨by unfold started; rw [if_pos hi]; simp, fun _ => ⟨s.date, List.mem_append_right _ ?_⟩⟩
        rw [ho, got1_append]
        refine List.mem_append_left _ ?_
        rw [ho1]
        unfold got
        simp only [List.flatten_cons, List.flatten_nil, List.append_nil, List.mem_filterMap, List.mem_flatMap]
        exact ⟨.send q.cid q.serial (.start s.date), ⟨q, hq, by unfold startNotes; rw [if_pos hi]; simp⟩, by simp [hc]⟩
      · have : started q = q := by unfold started; rw [if_neg hi]
        rw [this]
        exact ⟨(ht q hq hc).1, mono (ht q hq hc).2⟩
  · obtain ⟨q1, _, _, _⟩ := quiet_step hg h h1 h2 hp
    rcases q1 r hr with hi | ⟨q, hq, hqc, hqs⟩
    · exact ⟨by rw [hi]; simp, fun h => by rw [hi] at h; cases h⟩
    · have := ht q hq (hqc.trans hc)
      rw [← hqs]
      exact ⟨this.1, mono this.2⟩

theorem told_run {B : Nat} {e : Env} {cid : Nat} {a : List Ev} : ∀ {s s' : St} {outs : List (List Out)} {ns : List Note}, Good .weak B s →
    run e s a = some (s', outs) → (∀ v ∈ a, isStart v = false ∧ isStop v = false) → Told cid s ns → Told cid s' (ns ++ got cid outs) := by
  induction a with
  | nil => intro s s' outs ns hg h _ ht; cases h; simpa [got] using ht
  | cons v a ih =>
    intro s s' outs ns hg h hno ht
    obtain ⟨s1, o, os, h1, h2, rfl⟩ := run_cons.1 h
    rw [got_cons, ← List.append_assoc]
    exact ih (good_step (fun h => by cases h) hg h1 (fun h => by cases h)) h2 (fun v hv => hno v (by simp [hv]))
      (told_step hg h1 (hno v (by simp)).1 (hno v (by simp)).2 ht)

theorem here_run {B : Nat} {e : Env} {cid : Nat} {a : List Ev} : ∀ {s s' : St} {outs : List (List Out)}, Good .weak B s →
    run e s a = some (s', outs) → (∀ v ∈ a, isStart v = false ∧ isStop v = false ∧ about cid v = false) → (∃ r ∈ s.readers, r.cid = cid) →
    ∃ r ∈ s'.readers, r.cid = cid := by
  induction a with
  | nil => intro s s' outs hg h _ ht; cases h; exact ht
  | cons v a ih =>
    intro s s' outs hg h hno ht
    obtain ⟨s1, o, os, h1, h2, rfl⟩ := run_cons.1 h
    obtain ⟨n1, n2, n3⟩ := hno v (by simp)
    refine ih (good_step (fun h => by cases h) hg h1 (fun h => by cases h)) h2 (fun v hv => hno v (by simp [hv])) ?_
    obtain ⟨r, hr, hc⟩ := ht
    by_cases hp : (∃ k t d, v = .pub k t d) ∨ ∃ p, v = .zpub p
    · obtain ⟨s2, b, o1, hwi, _, g1, _⟩ := publish_facts hp hg h1
      obtain ⟨_, _, _, _, _, _, _, _, _, f10, f11⟩ := writeInit_facts hg.count hwi
      rw [g1]
      cases b with
      | false => rw [(f10 rfl).1]; exact ⟨r, hr, hc⟩
      | true =>
        rw [(f11 rfl).2.2.1]
        exact ⟨started r, List.mem_map_of_mem hr, (started_cid r).trans hc⟩
    · obtain ⟨_, q2, _⟩ := quiet_step hg h1 n1 n2 hp
      exact q2 cid n3 r hr hc

theorem told_what {B : Nat} {e : Env} {s s' : St} {v : Ev} {o : List Out} {cid d : Nat} (hg : Good .weak B s) (h : step e s v = some (s', o))
    (hv : (∃ k t d, v = .pub k t d) ∨ ∃ p, v = .zpub p) (hm : .start d ∈ got cid [o]) :
    ∃ K T q k t, s.keys = .val K ∧ s.sdbs = .val T ∧ q ∈ s.readers ∧ q.cid = cid ∧ got cid [o] = [.start d, .keys k, .sdbs t] ∧
      k = (if q.whole then K else e.pickKeys q.keys K) ∧ t = (if q.whole then T else e.pickSdbs q.sdbs T) := by
  obtain ⟨s1, b, o1, hwi, ⟨x, rfl, hx⟩, _⟩ := publish_facts hv hg h
  obtain ⟨_, _, _, _, _, _, _, _, _, f10, f11⟩ := writeInit_facts hg.count hwi
  have hgo : got cid [o1 ++ [.answer x]] = got cid [o1] := by rw [got1_append, got_answer, List.append_nil]
  rw [hgo] at hm ⊢
  cases b with
  | false => rw [(f10 rfl).2] at hm; simp [got] at hm
  | true =>
    obtain ⟨_, _, _, _, _, k, t, hkt, ho1⟩ := f11 rfl
    rw [ho1] at hm ⊢
    have hmem := hm
    unfold got at hmem
    simp only [List.flatten_cons, List.flatten_nil, List.append_nil, List.mem_filterMap, List.mem_flatMap] at hmem
    obtain ⟨z, ⟨q, hq, hz⟩, hz2⟩ := hmem
    have hi : q.status = .init := by
      refine Decidable.byContradiction fun hi => ?_
      unfold startNotes at hz
      rw [if_neg hi] at hz
      cases hz
    have hc : q.cid = cid := by
      unfold startNotes at hz
      rw [if_pos hi] at hz
      simp only [List.mem_cons, List.not_mem_nil, or_false] at hz
      rcases hz with rfl | rfl | rfl <;> (dsimp only at hz2; split at hz2 <;> first | assumption | cases hz2)
    obtain ⟨a1, a2⟩ := hkt ⟨q, hq, hi⟩
    have := (got_flatMap cid _ (startNotes_send e s.date k t) s.readers hg.nodup).1 q hq hc
    rw [this, ← hc, startNotes_got e s.date k t q hi] at hm ⊢
    have hd : d = s.date := by simpa using hm
    subst hd
    exact ⟨k, t, q, _, _, a1, a2, hq, rfl, rfl, rfl, rfl⟩

/-! The compressor -/

theorem dict_step {B : Nat} {e : Env} {s s' : St} {v : Ev} {o : List Out} (hg : Good .weak B s) (h : step e s v = some (s', o)) :
    (s'.dict = s.dict ∨ s'.dict = none ∨ ((∃ k t d, v = .pub k t d) ∧ ∃ a b, s.keys = .val a ∧ s.sdbs = .val b ∧ s'.dict = some (a, b))) ∧
    ∀ k t qs, .coded k t qs ∈ o → s.dict = some (k, t) := by
  have pubc : ∀ {s1 : St} {b : Bool} {o1 : List Out} {x : Bool} {k t : Bytes} {qs : List Bytes}, writeInit e s = some (s1, b, o1) →
      .coded k t qs ∈ o1 ++ [Out.answer x] → False := by
    intro s1 b o1 x k t qs hwi hc
    obtain ⟨_, _, _, _, _, _, _, _, _, f10, f11⟩ := writeInit_facts hg.count hwi
    rcases List.mem_append.1 hc with hc | hc
    · cases b with
      | false => rw [(f10 rfl).2] at hc; cases hc
      | true =>
        obtain ⟨_, _, _, _, _, k, t, _, ho1⟩ := f11 rfl
        rw [ho1] at hc
        obtain ⟨q, _, hq⟩ := List.mem_flatMap.1 hc
        unfold startNotes at hq
        split at hq <;> simp at hq
    · simp at hc
  cases v with
  | start d => cases h; exact ⟨Or.inl rfl, fun k t qs h => by simp at h⟩
  | stop l =>
    simp only [step, Option.some.injEq] at h
    obtain ⟨_, _, _, _, a5, a6, _⟩ := stop_facts h
    exact ⟨a5.imp id Or.inl, a6⟩
  | keys x =>
    dsimp only [step] at h
    unfold setKeys at h
    cases x with
    | none => cases h
    | some x => cases h; exact ⟨Or.inl rfl, fun k t qs h => by simp at h⟩
  | sdbs x =>
    dsimp only [step] at h
    unfold setSdbs at h
    split at h
    · cases h
    · cases x with
      | none => cases h
      | some x =>
        dsimp only at h
        cases hcv : e.conv x with
        | none => rw [hcv] at h; cases h; exact ⟨Or.inl rfl, fun k t qs h => by simp at h⟩
        | some t => rw [hcv] at h; cases h; exact ⟨Or.inl rfl, fun k t qs h => by simp at h⟩
  | pub k t d =>
    obtain ⟨s1, b, o1, hwi, ⟨x, rfl, _⟩, _, _, _, _, _, g6, _⟩ := publish_facts (Or.inl ⟨k, t, d, rfl⟩) hg h
    obtain ⟨_, _, _, f4, _, _, f7, f8, _⟩ := writeInit_facts hg.count hwi
    refine ⟨?_, fun k t qs hc => (pubc hwi hc).elim⟩
    rcases g6 with g6 | ⟨a, b, b1, b2, _, b4⟩
    · exact Or.inl (g6.trans f4)
    · exact Or.inr (Or.inr ⟨⟨k, t, d, rfl⟩, a, b, f7.symm.trans b1, f8.symm.trans b2, b4⟩)
  | zpub p =>
    obtain ⟨s1, b, o1, hwi, ⟨x, rfl, _⟩, _⟩ := publish_facts (Or.inr ⟨p, rfl⟩) hg h
    obtain ⟨_, _, _, f4, _⟩ := writeInit_facts hg.count hwi
    refine ⟨Or.inl ?_, fun k t qs hc => (pubc hwi hc).elim⟩
    dsimp only [step] at h
    unfold zpub at h
    rw [hwi] at h
    cases b with
    | false =>
      simp only [Option.some.injEq, Prod.mk.injEq] at h
      rw [← h.1]; exact f4
    | true =>
      simp only [Option.some.injEq, Prod.mk.injEq] at h
      rw [← h.1, ← f4]
      unfold push
      split <;> rfl
  | pack ps =>
    obtain ⟨_, _, _, a4, _, _, a7, _⟩ := pack_facts s ps
    simp only [step, Option.some.injEq] at h
    rw [show s' = (pack s ps).1 from by rw [h], show o = (pack s ps).2 from by rw [h]]
    exact ⟨Or.inl a4, a7⟩
  | sub a =>
    obtain ⟨_, _, _, _, a5, _, a7, _⟩ := sub_facts s a
    simp only [step, Option.some.injEq] at h
    rw [show s' = (sub s a).1 from by rw [h], show o = (sub s a).2 from by rw [h], a7]
    exact ⟨Or.inl a5, fun k t qs h => by simp at h⟩
  | unsub c =>
    obtain ⟨_, _, _, _, a5, _⟩ := remove_same s c
    cases h
    exact ⟨Or.inl a5, fun k t qs h => by simp at h⟩
  | shed =>
    cases h
    refine ⟨Or.inl ?_, fun k t qs h => by simp at h⟩
    unfold shed
    split <;> rfl
  | read c =>
    dsimp only [step] at h
    unfold read at h
    cases hf : s.readers.find? (fun r => decide (r.cid = c)) with
    | none => rw [hf] at h; cases h; exact ⟨Or.inl rfl, fun k t qs h => by simp at h⟩
    | some q =>
      rw [hf] at h
      simp only [Option.map_eq_some_iff, Prod.mk.injEq] at h
      obtain ⟨⟨q', ns⟩, hx, rfl, rfl⟩ := h
      exact ⟨Or.inl rfl, fun k t qs h => by simp at h⟩

theorem nodict_run {B : Nat} {e : Env} {a : List Ev} : ∀ {s s' : St} {outs : List (List Out)}, Good .weak B s →
    run e s a = some (s', outs) → (∀ v ∈ a, isPub v = false) → s.dict = none → s'.dict = none ∧ ∀ o ∈ outs, ∀ k t ps, .coded k t ps ∉ o := by
  induction a with
  | nil => intro s s' outs hg h _ hd; cases h; exact ⟨hd, fun o ho => by cases ho⟩
  | cons v a ih =>
    intro s s' outs hg h hno hd
    obtain ⟨s1, o, os, h1, h2, rfl⟩ := run_cons.1 h
    obtain ⟨g1, g2⟩ := dict_step hg h1
    obtain ⟨i1, i2⟩ := ih (good_step (fun h => by cases h) hg h1 (fun h => by cases h)) h2 (fun v hv => hno v (by simp [hv])) (by
      rcases g1 with g1 | g1 | ⟨⟨k, t, d, rfl⟩, _⟩
      · exact g1.trans hd
      · exact g1
      · have := hno (.pub k t d) (by simp)
        cases this)
    refine ⟨i1, fun o' ho' => ?_⟩
    rcases List.mem_cons.1 ho' with rfl | ho'
    · intro k t ps hc
      rw [hd] at g2
      exact absurd (g2 k t ps hc) (by simp)
    · exact i2 o' ho'

theorem dict_run {B : Nat} {e : Env} {a : List Ev} : ∀ {s s' : St} {outs : List (List Out)}, Good .weak B s →
    run e s a = some (s', outs) → (∀ v ∈ a, (∀ b, v ≠ .keys b) ∧ ∀ b, v ≠ .sdbs b) → (∀ k t, s.dict = some (k, t) → s.keys = .val k ∧ s.sdbs = .val t) →
    ∀ o ∈ outs, ∀ k t ps, .coded k t ps ∈ o → s.keys = .val k ∧ s.sdbs = .val t := by
  induction a with
  | nil => intro s s' outs hg h _ hd o ho; cases h; cases ho
  | cons v a ih =>
    intro s s' outs hg h hno hd
    obtain ⟨s1, o, os, h1, h2, rfl⟩ := run_cons.1 h
    obtain ⟨g1, g2⟩ := dict_step hg h1
    obtain ⟨t1, t2⟩ := texts_step hg h1
    obtain ⟨n1, n2⟩ := hno v (by simp)
    have k1 : s1.keys = s.keys := by
      rw [t1]; unfold keysOf; split
      · rename_i b; exact absurd rfl (n1 (some b))
      · rfl
    have k2 : s1.sdbs = s.sdbs := by
      rw [t2]; unfold sdbsOf; split
      · rename_i b; exact absurd rfl (n2 (some b))
      · rfl
    have i := ih (good_step (fun h => by cases h) hg h1 (fun h => by cases h)) h2 (fun v hv => hno v (by simp [hv])) (by
      intro k t hkt
      rw [k1, k2]
      rcases g1 with g1 | g1 | ⟨_, a', b', c1, c2, c3⟩
      · exact hd k t (g1.symm.trans hkt)
      · rw [g1] at hkt; cases hkt
      · rw [c3] at hkt; cases hkt; exact ⟨c1, c2⟩)
    rw [k1, k2] at i
    intro o' ho'
    rcases List.mem_cons.1 ho' with rfl | ho'
    · intro k t ps hc
      exact hd k t (g2 k t ps hc)
    · exact i o' ho'

theorem lastKeys_same (a : List Ev) {b : List Ev} (h : ∀ v ∈ b, (∀ x, v ≠ .keys x) ∧ ∀ x, v ≠ .sdbs x) : lastKeys (a ++ b) = lastKeys a := by
  induction b generalizing a with
  | nil => simp
  | cons v b ih =>
    rw [show a ++ v :: b = (a ++ [v]) ++ b from by simp, ih (a ++ [v]) (fun v hv => h v (by simp [hv]))]
    exact lastKeys_other a fun b hb => (h v (by simp)).1 _ hb

theorem lastSdbs_same (a : List Ev) {b : List Ev} (h : ∀ v ∈ b, (∀ x, v ≠ .keys x) ∧ ∀ x, v ≠ .sdbs x) : lastSdbs (a ++ b) = lastSdbs a := by
  induction b generalizing a with
  | nil => simp
  | cons v b ih =>
    rw [show a ++ v :: b = (a ++ [v]) ++ b from by simp, ih (a ++ [v]) (fun v hv => h v (by simp [hv]))]
    exact lastSdbs_other a fun b hb => (h v (by simp)).2 _ hb

/-! Who never gets data -/

theorem nodata_step {B : Nat} {e : Env} {s s' : St} {v : Ev} {o : List Out} {cid : Nat} (hg : Good .weak B s) (h : step e s v = some (s', o))
    (hr : ∀ r ∈ s.readers, r.cid = cid → r.whole = true ∧ r.zip = false) : ∀ n ∈ got cid [o], (∀ p, n ≠ .packet p) ∧ ∀ p, n ≠ .part p := by
  intro n hn
  by_cases h1 : isStart v = true
  · cases v with
    | start d =>
      cases h
      rw [got_answer] at hn
      cases hn
    | _ => cases h1
  · by_cases h2 : isStop v = true
    · cases v with
      | stop l =>
        simp only [step, Option.some.injEq] at h
        obtain ⟨_, _, _, f4, _⟩ := stop_facts h
        obtain ⟨d, rfl⟩ := f4 cid n hn
        exact ⟨fun p => by simp, fun p => by simp⟩
      | _ => cases h2
    · by_cases hp : (∃ k t d, v = .pub k t d) ∨ ∃ p, v = .zpub p
      · obtain ⟨s1, b, o1, hwi, ⟨x, rfl, hx⟩, _⟩ := publish_facts hp hg h
        obtain ⟨_, _, _, _, _, _, _, _, _, f10, f11⟩ := writeInit_facts hg.count hwi
        rw [got1_append, got_answer, List.append_nil] at hn
        cases b with
        | false => rw [(f10 rfl).2] at hn; simp [got] at hn
        | true =>
          obtain ⟨_, _, _, _, _, k, t, _, ho1⟩ := f11 rfl
          rw [ho1] at hn
          unfold got at hn
          simp only [List.flatten_cons, List.flatten_nil, List.append_nil, List.mem_filterMap, List.mem_flatMap] at hn
          obtain ⟨z, ⟨q, hq, hz⟩, hz2⟩ := hn
          unfold startNotes at hz
          split at hz
          · simp only [List.mem_cons, List.not_mem_nil, or_false] at hz
            rcases hz with rfl | rfl | rfl <;>
              (dsimp only at hz2
               split at hz2
               · cases hz2; exact ⟨fun p => by simp, fun p => by simp⟩
               · cases hz2)
          · cases hz
      · obtain ⟨_, _, _, q4⟩ := quiet_step hg h (by simpa using h1) (by simpa using h2) hp
        rcases q4 with ⟨c, rfl⟩ | ⟨hgo, _⟩
        · dsimp only [step] at h
          unfold read at h
          cases hf : s.readers.find? (fun r => decide (r.cid = c)) with
          | none => rw [hf] at h; cases h; simp [got] at hn
          | some q =>
            rw [hf] at h
            obtain ⟨hqm, hqc⟩ := find_mem hf
            simp only [Option.map_eq_some_iff, Prod.mk.injEq] at h
            obtain ⟨⟨q', ns⟩, hx, rfl, rfl⟩ := h
            rw [got_sends] at hn
            split at hn
            · rename_i hcc
              obtain ⟨hw, hz⟩ := hr q hqm hcc
              unfold readOne at hx
              split at hx
              · cases hx; simp at hn
              · cases hx
              · cases hx; simp at hn
              · split at hx
                · cases hx
                  unfold deliver at hn
                  simp [hw, hz] at hn
                · split at hx <;> cases hx
                  · simp at hn
                  · simp at hn; subst hn; exact ⟨fun p => by simp, fun p => by simp⟩
            · simp at hn
        · rw [hgo] at hn
          simp at hn

theorem nodata_run {B : Nat} {e : Env} {cid : Nat} {P : Ask → Prop} (hP : ∀ x, P x → x.cid = cid → x.parts = star ∧ x.zip = false) {a : List Ev} :
    ∀ {s s' : St} {outs : List (List Out)}, Good .weak B s → run e s a = some (s', outs) → (∀ r ∈ s.readers, ∃ x, P x ∧ From x r) → (∀ x, .sub x ∈ a → P x) →
    ∀ n ∈ got cid outs, (∀ p, n ≠ .packet p) ∧ ∀ p, n ≠ .part p := by
  induction a with
  | nil => intro s s' outs hg h _ _ n hn; cases h; simp [got] at hn
  | cons v a ih =>
    intro s s' outs hg h ho hv n hn
    obtain ⟨s1, o, os, h1, h2, rfl⟩ := run_cons.1 h
    rw [got_cons] at hn
    rcases List.mem_append.1 hn with hn | hn
    · refine nodata_step hg h1 ?_ n hn
      intro r hr hc
      obtain ⟨x, hx, f1, f2, _, k, t, f3, _, _, f4⟩ := ho r hr
      obtain ⟨g1, g2⟩ := hP x hx (f1.symm.trans hc)
      rw [f3] at g1
      cases g1
      exact ⟨f4, f2.trans g2⟩
    · exact ih (good_step (fun h => by cases h) hg h1 (fun h => by cases h)) h2
        (origin_step hg h1 P ho fun x hx => hv x (by simp [hx])) (fun x hx => hv x (by simp [hx])) n hn

end Sis.Snodb
