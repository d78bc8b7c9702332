import Verif.Snodb.SnodbServe
/-
Lemmas about the stream of a day: what a connection has been sent since the day started.
-/
namespace Sis.Snodb
open Sis

/-- A packet among the messages comes after a start, and with the packets in between it is a piece of the stream that begins with a block. -/
def Fair (A : List Bytes) (ns : List Note) : Prop :=
  ∀ x p y, ns = x ++ .packet p :: y → ∃ u d k t n, x = u ++ [.start d, .keys k, .sdbs t] ++ n ∧
    (∀ m ∈ n, (∃ p, m = .packet p) ∨ (∃ p, m = .part p) ∨ ∃ d, m = .wait d) ∧ packets n ++ [p] <:+: A ∧
    ∃ f l, packets n ++ [p] = f :: l ∧ begins f = true

/-- What holds of a connection since the day started. -/
structure Day (m : Mode) (B cid : Nat) (s : St) (ns : List Note) : Prop where
  plain : B = 0 ∨ ∀ r ∈ s.readers, r.cid = cid → r.head = false
  works : ∀ r ∈ s.readers, r.cid = cid → r.status = .work → ∃ u d k t n, ns = u ++ [.start d, .keys k, .sdbs t] ++ n ∧ Serve m B s.out s.near r n
  fair : Fair (s.out.drop B) ns

theorem fair_mono {A B : List Bytes} {ns : List Note} (h : Fair A ns) : Fair (A ++ B) ns := by
  intro x p y hx
  obtain ⟨u, d, k, t, n, h1, h2, h3, h4⟩ := h x p y hx
  exact ⟨u, d, k, t, n, h1, h2, h3.trans (List.prefix_append A B).isInfix, h4⟩

theorem fair_append {A : List Bytes} {ns ms : List Note} (h : Fair A ns) (hm : ∀ m ∈ ms, ∀ p, m ≠ .packet p) : Fair A (ns ++ ms) := by
  intro x p y hx
  rcases List.append_eq_append_iff.1 hx with ⟨z, h1, h2⟩ | ⟨z, h1, h2⟩
  · exact absurd rfl (hm (.packet p) (by rw [h2]; simp) p)
  · cases z with
    | nil =>
      rw [List.nil_append] at h2
      exact absurd rfl (hm (.packet p) (by rw [← h2]; simp) p)
    | cons w z =>
      rw [List.cons_append] at h2
      injection h2 with h3 h4
      subst h3
      exact h x p z h1

theorem packets_of {ns : List Note} (h : packets ns = []) : ∀ m ∈ ns, ∀ p, m ≠ .packet p := by
  intro m hm p heq
  subst heq
  unfold packets at h
  rw [List.filterMap_eq_nil_iff] at h
  have := h _ hm
  cases this

/-- The next packet of a subscriber that works. -/
theorem fair_next {m : Mode} {B : Nat} {A : List Bytes} {near : Option Nat} {r r' : Reader} {ns n : List Note} {u : List Note} {d k t p}
    (h : Fair (A.drop B) ns) (h1 : ns = u ++ [.start d, .keys k, .sdbs t] ++ n) (hs : Serve m B A near r n)
    (hs' : Serve m B A near r' (n ++ [.packet p])) (hh : B = 0 ∨ r'.head = false) :
    Fair (A.drop B) (ns ++ [.packet p]) := by
  have hp : packets (n ++ [Note.packet p]) = packets n ++ [p] := by rw [packets_append]; rfl
  have hw : r'.whole = true ∧ r'.zip = true := by
    refine Decidable.byContradiction fun hn => ?_
    have := hs'.part hn
    rw [hp] at this
    simp at this
  have hi : r'.isinit = true := by
    cases hi : r'.isinit with
    | true => rfl
    | false =>
      have := (hs'.waiting hi).1
      rw [hp] at this
      simp at this
  obtain ⟨a, j, g1, g2, g3, g4, ⟨f, g5, g6⟩, _, g8⟩ := hs'.going hi
  have hBa : B ≤ a := by
    rcases hh with h0 | h0
    · omega
    · exact g8 h0
  have key : packets n ++ [p] <:+: A.drop B ∧ ∃ f l, packets n ++ [p] = f :: l ∧ begins f = true := by
    rw [← hp, g4 hw]
    constructor
    · have e1 : (A.take j).drop a = ((A.drop B).take (j - B)).drop (a - B) := by
        rw [List.take_drop, List.drop_drop, show B + (j - B) = j from by omega, show B + (a - B) = a from by omega]
      rw [e1]
      exact (List.drop_suffix _ _).isInfix.trans (List.take_prefix _ _).isInfix
    · have hf : ((A.take j).drop a)[0]? = some f := by
        rw [List.getElem?_drop, List.getElem?_take_of_lt (by omega)]; exact g5
      cases hl : (A.take j).drop a with
      | nil => rw [hl] at hf; cases hf
      | cons f' l =>
        rw [hl] at hf
        cases hf
        exact ⟨f, l, rfl, g6⟩
  intro x q y hx
  rcases List.append_eq_append_iff.1 hx with ⟨z, h2, h3⟩ | ⟨z, h2, h3⟩
  · cases z with
    | nil =>
      rw [List.append_nil] at h2
      simp only [List.nil_append, List.cons.injEq, Note.packet.injEq] at h3
      obtain ⟨h3, -⟩ := h3
      subst h3
      exact ⟨u, d, k, t, n, by rw [h2, h1], hs.only, key⟩
    | cons w z =>
      have := congrArg List.length h3
      simp at this
  · cases z with
    | nil =>
      rw [List.append_nil] at h2
      simp only [List.nil_append, List.cons.injEq, Note.packet.injEq] at h3
      obtain ⟨h3, -⟩ := h3
      subst h3
      exact ⟨u, d, k, t, n, by rw [← h2, h1], hs.only, key⟩
    | cons w z =>
      rw [List.cons_append] at h3
      injection h3 with h4 h5
      subst h4
      exact h x q z h2

theorem serve_started {m : Mode} {B : Nat} {s : St} (hg : Good m B s) (hmw : m ≠ .weak) {q : Reader} (hq : q ∈ s.readers) (hi : q.status = .init) (b : Nat)
    (hb : ∀ j, s.near = some j → b ≤ j) : Serve m b s.out s.near (started q) [] ∧ (started q).status = .work := by
  have he : started q = { q with status := .work, isinit := false, cursor := if q.cursor = .closed then .fresh else q.cursor } := by
    unfold started; rw [if_pos hi]
  rw [he]
  have hpos : ∀ k, (if q.cursor = .closed then Cursor.fresh else q.cursor) = .pos k → m = .all → k = 0 := by
    intro k hk _
    by_cases hc : q.cursor = .closed
    · rw [if_pos hc] at hk; cases hk
    · rw [if_neg hc] at hk
      rcases hg.idle hmw q hq hi with h | h
      · exact absurd h hc
      · have := hg.bound q hq k hk
        rw [h.2.2] at this
        simpa using this
  refine ⟨⟨by simp, fun _ => rfl, ?_, hb, fun _ => ⟨rfl, ?_, ?_⟩, fun h => by cases h⟩, rfl⟩
  · dsimp only
    split
    · simp
    · assumption
  · intro hm _ k j hk _
    rw [hpos k hk hm]; exact Nat.zero_le _
  · intro hm _ k hk i p hik
    rw [hpos k hk hm] at hik
    omega

theorem startNotes_got (e : Env) (d : Nat) (K T : Bytes) (q : Reader) (hi : q.status = .init) :
    got q.cid [startNotes e d K T q] = [.start d, .keys (if q.whole then K else e.pickKeys q.keys K), .sdbs (if q.whole then T else e.pickSdbs q.sdbs T)] := by
  unfold startNotes got
  rw [if_pos hi]
  simp

/-- Publishing, for one connection. -/
theorem publish_conn {m : Mode} {B : Nat} {e : Env} (hmw : m ≠ .weak) {s s' : St} {v : Ev} {o : List Out} (hv : (∃ k t d, v = .pub k t d) ∨ ∃ p, v = .zpub p)
    (hg : Good m B s) (h : step e s v = some (s', o)) (cid b : Nat) (hb : ∀ j, s.near = some j → b ≤ j) (hb2 : b ≤ s.out.length) :
    (∀ m ∈ got cid [o], ∀ p, m ≠ .packet p) ∧
    (got cid [o] ≠ [] → ∃ K T q d k t, s.keys = .val K ∧ s.sdbs = .val T ∧ q ∈ s.readers ∧ q.cid = cid ∧ q.status = .init ∧ got cid [o] = [.start d, .keys k, .sdbs t] ∧
      k = (if q.whole then K else e.pickKeys q.keys K) ∧ t = (if q.whole then T else e.pickSdbs q.sdbs T) ∧ d = s.date ∧
      started q ∈ s'.readers ∧ (started q).status = .work ∧ Serve m b s'.out s'.near (started q) []) ∧
    (∀ q ∈ s.readers, q.cid = cid → q.status = .init → .answer true ∈ o → got cid [o] ≠ []) ∧
    (∀ r ∈ s'.readers, r ∈ s.readers ∨ ∃ q ∈ s.readers, q.status = .init ∧ r = started q ∧ got q.cid [o] ≠ []) ∧
    (∀ q ∈ s.readers, ∃ r ∈ s'.readers, r.cid = q.cid) := by
  obtain ⟨s1, x, o1, hwi, ⟨z, rfl, hz⟩, g1, g2, g3, g4, g5, g6, g7⟩ := publish_facts hv hg h
  obtain ⟨f1, f2, f3, f4, f5, f6, f7, f8, f9, f10, f11⟩ := writeInit_facts hg.count hwi
  have hgo : ∀ c, got c [o1 ++ [.answer z]] = got c [o1] := fun c => by rw [got1_append, got_answer, List.append_nil]
  rw [hgo]
  cases x with
  | false =>
    obtain ⟨rfl, rfl⟩ := f10 rfl
    refine ⟨by simp [got], fun h => absurd rfl h, ?_, fun r hr => Or.inl (by rw [← g1]; exact hr), fun q hq => ⟨q, by rw [g1]; exact hq, rfl⟩⟩
    intro q hq hc hi ha
    simp at ha
    exact absurd (hz ha) (by simp)
  | true =>
    obtain ⟨_, _, q2, _, hkk, K, T, hKT, ho⟩ := f11 rfl
    have hfm := fun c => got_flatMap c _ (startNotes_send e s.date K T) s.readers hg.nodup
    have hcase : ∀ c, got c [o1] = [] ∨ ∃ q ∈ s.readers, q.cid = c ∧ q.status = .init ∧ got c [o1] = got c [startNotes e s.date K T q] := by
      intro c
      rw [ho]
      by_cases hex : ∃ q ∈ s.readers, q.cid = c
      · obtain ⟨q, hq, hqc⟩ := hex
        rw [(hfm c).1 q hq hqc]
        by_cases hi : q.status = .init
        · exact Or.inr ⟨q, hq, hqc, hi, rfl⟩
        · left
          unfold startNotes
          rw [if_neg hi]; rfl
      · left
        exact (hfm c).2 (fun r hr hc => hex ⟨r, hr, hc⟩)
    refine ⟨?_, ?_, ?_, ?_, ?_⟩
    · intro m hm p
      rcases hcase cid with h1 | ⟨q, hq, hqc, hi, h1⟩
      · rw [h1] at hm; simp at hm
      · rw [h1, ← hqc, startNotes_got e s.date K T q hi] at hm
        simp at hm
        rcases hm with rfl | rfl | rfl <;> simp
    · intro hne
      rcases hcase cid with h1 | ⟨q, hq, hqc, hi, h1⟩
      · exact absurd h1 hne
      · obtain ⟨hK, hT⟩ := hKT ⟨q, hq, hi⟩
        rw [← hqc, startNotes_got e s.date K T q hi] at h1
        obtain ⟨hs, hw⟩ := serve_started hg hmw hq hi b hb
        have hmem : started q ∈ s1.readers := by rw [q2]; exact List.mem_map_of_mem hq
        refine ⟨K, T, q, _, _, _, hK, hT, hq, hqc, hi, by rw [← hqc]; exact h1, rfl, rfl, rfl, by rw [g1]; exact hmem, hw, ?_⟩
        refine g7 m b _ _ (by rw [f1, f2]; exact hs) ?_ (by rw [f1]; exact hb2)
        exact (good_writeInit hg hwi).bound _ hmem
    · intro q hq hc hi _
      rw [ho, (hfm cid).1 q hq hc, ← hc, startNotes_got e s.date K T q hi]
      simp
    · intro r hr
      rw [g1, q2] at hr
      obtain ⟨q, hq, rfl⟩ := List.mem_map.1 hr
      by_cases hi : q.status = .init
      · refine Or.inr ⟨q, hq, hi, rfl, ?_⟩
        rw [hgo, ho, (hfm q.cid).1 q hq rfl, startNotes_got e s.date K T q hi]
        simp
      · left; rw [started_of hi]; exact hq
    · intro q hq
      exact ⟨started q, by rw [g1, q2]; exact List.mem_map_of_mem hq, started_cid q⟩

theorem stop_facts {s s' : St} {l : List Bytes} {o : List Out} (h : stop s l = (s', o)) :
    s'.keys = s.keys ∧ s'.sdbs = s.sdbs ∧ (s' = s ∨ ∀ r ∈ s'.readers, r.status = .stop) ∧
    (∀ cid, ∀ m ∈ got cid [o], ∃ d, m = .stop d) ∧ (s'.dict = s.dict ∨ s'.dict = none) ∧ (∀ k t qs, .coded k t qs ∈ o → s.dict = some (k, t)) ∧
    (∀ r ∈ s'.readers, ∃ q ∈ s.readers, r.cid = q.cid ∧ r.whole = q.whole ∧ r.zip = q.zip ∧ r.head = q.head ∧ r.keys = q.keys ∧ r.sdbs = q.sdbs) := by
  have hst : ∀ q : Reader, (stopped q).status = .stop ∧ (stopped q).cid = q.cid ∧ (stopped q).whole = q.whole ∧ (stopped q).zip = q.zip ∧
      (stopped q).head = q.head ∧ (stopped q).keys = q.keys ∧ (stopped q).sdbs = q.sdbs := by
    intro q
    unfold stopped
    split
    · rename_i h; exact ⟨h, rfl, rfl, rfl, rfl, rfl, rfl⟩
    · exact ⟨rfl, rfl, rfl, rfl, rfl, rfl, rfl⟩
  have hkd : ∀ (qs : List Bytes) (s : St), (pushes s qs).keys = s.keys ∧ (pushes s qs).sdbs = s.sdbs := by
    intro qs
    induction qs with
    | nil => intro s; exact ⟨rfl, rfl⟩
    | cons q qs ih =>
      intro s
      obtain ⟨a1, a2⟩ := ih (push s q)
      have : (push s q).keys = s.keys ∧ (push s q).sdbs = s.sdbs := by
        unfold push; split <;> exact ⟨rfl, rfl⟩
      exact ⟨a1.trans this.1, a2.trans this.2⟩
  have hn : ∀ (cid d : Nat) (rs : List Reader) (o1 : List Out), (∀ x ∈ o1, ∀ c y n, x ≠ .send c y n) →
      ∀ m ∈ got cid [o1 ++ rs.flatMap (stopNote d) ++ [.answer true]], ∃ d, m = .stop d := by
    intro cid d rs o1 ho1 m hm
    rw [got1_append, got1_append, got_none ho1, got_answer, List.nil_append, List.append_nil] at hm
    unfold got at hm
    obtain ⟨x, hx, hx2⟩ := List.mem_filterMap.1 hm
    simp at hx
    obtain ⟨r, _, hr⟩ := hx
    unfold stopNote at hr
    split at hr
    · cases hr
    · rw [List.mem_singleton] at hr
      subst hr
      dsimp only at hx2
      split at hx2
      · cases hx2; exact ⟨_, rfl⟩
      · cases hx2
  have hcod : ∀ (d : Nat) (rs : List Reader) (k t : Bytes) qs, Out.coded k t qs ∉ rs.flatMap (stopNote d) ++ [.answer true] := by
    intro d rs k t qs hm
    rcases List.mem_append.1 hm with h1 | h1
    · obtain ⟨r, _, hr⟩ := List.mem_flatMap.1 h1
      obtain ⟨_, _, h2⟩ := stopNote_send d r _ hr
      cases h2
    · simp at h1
  unfold stop at h
  split at h
  · cases h
    refine ⟨rfl, rfl, Or.inl rfl, ?_, Or.inl rfl, fun _ _ _ h => (by simp at h), fun r hr => ⟨r, hr, rfl, rfl, rfl, rfl, rfl, rfl⟩⟩
    intro cid m hm
    rw [got_answer] at hm
    simp at hm
  · dsimp only at h
    cases hd : s.dict with
    | none =>
      rw [hd] at h
      cases h
      refine ⟨rfl, rfl, Or.inr ?_, fun cid => hn cid _ _ [] (by simp), Or.inl rfl, ?_, ?_⟩
      · intro r hr
        obtain ⟨q, _, rfl⟩ := List.mem_map.1 hr
        exact (hst q).1
      · intro k t qs hm
        rw [List.append_assoc, List.nil_append] at hm
        exact absurd hm (hcod _ _ k t qs)
      · intro r hr
        obtain ⟨q, hq, rfl⟩ := List.mem_map.1 hr
        exact ⟨q, hq, (hst q).2⟩
    | some d =>
      rw [hd] at h
      cases h
      obtain ⟨f1, f2, f3, f4, f5, f6, f7, f8⟩ := pushes_facts l { s with inputs := [], dict := some d }
      refine ⟨(hkd l _).1, (hkd l _).2, Or.inr ?_, fun cid => hn cid _ _ _ (by simp), Or.inr rfl, ?_, ?_⟩
      · intro r hr
        obtain ⟨q, _, rfl⟩ := List.mem_map.1 hr
        exact (hst q).1
      · intro k t qs hm
        rw [List.append_assoc] at hm
        rcases List.mem_append.1 hm with h1 | h1
        · simp at h1
          rw [h1.1, h1.2.1]
        · exact absurd h1 (hcod _ _ k t qs)
      · intro r hr
        obtain ⟨q, hq, rfl⟩ := List.mem_map.1 hr
        dsimp only at hq
        rw [f2] at hq
        exact ⟨q, hq, (hst q).2⟩

/-- Before and after an event that does not publish, start or stop, the subscribers are the same, but for those that come and go. -/
theorem quiet_step {m : Mode} {B : Nat} {e : Env} {s s' : St} {v : Ev} {o : List Out} (hg : Good m B s)
    (h : step e s v = some (s', o)) (h1 : isStart v = false) (h2 : isStop v = false)
    (h3 : ¬ ((∃ k t d, v = .pub k t d) ∨ ∃ p, v = .zpub p)) :
    (∀ r ∈ s'.readers, r.status = .init ∨ ∃ q ∈ s.readers, q.cid = r.cid ∧ q.status = r.status) ∧
    (∀ cid, about cid v = false → ∀ q ∈ s.readers, q.cid = cid → ∃ r ∈ s'.readers, r.cid = cid) ∧
    (∀ r ∈ s'.readers, (∃ q ∈ s.readers, q.cid = r.cid ∧ q.whole = r.whole ∧ q.zip = r.zip ∧ q.head = r.head ∧ q.keys = r.keys ∧ q.sdbs = r.sdbs) ∨
      ∃ a k t, v = .sub a ∧ a.parts = some (k, t) ∧ r = reader a k t) ∧
    ((∃ c, v = .read c) ∨ ((∀ cid, got cid [o] = []) ∧ ∀ cid, about cid v = true → ∀ r ∈ s'.readers, r.cid = cid → r.status = .init ∨ r ∈ s.readers)) := by
  have same : s'.readers = s.readers → (∀ r ∈ s'.readers, r.status = .init ∨ ∃ q ∈ s.readers, q.cid = r.cid ∧ q.status = r.status) ∧
      (∀ cid, about cid v = false → ∀ q ∈ s.readers, q.cid = cid → ∃ r ∈ s'.readers, r.cid = cid) ∧
      (∀ r ∈ s'.readers, (∃ q ∈ s.readers, q.cid = r.cid ∧ q.whole = r.whole ∧ q.zip = r.zip ∧ q.head = r.head ∧ q.keys = r.keys ∧ q.sdbs = r.sdbs) ∨
      ∃ a k t, v = .sub a ∧ a.parts = some (k, t) ∧ r = reader a k t) := by
    intro hs
    rw [hs]
    exact ⟨fun r hr => Or.inr ⟨r, hr, rfl, rfl⟩, fun cid _ q hq hc => ⟨q, hq, hc⟩, fun r hr => Or.inl ⟨r, hr, rfl, rfl, rfl, rfl, rfl, rfl⟩⟩
  cases v with
  | start d => cases h1
  | stop l => cases h2
  | pub k t d => exact absurd (Or.inl ⟨_, _, _, rfl⟩) h3
  | zpub p => exact absurd (Or.inr ⟨_, rfl⟩) h3
  | keys x =>
    dsimp only [step] at h
    unfold setKeys at h
    cases x with
    | none => cases h
    | some x =>
      cases h
      obtain ⟨a, b, c⟩ := same rfl
      exact ⟨a, b, c, Or.inr ⟨fun cid => got_answer cid true, fun cid hc => by cases hc⟩⟩
  | sdbs x =>
    dsimp only [step] at h
    unfold setSdbs at h
    split at h
    · cases h
    · cases x with
      | none => cases h
      | some x =>
        dsimp only at h
        cases hcv : e.conv x with
        | none =>
          rw [hcv] at h; cases h
          obtain ⟨a, b, c⟩ := same rfl
          exact ⟨a, b, c, Or.inr ⟨fun cid => got_answer cid _, fun cid hc => by cases hc⟩⟩
        | some t =>
          rw [hcv] at h; cases h
          obtain ⟨a, b, c⟩ := same rfl
          exact ⟨a, b, c, Or.inr ⟨fun cid => got_answer cid _, fun cid hc => by cases hc⟩⟩
  | pack ps =>
    obtain ⟨a1, _, _, _, a5, a6, _, a8⟩ := pack_facts s ps
    simp only [step, Option.some.injEq] at h
    have e1 : s' = (pack s ps).1 := by rw [h]
    have e2 : o = (pack s ps).2 := by rw [h]
    obtain ⟨a, b, c⟩ := same (by rw [e1, a1])
    exact ⟨a, b, c, Or.inr ⟨fun cid => by rw [e2]; exact a6 cid, fun cid hc => by cases hc⟩⟩
  | shed =>
    cases h
    have : (shed e s).readers = s.readers := by unfold shed; split <;> rfl
    obtain ⟨a, b, c⟩ := same this
    exact ⟨a, b, c, Or.inr ⟨fun _ => rfl, fun cid hc => by cases hc⟩⟩
  | sub a =>
    obtain ⟨a1, a2, _, _, _, _, a7, a8, a9, _⟩ := sub_facts s a
    simp only [step, Option.some.injEq] at h
    have e1 : s' = (sub s a).1 := by rw [h]
    have e2 : o = (sub s a).2 := by rw [h]
    rw [e1, e2, a7]
    refine ⟨?_, ?_, ?_, Or.inr ⟨fun cid => got_answer cid true, ?_⟩⟩
    · intro r hr
      rcases a9 r hr with h4 | ⟨k, t, _, rfl⟩
      · exact Or.inr ⟨r, h4, rfl, rfl⟩
      · exact Or.inl rfl
    · intro cid hab q hq hc
      refine ⟨q, a8 q hq ?_, hc⟩
      intro heq
      simp [about, ← heq, hc] at hab
    · intro r hr
      rcases a9 r hr with h4 | ⟨k, t, h4, h5⟩
      · exact Or.inl ⟨r, h4, rfl, rfl, rfl, rfl, rfl, rfl⟩
      · exact Or.inr ⟨a, k, t, rfl, h4, h5⟩
    · intro cid _ r hr _
      rcases a9 r hr with h4 | ⟨k, t, _, rfl⟩
      · exact Or.inr h4
      · exact Or.inl rfl
  | unsub c =>
    cases h
    refine ⟨fun r hr => Or.inr ⟨r, mem_remove hr, rfl, rfl⟩, ?_, fun r hr => Or.inl ⟨r, mem_remove hr, rfl, rfl, rfl, rfl, rfl, rfl⟩,
      Or.inr ⟨fun cid => got_answer cid true, fun cid _ r hr _ => Or.inr (mem_remove hr)⟩⟩
    intro cid hab q hq hc
    refine ⟨q, remove_mem hq ?_, hc⟩
    intro heq
    simp [about, ← heq, hc] at hab
  | read c =>
    dsimp only [step] at h
    unfold read at h
    cases hf : s.readers.find? (fun r => decide (r.cid = c)) with
    | none =>
      rw [hf] at h
      cases h
      obtain ⟨a, b, c'⟩ := same rfl
      exact ⟨a, b, c', Or.inl ⟨c, rfl⟩⟩
    | some q =>
      rw [hf] at h
      obtain ⟨hq, hqc⟩ := find_mem hf
      simp only [Option.map_eq_some_iff, Prod.mk.injEq] at h
      obtain ⟨⟨q', ns⟩, hx, rfl, rfl⟩ := h
      obtain ⟨a1, a2, a3, a4, a5, a6, a7, a8, a9⟩ := readOne_facts hg.room hx
      have akeys : q'.keys = q.keys ∧ q'.sdbs = q.sdbs := by
        unfold readOne at hx
        split at hx
        · cases hx; exact ⟨rfl, rfl⟩
        · cases hx
        · cases hx; exact ⟨rfl, rfl⟩
        · split at hx
          · cases hx; exact ⟨rfl, rfl⟩
          · split at hx <;> cases hx <;> exact ⟨rfl, rfl⟩
      have hm : ∀ r ∈ s.readers.map (fun x => if x.cid = c then q' else x), r = q' ∨ r ∈ s.readers := by
        intro r hr
        obtain ⟨x, hx, rfl⟩ := List.mem_map.1 hr
        split
        · exact Or.inl rfl
        · exact Or.inr hx
      refine ⟨?_, ?_, ?_, Or.inl ⟨c, rfl⟩⟩
      · intro r hr
        rcases hm r hr with rfl | h4
        · exact Or.inr ⟨q, hq, a1.symm, a3.symm⟩
        · exact Or.inr ⟨r, h4, rfl, rfl⟩
      · intro cid _ x hx hc
        refine ⟨if x.cid = c then q' else x, List.mem_map_of_mem hx, ?_⟩
        split
        · rename_i h5; rw [a1, hqc, ← h5, hc]
        · exact hc
      · intro r hr
        refine Or.inl ?_
        rcases hm r hr with rfl | h4
        · exact ⟨q, hq, a1.symm, a4.symm, a5.symm, a6.symm, akeys.1.symm, akeys.2.symm⟩
        · exact ⟨r, h4, rfl, rfl, rfl, rfl, rfl, rfl⟩

theorem day_step {m : Mode} {B : Nat} {e : Env} (hmw : m ≠ .weak) (hk : m = .all → e.keep = true) {cid : Nat} {s s' : St} {v : Ev} {o : List Out}
    {ns : List Note} (hg : Good m B s) (h : step e s v = some (s', o)) (h1 : isStart v = false)
    (hsub : B = 0 ∨ ∀ a, v = .sub a → a.cid = cid → a.head = false) (hd : Day m B cid s ns) : Day m B cid s' (ns ++ got cid [o]) := by
  have hg' := good_step hk hg h (fun _ => h1)
  have hout : s'.out.drop B = s.out.drop B ++ brings v o := by
    rw [stream_step hg h h1, List.drop_append_of_le_length hg.base]
  by_cases h2 : isStop v = true
  · cases v with
    | stop l =>
      simp only [step, Option.some.injEq] at h
      obtain ⟨_, _, f3, f4, _, _, f7⟩ := stop_facts h
      refine ⟨?_, ?_, ?_⟩
      · rcases hd.plain with h0 | h0
        · exact Or.inl h0
        · right
          intro r hr hc
          obtain ⟨q, hq, q1, _, _, q4, _⟩ := f7 r hr
          rw [q4]
          exact h0 q hq (by rw [← q1]; exact hc)
      · rcases f3 with rfl | f3
        · have hgot : got cid [o] = [] := by
            cases hgo : got cid [o] with
            | nil => rfl
            | cons m ms =>
              exfalso
              have h5 := h
              unfold stop at h5
              split at h5
              · cases h5
                rw [got_answer] at hgo
                cases hgo
              · rename_i hst
                have hcur := congrArg (fun x => x.1.readers) h5
                dsimp only at hcur
                obtain ⟨dd, hm⟩ := f4 cid m (by rw [hgo]; simp)
                -- all readers are already stopped, so there is no message
                have hall : ∀ r ∈ s'.readers, r.status = .stop := by
                  intro r hr
                  have hr2 := hr
                  rw [← hcur] at hr2
                  split at hr2
                  · obtain ⟨q, _, rfl⟩ := List.mem_map.1 hr2
                    unfold stopped; split <;> first | assumption | rfl
                  · obtain ⟨q, _, rfl⟩ := List.mem_map.1 hr2
                    unfold stopped; split <;> first | assumption | rfl
                have ho := congrArg (fun x => x.2) h5
                dsimp only at ho
                have hz : ∀ dd (rs : List Reader), (∀ r ∈ rs, r.status = .stop) → rs.flatMap (stopNote dd) = [] := by
                  intro dd rs hrs
                  rw [List.flatMap_eq_nil_iff]
                  intro r hr
                  unfold stopNote
                  rw [if_pos (hrs r hr)]
                split at ho
                · rw [hz _ _ hall] at ho
                  rw [← ho] at hgo
                  cases hgo
                · rw [hz] at ho
                  · rw [← ho] at hgo
                    cases hgo
                  · show ∀ r ∈ (pushes _ l).readers, _
                    rw [(pushes_facts l _).2.1]
                    exact hall
          rw [hgot, List.append_nil]
          exact hd.works
        · intro r hr _ hw
          rw [f3 r hr] at hw
          cases hw
      · rw [hout]
        refine fair_append (fair_mono hd.fair) ?_
        intro m hm p heq
        obtain ⟨d, hm2⟩ := f4 cid m hm
        rw [heq] at hm2
        cases hm2
    | _ => cases h2
  · have h2' : isStop v = false := by simpa using h2
    by_cases hv : (∃ k t d, v = .pub k t d) ∨ ∃ p, v = .zpub p
    · have hab : about cid v = false := by
        rcases hv with ⟨_, _, _, rfl⟩ | ⟨_, rfl⟩ <;> rfl
      obtain ⟨c1, c2, c3, c4, _⟩ := publish_conn hmw hv hg h cid B (fun j hj => ((hg.near hmw).1 j hj).1) hg.base
      refine ⟨?_, ?_, by rw [hout]; exact fair_append (fair_mono hd.fair) c1⟩
      · rcases hd.plain with h0 | h0
        · exact Or.inl h0
        · right
          intro r hr hc
          rcases c4 r hr with h4 | ⟨q, hq, hi, rfl, _⟩
          · exact h0 r h4 hc
          · rw [started_cid] at hc
            have := h0 q hq hc
            unfold started
            rw [if_pos hi]
            exact this
      intro r hr hc hw
      rcases c4 r hr with h4 | ⟨q, hq, hi, rfl, hne⟩
      · obtain ⟨u, d, k, t, n, e1, e2⟩ := hd.works r h4 hc hw
        obtain ⟨r', hr', hc', _, _, _, _, hs'⟩ := serve_step hmw hg h h1 h2' hab h4 hc hw e2 hg.base
        rw [mem_unique hg'.nodup hr hr' (by rw [hc, hc'])]
        exact ⟨u, d, k, t, n ++ got cid [o], by rw [e1]; simp, hs'⟩
      · rw [started_cid] at hc
        rw [hc] at hne
        obtain ⟨K, T, q', d, k, t, _, _, hq', hqc', hi', hgo, _, _, _, hm, _, hs⟩ := c2 hne
        have : q' = q := mem_unique hg.nodup hq' hq (by rw [hqc', hc])
        subst this
        exact ⟨ns, d, k, t, [], by rw [hgo]; simp, hs⟩
    · obtain ⟨q1, q2, q3, q4⟩ := quiet_step hg h h1 h2' hv
      have hplain : B = 0 ∨ ∀ r ∈ s'.readers, r.cid = cid → r.head = false := by
        rcases hd.plain with h0 | h0
        · exact Or.inl h0
        · rcases hsub with h5 | h5
          · exact Or.inl h5
          · right
            intro r hr hc
            rcases q3 r hr with ⟨q, hq, r1, _, _, r4, _⟩ | ⟨a, k, t, hva, _, rfl⟩
            · rw [← r4]; exact h0 q hq (by rw [r1]; exact hc)
            · exact h5 a hva hc
      -- those that work
      have works : about cid v = false → ∀ r ∈ s'.readers, r.cid = cid → r.status = .work →
          ∃ q ∈ s.readers, q.cid = cid ∧ q.status = .work ∧ ∃ u d k t n, ns = u ++ [.start d, .keys k, .sdbs t] ++ n ∧ Serve m B s.out s.near q n ∧
            Serve m B s'.out s'.near r (n ++ got cid [o]) := by
        intro hab r hr hc hw
        rcases q1 r hr with h4 | ⟨q, hq, hqc, hqs⟩
        · rw [hw] at h4; cases h4
        · have hqc2 : q.cid = cid := by rw [hqc, hc]
          have hqw : q.status = .work := by rw [hqs, hw]
          obtain ⟨u, d, k, t, n, e1, e2⟩ := hd.works q hq hqc2 hqw
          obtain ⟨r', hr', hc', _, _, _, _, hs'⟩ := serve_step hmw hg h h1 h2' hab hq hqc2 hqw e2 hg.base
          rw [mem_unique hg'.nodup hr hr' (by rw [hc, hc'])]
          exact ⟨q, hq, hqc2, hqw, u, d, k, t, n, e1, e2, hs'⟩
      rcases q4 with ⟨c, rfl⟩ | ⟨hgo, hstay⟩
      · refine ⟨hplain, ?_, ?_⟩
        · intro r hr hc hw
          obtain ⟨q, _, _, _, u, d, k, t, n, e1, _, e3⟩ := works rfl r hr hc hw
          exact ⟨u, d, k, t, n ++ got cid [o], by rw [e1]; simp, e3⟩
        · have hb : brings (.read c) o = [] := by
            have h5 := h
            dsimp only [step] at h5
            unfold read at h5
            split at h5
            · cases h5; rfl
            · simp only [Option.map_eq_some_iff, Prod.mk.injEq] at h5
              obtain ⟨⟨q', ms⟩, _, _, rfl⟩ := h5
              unfold brings
              rw [List.flatMap_eq_nil_iff]
              intro y hy
              obtain ⟨n, _, rfl⟩ := List.mem_map.1 hy
              rfl
          have hso : s'.out = s.out := by rw [stream_step hg h h1, hb, List.append_nil]
          rw [hb, List.append_nil] at hout
          have h5 := h
          dsimp only [step] at h5
          unfold read at h5
          cases hf : s.readers.find? (fun r => decide (r.cid = c)) with
          | none =>
            rw [hf] at h5
            cases h5
            exact fair_append hd.fair (by simp [got])
          | some q =>
            rw [hf] at h5
            obtain ⟨hq, hqc⟩ := find_mem hf
            simp only [Option.map_eq_some_iff, Prod.mk.injEq] at h5
            obtain ⟨⟨q', ms⟩, hx, he1, he2⟩ := h5
            obtain ⟨a1, a2, a3, a4, a5, a6, a7, a8, a9⟩ := readOne_facts hg.room hx
            rw [← he2, got_sends, hout]
            by_cases hcc : q.cid = cid
            · rw [if_pos hcc]
              -- at most one message
              have hone : ms = [] ∨ ∃ m, ms = [m] := by
                unfold readOne at hx
                split at hx
                · cases hx; exact Or.inl rfl
                · cases hx
                · cases hx; exact Or.inl rfl
                · split at hx
                  · cases hx
                    unfold deliver
                    dsimp only
                    split
                    · split
                      · split
                        · exact Or.inr ⟨_, rfl⟩
                        · exact Or.inl rfl
                      · exact Or.inr ⟨_, rfl⟩
                    · exact Or.inl rfl
                  · split at hx
                    · cases hx; exact Or.inl rfl
                    · cases hx; exact Or.inr ⟨_, rfl⟩
              rcases hone with rfl | ⟨m, rfl⟩
              · rw [List.append_nil]; exact hd.fair
              · by_cases hmp : ∃ p, m = .packet p
                · obtain ⟨p, rfl⟩ := hmp
                  have hw : q.status = .work := by
                    cases hst : q.status with
                    | work => rfl
                    | stop =>
                      have := (a7 (hg.halt q hq hst)).2
                      cases this
                    | init =>
                      rcases hg.idle hmw q hq hst with h6 | h6
                      · have := (a7 h6).2
                        cases this
                      · obtain ⟨d, h7⟩ := a9 h6.2.2 (.packet p) (by simp)
                        cases h7
                  obtain ⟨u, d, k, t, n, e1, e2⟩ := hd.works q hq hcc hw
                  refine fair_next hd.fair e1 e2 (serve_read e2 hg hmw hx) ?_
                  rcases hd.plain with h0 | h0
                  · exact Or.inl h0
                  · right; rw [a6]; exact h0 q hq hcc
                · refine fair_append hd.fair ?_
                  intro x hx2 p hxp
                  rw [List.mem_singleton] at hx2
                  exact hmp ⟨p, by rw [← hx2, hxp]⟩
            · rw [if_neg hcc, List.append_nil]; exact hd.fair
      · rw [hgo cid, List.append_nil]
        refine ⟨hplain, ?_, by rw [hout]; exact fair_mono hd.fair⟩
        intro r hr hc hw
        by_cases hab : about cid v = true
        · rcases hstay cid hab r hr hc with h4 | h4
          · rw [hw] at h4; cases h4
          · obtain ⟨u, d, k, t, n, e1, e2⟩ := hd.works r h4 hc hw
            have hss : s'.out = s.out ∧ s'.near = s.near := by
              cases v with
              | sub a =>
                obtain ⟨a1, a2, _⟩ := sub_facts s a
                simp only [step, Option.some.injEq] at h
                rw [show s' = (sub s a).1 from by rw [h]]
                exact ⟨a1, a2⟩
              | unsub c =>
                obtain ⟨a1, a2, _⟩ := remove_same s c
                cases h
                exact ⟨a1, a2⟩
              | _ => cases hab
            rw [hss.1, hss.2]
            exact ⟨u, d, k, t, n, e1, e2⟩
        · obtain ⟨q, _, _, _, u, d, k, t, n, e1, _, e3⟩ := works (by simpa using hab) r hr hc hw
          rw [hgo cid, List.append_nil] at e3
          exact ⟨u, d, k, t, n, e1, e3⟩

theorem day_run {m : Mode} {B : Nat} {e : Env} (hmw : m ≠ .weak) (hk : m = .all → e.keep = true) {cid : Nat} {a : List Ev} :
    ∀ {s s' : St} {outs : List (List Out)} {ns : List Note}, Good m B s → (∀ v ∈ a, isStart v = false) →
    (B = 0 ∨ ∀ x, .sub x ∈ a → x.cid = cid → x.head = false) → run e s a = some (s', outs) → Day m B cid s ns → Day m B cid s' (ns ++ got cid outs) := by
  induction a with
  | nil => intro s s' outs ns hg _ _ h hd; cases h; simpa [got] using hd
  | cons v a ih =>
    intro s s' outs ns hg hno hsub h hd
    obtain ⟨s1, o, os, h1, h2, rfl⟩ := run_cons.1 h
    rw [got_cons, ← List.append_assoc]
    refine ih (good_step hk hg h1 (fun _ => hno v (by simp))) (fun v hv => hno v (by simp [hv])) ?_ h2 (day_step hmw hk hg h1 (hno v (by simp)) ?_ hd)
    · exact hsub.imp id fun h x hx => h x (by simp [hx])
    · exact hsub.imp id fun h x hx => h x (by simp [hx])

theorem day_start {m : Mode} {B : Nat} {e : Env} {cid : Nat} {s : St} {d : Nat} (hp : B = 0 ∨ ∀ r ∈ s.readers, r.cid = cid → r.head = false) :
    Day m B cid (start e s d).1 [] := by
  refine ⟨?_, ?_, ?_⟩
  · rcases hp with h | h
    · exact Or.inl h
    · right
      intro r hr hc
      unfold start at hr
      obtain ⟨q, hq, rfl⟩ := List.mem_map.1 hr
      split at hq
      · obtain ⟨x, hx, rfl⟩ := List.mem_map.1 hq
        exact h x hx hc
      · exact h q hq hc
  · intro r hr _ hw
    unfold start at hr
    obtain ⟨q, _, rfl⟩ := List.mem_map.1 hr
    cases hw
  · intro x p y hx
    simp at hx

end Sis.Snodb
