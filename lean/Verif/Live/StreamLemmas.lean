import Verif.Live.LiveLemmas
/-
Lemmas about what one client receives.
-/
namespace Sis.Live

open Sis.Access (str)

theorem clean_ops {cmds : List Cmd} (h : Texts cmds) : Sub.Clean (subOps cmds) := by
  intro c p b hm
  unfold subOps at hm
  obtain ⟨k, hk, e⟩ := List.mem_filterMap.1 hm
  cases k <;> simp at e
  obtain ⟨rfl, rfl, -⟩ := e
  exact h _ _ hk

theorem texts_left {a b : List Cmd} (h : Texts (a ++ b)) : Texts a := fun c p hm => h c p (List.mem_append_left _ hm)

theorem active_members : ∀ (cmds : List Cmd) (cid : Int) (p : Bytes) (b : Bool), (cid, p, b) ∈ Sub.active (subOps cmds) →
    b = true ∧ ∃ q, (cid, q) ∈ members cmds := by
  intro cmds
  induction cmds using List.reverseRecOn with
  | nil => intro cid p b h; simp [subOps, Sub.active] at h
  | append_singleton a k ih =>
    intro cid p b h
    rw [subOps_snoc] at h
    rw [members_snoc]
    cases k with
    | sub c q =>
      dsimp only at h ⊢
      rw [Sub.active_snoc] at h
      dsimp only at h
      have hold : (cid, p, b) ∈ Sub.active (subOps a) → b = true ∧ ∃ q_1, (cid, q_1) ∈
          if ((members a).any fun x => x.1 == c) = true then members a else members a ++ [(c, q)] := by
        intro h
        obtain ⟨hb, r, hr⟩ := ih cid p b h
        refine ⟨hb, r, ?_⟩
        split
        · exact hr
        · exact List.mem_append_left _ hr
      by_cases hq : q = []
      · rw [if_pos hq] at h; exact hold h
      · rw [if_neg hq] at h
        rcases List.mem_append.1 h with h | h
        · exact hold h
        · simp only [List.mem_singleton, Prod.mk.injEq] at h
          obtain ⟨rfl, rfl, rfl⟩ := h
          refine ⟨rfl, ?_⟩
          split
          · rename_i ha
            obtain ⟨x, hx, e⟩ := List.any_eq_true.1 ha
            exact ⟨x.2, by rw [← (by simpa using e : x.1 = cid)]; exact hx⟩
          · exact ⟨p, by simp⟩
    | unsub c =>
      dsimp only at h ⊢
      rw [Sub.active_snoc] at h
      dsimp only at h
      by_cases hc : c = -1
      · rw [if_pos hc] at h; cases h
      · rw [if_neg hc] at h
        simp only [List.mem_filter, decide_eq_true_eq] at h
        obtain ⟨hb, q, hq⟩ := ih cid p b h.1
        exact ⟨hb, q, List.mem_filter.2 ⟨hq, by simpa using h.2⟩⟩
    | setKeys i => exact ih cid p b h
    | setSdbs i => exact ih cid p b h
    | setOther => exact ih cid p b h
    | start n t => exact ih cid p b h
    | stop => exact ih cid p b h
    | pub s i => exact ih cid p b h

/-- Whoever is notified has subscribed. -/
theorem pub_members {cmds : List Cmd} {s : Sub.St} {k : Bytes} {ns : List Int} (H : Sub.Hist (subOps cmds) s) (ht : Texts cmds)
    (h : Sub.pub s k = some ns) {cid : Int} (hc : cid ∈ ns) : ∃ q, (cid, q) ∈ members cmds := by
  obtain ⟨i1, i2⟩ := Sub.hist_inv H (clean_ops ht)
  simp only [Sub.pub, Option.map_eq_some_iff] at h
  obtain ⟨r, hr, rfl⟩ := h
  rcases List.mem_append.1 hc with hn | hn
  · cases hf : Sub.find s.one k with
    | none => simp [Sub.pubOne, hf] at hn
    | some u =>
      simp only [Sub.pubOne, hf] at hn
      obtain ⟨e, he, rfl, -⟩ := Sub.find_some hf
      obtain ⟨p, h1, -⟩ := i1.sound e he cid hn
      exact (active_members _ _ _ _ h1.1).2
  · rw [Sub.pubMul_mem hr] at hn
    obtain ⟨e, he, -, hin⟩ := hn
    obtain ⟨p, ⟨b, h1, -⟩, -⟩ := i2.sound e he cid hin
    exact (active_members _ _ _ _ h1).2

theorem Inv.mem_users {cmds : List Cmd} {c : Cxt} (I : Inv cmds c) {cid : Int} {q : Bytes} (h : (cid, q) ∈ members cmds) :
    ∃ u ∈ c.users, u.cid = cid := by
  have : cid ∈ c.users.map User.cid := by rw [I.cids]; exact List.mem_map.2 ⟨_, h, rfl⟩
  obtain ⟨u, hu, e⟩ := List.mem_map.1 this
  exact ⟨u, hu, e⟩

theorem Inv.user_eq {cmds : List Cmd} {c : Cxt} (I : Inv cmds c) {u v : User} (hu : u ∈ c.users) (hv : v ∈ c.users)
    (h : u.cid = v.cid) : u = v := by
  have hn := I.nodup
  revert hu hv hn
  generalize c.users = l
  intro hu hv hn
  induction l with
  | nil => cases hu
  | cons w l ih =>
    simp only [List.map_cons, List.nodup_cons] at hn
    rcases List.mem_cons.1 hu with hu | hu <;> rcases List.mem_cons.1 hv with hv | hv
    · rw [hu, hv]
    · exact absurd (List.mem_map.2 ⟨v, hv, by rw [← h, hu]⟩) hn.1
    · exact absurd (List.mem_map.2 ⟨u, hu, by rw [h, hv]⟩) hn.1
    · exact ih hu hv hn.2

/-- What an accepted stop sends to one connection. -/
theorem stops_spec {us : List User} (hn : (us.map User.cid).Nodup) (cid : Int) (d : Bytes) :
    received cid ((us.filter fun u => u.stat != .stop).map fun u => (u.cid, Msg.stop d)) =
      if us.any (fun u => u.cid == cid && u.stat != .stop) then [.stop d] else [] := by
  induction us with
  | nil => rfl
  | cons u us ih =>
    simp only [List.map_cons, List.nodup_cons] at hn
    have ih := ih hn.2
    by_cases hs : u.stat = .stop
    · rw [List.filter_cons, if_neg (by simp [hs]), ih, List.any_cons]
      simp [hs]
    · rw [List.filter_cons, if_pos (by simpa using hs), List.map_cons, ← List.singleton_append, received_append, ih, List.any_cons]
      by_cases hc : u.cid = cid
      · have : us.any (fun u => u.cid == cid && u.stat != .stop) = false := by
          rw [List.any_eq_false]
          intro v hv
          have : v.cid ≠ cid := fun e => hn.1 (List.mem_map.2 ⟨v, hv, e.trans hc.symm⟩)
          simp [this]
        rw [this]
        simp [received, hc, hs]
      · simp [received, hc]

theorem stream_datas {b : Bool} {d : Nat} {l m : List Msg} (h : Stream b (some d) l) (hm : ∀ x ∈ m, ∃ s i, x = .data s i) :
    Stream b (some d) (l ++ m) := by
  induction m generalizing l with
  | nil => rwa [List.append_nil]
  | cons x m ih =>
    obtain ⟨s, i, rfl⟩ := hm _ (List.mem_cons_self ..)
    have := ih (.data s i h) fun y hy => hm y (List.mem_cons_of_mem _ hy)
    rwa [List.append_assoc, List.singleton_append] at this

/-- A session that is open began with its opening, and only records came since. -/
theorem stream_open {b : Bool} {x : Option Nat} {l : List Msg} (h : Stream b x l) : ∀ d, x = some d →
    ∃ pre o post, l = pre ++ o ++ post ∧ Opening d o ∧ ∀ m ∈ post, ∃ s i, m = .data s i := by
  induction h with
  | nil => intro d h; cases h
  | @opened x l d o _ ho _ =>
    intro e he
    cases he
    exact ⟨l, o, [], by simp, ho, by simp⟩
  | data s i _ ih =>
    intro e he
    obtain ⟨pre, o, post, h1, h2, h3⟩ := ih e he
    refine ⟨pre, o, post ++ [.data s i], by rw [h1]; simp, h2, ?_⟩
    intro m hm
    rcases List.mem_append.1 hm with hm | hm
    · exact h3 m hm
    · exact ⟨s, i, List.mem_singleton.1 hm⟩
  | stopped d _ _ _ => intro e he; cases he

/-- What the messages of every connection look like. -/
def SInv (b : Bool) (c : Cxt) (out : List (Int × Msg)) : Prop :=
  ∀ cid, ∃ x, Stream b x (received cid out) ∧ ∀ u ∈ c.users, u.cid = cid → u.stat = .work → x = some c.date

theorem sinv_quiet {b : Bool} {c c' : Cxt} {out : List (Int × Msg)} (S : SInv b c out) (hd : c'.date = c.date)
    (h : ∀ u ∈ c'.users, u.stat = .work → u ∈ c.users) : SInv b c' (out ++ []) := by
  intro cid
  obtain ⟨x, h1, h2⟩ := S cid
  refine ⟨x, by rwa [List.append_nil], ?_⟩
  intro u hu hc hw
  rw [hd]
  exact h2 u (h u hu hw) hc hw

theorem received_datas (cid : Int) (cids : List Int) (s i : Bytes) : ∀ m ∈ received cid (cids.map fun j => (j, Msg.data s i)),
    m = .data s i := by
  intro m hm
  rw [received_mem] at hm
  obtain ⟨j, -, e⟩ := List.mem_map.1 hm
  exact (Prod.mk.inj e).2.symm

theorem sinv_step {b : Bool} {cmds : List Cmd} {c c' : Cxt} {k : Cmd} {out ms : List (Int × Msg)} {r : Reply} (I : Inv cmds c)
    (ht : Texts cmds) (S : SInv b c out) (h : step c k = some (c', ms, r))
    (hb : b = true → k = .stop → on c.stat = true → ∀ u ∈ c.users, u.stat = .work) : SInv b c' (out ++ ms) := by
  cases k with
  | setKeys info =>
    simp only [step, Option.map_eq_some_iff, Prod.mk.injEq] at h
    obtain ⟨a, -, rfl, rfl, -⟩ := h
    exact sinv_quiet S rfl fun u hu _ => hu
  | setSdbs info =>
    simp only [step, Option.map_eq_some_iff, Prod.mk.injEq] at h
    obtain ⟨⟨a, b'⟩, ha, rfl, rfl, -⟩ := h
    have : ∃ p, a = { c with sdbs := p } := by
      unfold setSdbs at ha
      split at ha
      · cases ha
      · cases ha
      · split at ha
        · simp only [Option.some.injEq, Prod.mk.injEq] at ha
          exact ⟨_, ha.1.symm⟩
        · simp only [Option.some.injEq, Prod.mk.injEq] at ha
          exact ⟨_, ha.1.symm⟩
    obtain ⟨p, rfl⟩ := this
    exact sinv_quiet S rfl fun u hu _ => hu
  | setOther =>
    simp only [step, Option.some.injEq, Prod.mk.injEq] at h
    obtain ⟨rfl, rfl, -⟩ := h
    exact sinv_quiet S rfl fun u hu _ => hu
  | start n today =>
    simp only [step, Option.some.injEq, Prod.mk.injEq] at h
    obtain ⟨rfl, rfl, -⟩ := h
    intro cid
    obtain ⟨x, h1, -⟩ := S cid
    refine ⟨x, by rwa [List.append_nil], ?_⟩
    intro u hu _ hw
    obtain ⟨v, -, rfl⟩ := List.mem_map.1 hu
    cases hw
  | stop =>
    simp only [step, Option.some.injEq] at h
    unfold stop at h
    by_cases hs : c.stat = .stop ∨ c.stat = .idle
    · rw [if_pos hs] at h
      simp only [Prod.mk.injEq] at h
      obtain ⟨rfl, rfl, -⟩ := h
      exact sinv_quiet S rfl fun u hu _ => hu
    · rw [if_neg hs] at h
      simp only [Prod.mk.injEq] at h
      obtain ⟨rfl, rfl, -⟩ := h
      have hon : on c.stat = true := by
        cases e : c.stat <;> simp [e] at hs <;> rfl
      intro cid
      obtain ⟨x, h1, h2⟩ := S cid
      rw [received_append, stops_spec I.nodup]
      have hnw : ∀ u ∈ c.users.map (fun u => { u with stat := Stat.stop }), u.cid = cid → u.stat = .work → False := by
        intro u hu _ hw
        obtain ⟨v, -, rfl⟩ := List.mem_map.1 hu
        cases hw
      split
      · rename_i ha
        refine ⟨none, .stopped c.date h1 ?_, fun u hu hc hw => (hnw u hu hc hw).elim⟩
        intro hbt
        obtain ⟨u, hu, e⟩ := List.any_eq_true.1 ha
        simp only [Bool.and_eq_true, beq_iff_eq] at e
        exact h2 u hu e.1 (hb hbt rfl hon u hu)
      · exact ⟨x, by rwa [List.append_nil], fun u hu hc hw => (hnw u hu hc hw).elim⟩
  | pub s i =>
    simp only [step, pub] at h
    cases hr : readerInit c with
    | none => rw [hr] at h; cases h
    | some y =>
      obtain ⟨c1, m1, b1⟩ := y
      rw [hr] at h
      have hk := readerInit_spec I hr
      cases b1 with
      | false =>
        simp only [Option.some.injEq, Prod.mk.injEq] at h
        obtain ⟨rfl, rfl, -⟩ := h
        rcases hk with ⟨-, rfl, rfl⟩ | ⟨h0, -⟩
        · exact sinv_quiet S rfl fun u hu _ => hu
        · cases h0
      | true =>
        simp only [Option.map_eq_some_iff, Prod.mk.injEq] at h
        obtain ⟨l, hl, rfl, rfl, -⟩ := h
        rcases hk with ⟨h0, -⟩ | ⟨-, h1, h2, h3, h4, -, -, h5, h6, h7, h8⟩
        · cases h0
        · intro cid
          obtain ⟨x, g1, g2⟩ := S cid
          rw [received_append, received_append, ← List.append_assoc]
          by_cases hex : ∃ u ∈ c.users, u.cid = cid
          · obtain ⟨u, hu, rfl⟩ := hex
            have hst : Stream b (some c.date) (received u.cid out ++ received u.cid m1) := by
              rcases I.live h1 u hu with hi | hw
              · obtain ⟨k, s', t, -, -, -, he⟩ := h7 u hu hi
                rw [he]
                exact .opened g1 (opening_spec ..)
              · rw [h8 u.cid (by
                  intro v hv hvc
                  rw [I.user_eq hv hu hvc, hw]; decide), List.append_nil]
                rw [← g2 u hu rfl hw]
                exact g1
            refine ⟨some c.date, stream_datas hst ?_, ?_⟩
            · intro m hm
              exact ⟨s, i, received_datas _ _ _ _ m hm⟩
            · intro _ _ _ _
              rw [h4]
          · have hno : cid ∉ l := by
              intro hc
              rw [h5] at hl
              obtain ⟨q, hq⟩ := pub_members I.hist ht hl hc
              obtain ⟨u, hu, e⟩ := I.mem_users hq
              exact hex ⟨u, hu, e⟩
            rw [h8 cid (fun v hv hvc => absurd ⟨v, hv, hvc⟩ hex)]
            have : received cid (l.map fun j => (j, Msg.data s i)) = [] := by
              rw [List.eq_nil_iff_forall_not_mem]
              intro m hm
              rw [received_mem] at hm
              obtain ⟨j, hj, e⟩ := List.mem_map.1 hm
              exact hno ((Prod.mk.inj e).1 ▸ hj)
            rw [this, List.append_nil, List.append_nil]
            refine ⟨x, g1, ?_⟩
            intro v hv hvc _
            rw [h2] at hv
            obtain ⟨w, hw, rfl⟩ := List.mem_map.1 hv
            rw [opened_cid] at hvc
            exact absurd ⟨w, hw, hvc⟩ hex
  | sub cid p =>
    simp only [step, Option.map_eq_some_iff, Prod.mk.injEq] at h
    obtain ⟨⟨s, n⟩, hs, rfl, rfl, -⟩ := h
    refine sinv_quiet S (by unfold userIncr; split <;> rfl) ?_
    intro u hu hw
    unfold userIncr at hu
    split at hu
    · exact hu
    · rcases List.mem_append.1 hu with hu | hu
      · exact hu
      · rw [List.mem_singleton.1 hu] at hw; cases hw
  | unsub cid =>
    simp only [step, Option.some.injEq, Prod.mk.injEq] at h
    obtain ⟨rfl, rfl, -⟩ := h
    refine sinv_quiet S (by unfold userDecr; split <;> rfl) ?_
    intro u hu hw
    unfold userDecr at hu
    split at hu
    · exact (List.mem_filter.1 hu).1
    · exact hu

/-- After a record is accepted all readers are served, until the next start or the next subscription. -/
theorem served_step {cmds : List Cmd} {c c' : Cxt} {k : Cmd} {ms : List (Int × Msg)} {r : Reply} (I : Inv cmds c)
    (h : step c k = some (c', ms, r)) (hk : (∀ n t, k ≠ .start n t) ∧ ∀ n p, k ≠ .sub n p)
    (hw : on c.stat = true → ∀ u ∈ c.users, u.stat = .work) : on c'.stat = true → ∀ u ∈ c'.users, u.stat = .work := by
  cases k with
  | setKeys info =>
    simp only [step, Option.map_eq_some_iff, Prod.mk.injEq] at h
    obtain ⟨a, -, rfl, rfl, -⟩ := h
    exact hw
  | setSdbs info =>
    simp only [step, Option.map_eq_some_iff, Prod.mk.injEq] at h
    obtain ⟨⟨a, b'⟩, ha, rfl, rfl, -⟩ := h
    unfold setSdbs at ha
    split at ha
    · cases ha
    · cases ha
    · split at ha
      · simp only [Option.some.injEq, Prod.mk.injEq] at ha
        rw [← ha.1]; exact hw
      · simp only [Option.some.injEq, Prod.mk.injEq] at ha
        rw [← ha.1]; exact hw
  | setOther =>
    simp only [step, Option.some.injEq, Prod.mk.injEq] at h
    rw [← h.1]; exact hw
  | start n today => exact absurd rfl (hk.1 n today)
  | stop =>
    simp only [step, Option.some.injEq] at h
    unfold stop at h
    split at h
    · simp only [Prod.mk.injEq] at h
      rw [← h.1]; exact hw
    · simp only [Prod.mk.injEq] at h
      rw [← h.1]
      intro h0; cases h0
  | pub s i =>
    simp only [step, pub] at h
    cases hr : readerInit c with
    | none => rw [hr] at h; cases h
    | some y =>
      obtain ⟨c1, m1, b1⟩ := y
      rw [hr] at h
      have hk := readerInit_spec I hr
      cases b1 with
      | false =>
        simp only [Option.some.injEq, Prod.mk.injEq] at h
        obtain ⟨rfl, rfl, -⟩ := h
        rcases hk with ⟨-, rfl, rfl⟩ | ⟨h0, -⟩
        · exact hw
        · cases h0
      | true =>
        simp only [Option.map_eq_some_iff, Prod.mk.injEq] at h
        obtain ⟨l, hl, rfl, rfl, -⟩ := h
        rcases hk with ⟨h0, -⟩ | ⟨-, h1, h2, -⟩
        · cases h0
        · intro _ u hu
          rw [h2] at hu
          obtain ⟨v, hv, rfl⟩ := List.mem_map.1 hu
          exact opened_work (I.live h1 v hv)
  | sub cid p => exact absurd rfl (hk.2 cid p)
  | unsub cid =>
    simp only [step, Option.some.injEq, Prod.mk.injEq] at h
    obtain ⟨rfl, rfl, -⟩ := h
    have : (userDecr c cid).stat = c.stat := by unfold userDecr; split <;> rfl
    intro h0 u hu
    have h0 : on c.stat = true := by rw [← this]; exact h0
    have hu : u ∈ (userDecr c cid).users := hu
    unfold userDecr at hu
    split at hu
    · exact hw h0 u (List.mem_filter.1 hu).1
    · exact hw h0 u hu

theorem served_pub {cmds : List Cmd} {c c' : Cxt} {s i : Bytes} {ms : List (Int × Msg)} (I : Inv cmds c)
    (h : step c (.pub s i) = some (c', ms, .ok)) : ∀ u ∈ c'.users, u.stat = .work := by
  simp only [step, pub] at h
  cases hr : readerInit c with
  | none => rw [hr] at h; cases h
  | some y =>
    obtain ⟨c1, m1, b1⟩ := y
    rw [hr] at h
    have hk := readerInit_spec I hr
    cases b1 with
    | false => simp at h
    | true =>
      simp only [Option.map_eq_some_iff, Prod.mk.injEq] at h
      obtain ⟨l, hl, rfl, rfl, -⟩ := h
      rcases hk with ⟨h0, -⟩ | ⟨-, h1, h2, -⟩
      · cases h0
      · intro u hu
        rw [h2] at hu
        obtain ⟨v, hv, rfl⟩ := List.mem_map.1 hu
        exact opened_work (I.live h1 v hv)

theorem served_run {b : List Cmd} : ∀ {a : List Cmd} {c c' : Cxt} {out : List (Int × Msg)}, Inv a c → run c b = some (c', out) →
    (∀ k ∈ b, (∀ n t, k ≠ .start n t) ∧ ∀ n p, k ≠ .sub n p) → (on c.stat = true → ∀ u ∈ c.users, u.stat = .work) →
    on c'.stat = true → ∀ u ∈ c'.users, u.stat = .work := by
  induction b with
  | nil =>
    intro a c c' out I h _ hw
    simp only [run, Option.some.injEq, Prod.mk.injEq] at h
    rw [← h.1]; exact hw
  | cons k b ih =>
    intro a c c' out I h hk hw
    simp only [run] at h
    cases hs : step c k with
    | none => rw [hs] at h; cases h
    | some y =>
      obtain ⟨c1, m1, r1⟩ := y
      rw [hs] at h
      simp only [Option.map_eq_some_iff, Prod.mk.injEq] at h
      obtain ⟨⟨c2, n2⟩, h1, rfl, -⟩ := h
      exact ih (inv_step I hs) h1 (fun k' hk' => hk k' (List.mem_cons_of_mem _ hk'))
        (served_step I hs (hk k (List.mem_cons_self ..)) hw)

theorem served_all {cmds : List Cmd} {c : Cxt} {out : List (Int × Msg)} (h : run init cmds = some (c, out)) (hs : Served cmds) :
    on c.stat = true → ∀ u ∈ c.users, u.stat = .work := by
  obtain ⟨a, s, i, b, c0, o0, c1, ms, rfl, hb, hra, hsp⟩ := hs
  rw [run_append, hra] at h
  simp only [run, hsp, Option.map_map, Option.map_eq_some_iff, Prod.mk.injEq] at h
  obtain ⟨⟨c2, n2⟩, h1, h2⟩ := h
  simp only [Function.comp_apply, Prod.mk.injEq] at h2
  obtain ⟨rfl, -⟩ := h2
  have I0 := run_inv hra
  exact served_run (inv_step I0 hsp) h1 hb fun _ => served_pub I0 hsp

theorem run_stream (b : Bool) : ∀ {cmds : List Cmd} {c : Cxt} {out : List (Int × Msg)}, run init cmds = some (c, out) → Texts cmds →
    (b = true → ∀ pre post, cmds = pre ++ .stop :: post → members pre = [] ∨ Served pre) → SInv b c out := by
  intro cmds
  induction cmds using List.reverseRecOn with
  | nil =>
    intro c out h _ _
    simp only [run, Option.some.injEq, Prod.mk.injEq] at h
    rw [← h.1, ← h.2]
    exact fun cid => ⟨none, .nil, fun u hu => by cases hu⟩
  | append_singleton a k ih =>
    intro c out h ht hb
    obtain ⟨c1, o1, o2, r, h1, h2, rfl⟩ := run_snoc h
    have I := run_inv h1
    refine sinv_step I (texts_left ht) (ih h1 (texts_left ht) ?_) h2 ?_
    · intro hbt pre post e
      exact hb hbt pre (post ++ [k]) (by rw [e]; simp)
    · intro hbt e hon
      subst e
      rcases hb hbt a [] rfl with hm | hs
      · intro u hu
        have : u.cid ∈ c1.users.map User.cid := List.mem_map.2 ⟨u, hu, rfl⟩
        rw [I.cids, hm] at this
        cases this
      · exact served_all h1 hs hon

end Sis.Live
