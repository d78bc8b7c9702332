import Verif.Live.LiveSpec
import Verif.Server.SubTheorems
import Mathlib.Data.List.Induction
/-
Lemmas about the live data service.
-/
namespace Sis.Live

open Sis.Access (str)

theorem received_append (cid : Int) (a b : List (Int × Msg)) : received cid (a ++ b) = received cid a ++ received cid b := by
  simp [received]

theorem received_nil (cid : Int) : received cid [] = [] := rfl

theorem received_mem {cid : Int} {m : Msg} {l : List (Int × Msg)} : m ∈ received cid l ↔ (cid, m) ∈ l := by
  simp only [received, List.mem_map, List.mem_filter, decide_eq_true_eq]
  constructor
  · rintro ⟨⟨a, b⟩, ⟨h, rfl⟩, rfl⟩; exact h
  · intro h; exact ⟨(cid, m), ⟨h, rfl⟩, rfl⟩

theorem run_append (c : Cxt) (a b : List Cmd) : run c (a ++ b) =
    match run c a with
    | none => none
    | some (c, ms) => (run c b).map fun (c, ns) => (c, ms ++ ns) := by
  induction a generalizing c with
  | nil => simp [run]
  | cons k ks ih =>
    simp only [List.cons_append, run]
    cases h : step c k with
    | none => rfl
    | some x =>
      obtain ⟨c1, ms, r⟩ := x
      simp only [ih]
      cases h1 : run c1 ks with
      | none => rfl
      | some y =>
        obtain ⟨c2, ns⟩ := y
        simp only [Option.map_some]
        cases h2 : run c2 b with
        | none => rfl
        | some z => simp

theorem run_snoc {c c' : Cxt} {a : List Cmd} {k : Cmd} {out : List (Int × Msg)} (h : run c (a ++ [k]) = some (c', out)) :
    ∃ c1 o1 o2 r, run c a = some (c1, o1) ∧ step c1 k = some (c', o2, r) ∧ out = o1 ++ o2 := by
  rw [run_append] at h
  cases h1 : run c a with
  | none => rw [h1] at h; cases h
  | some x =>
    obtain ⟨c1, o1⟩ := x
    rw [h1] at h
    simp only [run] at h
    cases h2 : step c1 k with
    | none => rw [h2] at h; cases h
    | some y =>
      obtain ⟨c2, o2, r⟩ := y
      rw [h2] at h
      simp only [Option.map_some, List.append_nil, Option.some.injEq, Prod.mk.injEq] at h
      obtain ⟨rfl, rfl⟩ := h
      exact ⟨c1, o1, o2, r, rfl, h2, rfl⟩

/-! ### Opening the sessions -/

/-- A user after the loop. -/
def opened (u : User) : User := if u.stat = .init then { u with stat := .work } else u

theorem opened_cid (u : User) : (opened u).cid = u.cid := by unfold opened; split <;> rfl

theorem opened_work {u : User} (h : u.stat = .init ∨ u.stat = .work) : (opened u).stat = .work := by
  unfold opened
  rcases h with h | h
  · rw [if_pos h]
  · rw [if_neg (by rw [h]; decide)]; exact h

/-- The messages that open a session. -/
def opening (d : Bytes) (k : Option Bytes) (t : Bytes) : List Msg :=
  [.start d] ++ (match k with | none => [] | some k => [.keys k]) ++ [.sdbs t, .wait d]

theorem opening_spec (d : Nat) (k : Option Bytes) (t : Bytes) : Opening d (opening (dateText d) k t) := by
  cases k with
  | none => exact .noKeys t
  | some k => exact .keys k t

theorem announce_eq {d k s : Bytes} {u : User} {a : List (Int × Msg)} (h : announce d k s u = some a) :
    ∃ t, matchSdbs u.sdbs s = some t ∧ a = (opening d (matchKey u.keys k) t).map fun m => (u.cid, m) := by
  unfold announce at h
  cases ht : matchSdbs u.sdbs s with
  | none => rw [ht] at h; cases h
  | some t =>
    rw [ht] at h
    refine ⟨t, rfl, ?_⟩
    rw [← Option.some.inj h]
    unfold opening
    cases matchKey u.keys k <;> rfl

theorem received_own (cid : Int) (l : List Msg) : received cid (l.map fun m => (cid, m)) = l := by
  unfold received
  rw [List.filter_eq_self.2]
  · simp [List.map_map, Function.comp_def]
  · intro a ha
    obtain ⟨m, -, rfl⟩ := List.mem_map.1 ha
    simp

theorem received_other {cid i : Int} (h : i ≠ cid) (l : List Msg) : received cid (l.map fun m => (i, m)) = [] := by
  unfold received
  rw [List.filter_eq_nil_iff.2]
  · rfl
  · intro a ha
    obtain ⟨m, -, rfl⟩ := List.mem_map.1 ha
    simpa using h

theorem openUsers_spec {d : Bytes} {keys : Option Bytes} {sdbs : Ptr} : ∀ {us us' : List User} {ms : List (Int × Msg)} {n : Nat},
    openUsers d keys sdbs us = some (us', ms, n) → (us.map User.cid).Nodup →
    us' = us.map opened ∧ n = us.countP (fun u => u.stat = .init) ∧
    (∀ u ∈ us, u.stat = .init → ∃ k s t, keys = some k ∧ sdbs = .live s ∧ matchSdbs u.sdbs s = some t ∧
      received u.cid ms = opening d (matchKey u.keys k) t) ∧
    (∀ cid, (∀ u ∈ us, u.cid = cid → u.stat ≠ .init) → received cid ms = []) := by
  intro us
  induction us with
  | nil =>
    intro us' ms n h _
    simp only [openUsers, Option.some.injEq, Prod.mk.injEq] at h
    obtain ⟨rfl, rfl, rfl⟩ := h
    simp [received_nil]
  | cons u us ih =>
    intro us' ms n h hn
    simp only [List.map_cons, List.nodup_cons] at hn
    unfold openUsers at h
    by_cases hu : u.stat = .init
    · rw [if_pos hu] at h
      cases hk : keys with
      | none => rw [hk] at h; cases h
      | some k =>
        cases hs : sdbs with
        | null => rw [hk, hs] at h; cases h
        | freed => rw [hk, hs] at h; cases h
        | live s =>
          rw [hk, hs] at h
          simp only [Option.bind_eq_bind] at h
          cases ha : announce d k s u with
          | none => rw [ha] at h; cases h
          | some a =>
            rw [ha] at h
            simp only [Option.bind_some] at h
            cases ho : openUsers d (some k) (.live s) us with
            | none => rw [ho] at h; cases h
            | some x =>
              obtain ⟨us1, ms1, n1⟩ := x
              rw [ho] at h
              simp only [Option.bind_some, Option.some.injEq, Prod.mk.injEq] at h
              obtain ⟨rfl, rfl, rfl⟩ := h
              rw [← hk, ← hs] at ho
              obtain ⟨e1, e2, e3, e4⟩ := ih ho hn.2
              obtain ⟨t, ht, hat⟩ := announce_eq ha
              refine ⟨?_, ?_, ?_, ?_⟩
              · rw [List.map_cons, ← e1, opened, if_pos hu]
              · rw [List.countP_cons, ← e2, if_pos (by simpa using hu)]
              · intro v hv hvi
                rcases List.mem_cons.1 hv with rfl | hv
                · refine ⟨k, s, t, rfl, rfl, ht, ?_⟩
                  rw [received_append, hat, received_own, e4, List.append_nil]
                  intro w hw hwc
                  exact absurd (List.mem_map.2 ⟨w, hw, hwc⟩) hn.1
                · obtain ⟨k', s', t', h1, h2, h3, h4⟩ := e3 v hv hvi
                  rw [hk] at h1
                  rw [hs] at h2
                  refine ⟨k', s', t', h1, h2, h3, ?_⟩
                  rw [received_append, hat, received_other, List.nil_append, h4]
                  intro hc
                  exact hn.1 (List.mem_map.2 ⟨v, hv, hc.symm⟩)
              · intro cid hc
                rw [received_append, hat, received_other, List.nil_append, e4]
                · intro w hw; exact hc w (List.mem_cons_of_mem _ hw)
                · intro e; exact hc u (List.mem_cons_self ..) e hu
    · rw [if_neg hu] at h
      simp only [Option.bind_eq_bind] at h
      cases ho : openUsers d keys sdbs us with
      | none => rw [ho] at h; cases h
      | some x =>
        obtain ⟨us1, ms1, n1⟩ := x
        rw [ho] at h
        simp only [Option.bind_some, Option.some.injEq, Prod.mk.injEq] at h
        obtain ⟨rfl, rfl, rfl⟩ := h
        obtain ⟨e1, e2, e3, e4⟩ := ih ho hn.2
        refine ⟨?_, ?_, ?_, ?_⟩
        · rw [List.map_cons, ← e1, opened, if_neg hu]
        · rw [List.countP_cons, ← e2, if_neg (by simpa using hu)]; rfl
        · intro v hv hvi
          rcases List.mem_cons.1 hv with rfl | hv
          · exact absurd hvi hu
          · exact e3 v hv hvi
        · intro cid hc
          exact e4 cid fun w hw => hc w (List.mem_cons_of_mem _ hw)

/-! ### The invariant -/

/-- Whether the status is one in which records are taken. -/
def on (s : Stat) : Bool := match s with | .init => true | .work => true | _ => false

structure Inv (cmds : List Cmd) (c : Cxt) : Prop where
  on : on c.stat = started cmds
  date : c.date = dayOf cmds
  users : c.users.map (fun u => (u.cid, u.keys, u.sdbs)) =
    (members cmds).map fun x => (x.1, Sub.part (Sub.before x.2), Sub.part (Sub.after x.2))
  nodup : (c.users.map User.cid).Nodup
  live : Live.on c.stat = true → ∀ u ∈ c.users, u.stat = .init ∨ u.stat = .work
  readers : c.readers ≤ (c.users.countP (fun u => u.stat = .work) : Nat)
  hist : Sub.Hist (subOps cmds) c.subs

theorem countP_opened {us : List User} (h : ∀ u ∈ us, u.stat = .init ∨ u.stat = .work) :
    (us.map opened).countP (fun u => u.stat = .work) = us.length := by
  rw [List.countP_eq_length.2]
  · simp
  · intro u hu
    obtain ⟨v, hv, rfl⟩ := List.mem_map.1 hu
    simpa using opened_work (h v hv)

theorem openReaders_spec {cmds : List Cmd} {c c' : Cxt} {ms : List (Int × Msg)} (I : Inv cmds c) (hl : Live.on c.stat = true)
    (h : openReaders c = some (c', ms)) :
    c'.users = c.users.map opened ∧ c'.stat = c.stat ∧ c'.date = c.date ∧ c'.keys = c.keys ∧ c'.sdbs = c.sdbs ∧ c'.subs = c.subs ∧
    c'.readers ≤ (c'.users.countP (fun u => u.stat = .work) : Nat) ∧
    (∀ u ∈ c.users, u.stat = .init → ∃ k s t, c.keys = some k ∧ c.sdbs = .live s ∧ matchSdbs u.sdbs s = some t ∧
      received u.cid ms = opening (dateText c.date) (matchKey u.keys k) t) ∧
    (∀ cid, (∀ u ∈ c.users, u.cid = cid → u.stat ≠ .init) → received cid ms = []) := by
  unfold openReaders at h
  by_cases hle : (c.users.length : Int) ≤ c.readers
  · rw [if_pos hle] at h
    simp only [Option.some.injEq, Prod.mk.injEq] at h
    obtain ⟨rfl, rfl⟩ := h
    have hr := I.readers
    have hlen : c.users.countP (fun u => u.stat = .work) = c.users.length := by
      have := c.users.countP_le_length (p := fun u => decide (u.stat = .work))
      omega
    have hw : ∀ u ∈ c.users, u.stat = .work := by
      intro u hu
      have := List.countP_eq_length.1 hlen u hu
      simpa using this
    have ho : c.users.map opened = c.users := by
      have : c.users.map opened = c.users.map id := by
        apply List.map_congr_left
        intro u hu
        unfold opened
        rw [if_neg (by rw [hw u hu]; decide)]; rfl
      rw [this, List.map_id]
    refine ⟨ho.symm, rfl, rfl, rfl, rfl, rfl, hr, ?_, fun _ _ => rfl⟩
    intro u hu hi
    rw [hw u hu] at hi
    cases hi
  · rw [if_neg hle] at h
    cases ho : openUsers (dateText c.date) c.keys c.sdbs c.users with
    | none => rw [ho] at h; cases h
    | some x =>
      obtain ⟨us, ms1, n⟩ := x
      rw [ho] at h
      simp only [Option.map_some, Option.some.injEq, Prod.mk.injEq] at h
      obtain ⟨rfl, rfl⟩ := h
      obtain ⟨e1, e2, e3, e4⟩ := openUsers_spec ho I.nodup
      refine ⟨e1, rfl, rfl, rfl, rfl, rfl, ?_, e3, e4⟩
      dsimp only
      rw [e1, countP_opened (I.live hl), e2]
      have hr := I.readers
      have : c.users.countP (fun u => u.stat = .init) + c.users.countP (fun u => u.stat = .work) ≤ c.users.length := by
        rw [List.countP_eq_length_filter, List.countP_eq_length_filter, ← List.length_append]
        have hs : ∀ l : List User, (l.filter (fun u => u.stat = .init) ++ l.filter (fun u => u.stat = .work)).length ≤ l.length := by
          intro l
          induction l with
          | nil => simp
          | cons v l ih =>
            simp only [List.length_append, List.filter_cons, List.length_cons] at ih ⊢
            cases hv : v.stat <;> simp <;> omega
        exact hs _
      omega

theorem Inv.stat {cmds : List Cmd} {c : Cxt} (I : Inv cmds c) (h : c.stat = .init) : Inv cmds { c with stat := .work } :=
  ⟨by rw [← I.on, h]; rfl, I.date, I.users, I.nodup, fun _ => I.live (by rw [h]; rfl), I.readers, I.hist⟩

/-- What a record does before it is relayed. -/
theorem readerInit_spec {cmds : List Cmd} {c c' : Cxt} {ms : List (Int × Msg)} {b : Bool} (I : Inv cmds c)
    (h : readerInit c = some (c', ms, b)) :
    (b = false ∧ c' = c ∧ ms = []) ∨
    (b = true ∧ Live.on c.stat = true ∧ c'.users = c.users.map opened ∧ Live.on c'.stat = true ∧ c'.date = c.date ∧ c'.keys = c.keys ∧
      c'.sdbs = c.sdbs ∧ c'.subs = c.subs ∧ c'.readers ≤ (c'.users.countP (fun u => u.stat = .work) : Nat) ∧
      (∀ u ∈ c.users, u.stat = .init → ∃ k s t, c.keys = some k ∧ c.sdbs = .live s ∧ matchSdbs u.sdbs s = some t ∧
        received u.cid ms = opening (dateText c.date) (matchKey u.keys k) t) ∧
      (∀ cid, (∀ u ∈ c.users, u.cid = cid → u.stat ≠ .init) → received cid ms = [])) := by
  unfold readerInit at h
  cases hs : c.stat with
  | stop =>
    rw [hs] at h
    simp only [Option.some.injEq, Prod.mk.injEq] at h
    obtain ⟨rfl, rfl, rfl⟩ := h
    exact Or.inl ⟨rfl, rfl, rfl⟩
  | idle =>
    rw [hs] at h
    simp only [Option.some.injEq, Prod.mk.injEq] at h
    obtain ⟨rfl, rfl, rfl⟩ := h
    exact Or.inl ⟨rfl, rfl, rfl⟩
  | work =>
    rw [hs] at h
    simp only at h
    cases ho : openReaders c with
    | none => rw [ho] at h; cases h
    | some x =>
      obtain ⟨c1, m1⟩ := x
      rw [ho] at h
      simp only [Option.map_some, Option.some.injEq, Prod.mk.injEq] at h
      obtain ⟨rfl, rfl, rfl⟩ := h
      obtain ⟨a1, a2, a3, a4, a5, a6, a7, a8, a9⟩ := openReaders_spec I (by rw [hs]; rfl) ho
      exact Or.inr ⟨rfl, rfl, a1, by rw [a2, hs]; rfl, a3, a4, a5, a6, a7, a8, a9⟩
  | init =>
    rw [hs] at h
    simp only at h
    by_cases hk : c.keys = none ∨ c.sdbs = .null
    · rw [if_pos hk] at h
      simp only [Option.some.injEq, Prod.mk.injEq] at h
      obtain ⟨rfl, rfl, rfl⟩ := h
      exact Or.inl ⟨rfl, rfl, rfl⟩
    · rw [if_neg hk] at h
      cases ho : openReaders { c with stat := .work } with
      | none => rw [ho] at h; cases h
      | some x =>
        obtain ⟨c1, m1⟩ := x
        rw [ho] at h
        simp only [Option.map_some, Option.some.injEq, Prod.mk.injEq] at h
        obtain ⟨rfl, rfl, rfl⟩ := h
        obtain ⟨a1, a2, a3, a4, a5, a6, a7, a8, a9⟩ := openReaders_spec (I.stat hs) rfl ho
        exact Or.inr ⟨rfl, rfl, a1, by rw [a2]; rfl, a3, a4, a5, a6, a7, a8, a9⟩

theorem members_snoc (cmds : List Cmd) (k : Cmd) : members (cmds ++ [k]) = match k with
    | .sub c p => if (members cmds).any (fun x => x.1 == c) then members cmds else members cmds ++ [(c, p)]
    | .unsub c => (members cmds).filter fun x => x.1 != c
    | _ => members cmds := by
  simp only [members, List.foldl_append, List.foldl_cons, List.foldl_nil]
  cases k <;> rfl

theorem subOps_snoc (cmds : List Cmd) (k : Cmd) : subOps (cmds ++ [k]) = match k with
    | .sub c p => subOps cmds ++ [.sub c p true]
    | .unsub c => subOps cmds ++ [.unsub c]
    | _ => subOps cmds := by
  simp only [subOps, List.filterMap_append]
  cases k <;> simp

theorem started_snoc (cmds : List Cmd) (k : Cmd) : started (cmds ++ [k]) = match k with
    | .start _ _ => true | .stop => false | _ => started cmds := by
  simp only [started, List.foldl_append, List.foldl_cons, List.foldl_nil]
  cases k <;> rfl

theorem dayOf_snoc (cmds : List Cmd) (k : Cmd) : dayOf (cmds ++ [k]) = match k with
    | .start n today => if n = 0 then today else n | _ => dayOf cmds := by
  simp only [dayOf, List.foldl_append, List.foldl_cons, List.foldl_nil]
  cases k <;> rfl

theorem Inv.cids {cmds : List Cmd} {c : Cxt} (I : Inv cmds c) : c.users.map User.cid = (members cmds).map Prod.fst := by
  have := congrArg (List.map Prod.fst) I.users
  simpa [List.map_map, Function.comp_def] using this

theorem Inv.any {cmds : List Cmd} {c : Cxt} (I : Inv cmds c) (cid : Int) :
    c.users.any (fun u => u.cid == cid) = (members cmds).any (fun x => x.1 == cid) := by
  have h : ∀ l : List User, l.any (fun u => u.cid == cid) = (l.map User.cid).any (· == cid) := by intro l; simp [List.any_map, Function.comp_def]
  rw [h, I.cids]
  simp [List.any_map, Function.comp_def]

theorem inv_init : Inv [] init :=
  ⟨rfl, rfl, rfl, List.nodup_nil, fun h => absurd h (by decide), by decide, Sub.Hist.nil⟩

theorem inv_same {cmds : List Cmd} {c c' : Cxt} {k : Cmd} (I : Inv cmds c) (h1 : c'.stat = c.stat) (h2 : c'.date = c.date)
    (h3 : c'.users = c.users) (h4 : c'.readers = c.readers) (h5 : c'.subs = c.subs)
    (hm : members (cmds ++ [k]) = members cmds) (hs : subOps (cmds ++ [k]) = subOps cmds)
    (ht : started (cmds ++ [k]) = started cmds) (hd : dayOf (cmds ++ [k]) = dayOf cmds) : Inv (cmds ++ [k]) c' :=
  ⟨by rw [h1, ht, I.on], by rw [h2, hd, I.date], by rw [h3, hm, I.users], by rw [h3]; exact I.nodup,
    by rw [h1, h3]; exact I.live, by rw [h3, h4]; exact I.readers, by rw [hs, h5]; exact I.hist⟩

theorem inv_step {cmds : List Cmd} {c c' : Cxt} {k : Cmd} {ms : List (Int × Msg)} {r : Reply} (I : Inv cmds c)
    (h : step c k = some (c', ms, r)) : Inv (cmds ++ [k]) c' := by
  cases k with
  | setKeys info =>
    simp only [step, Option.map_eq_some_iff, Prod.mk.injEq] at h
    obtain ⟨a, -, rfl, -, -⟩ := h
    exact inv_same I rfl rfl rfl rfl rfl (members_snoc ..) (subOps_snoc ..) (started_snoc ..) (dayOf_snoc ..)
  | setSdbs info =>
    simp only [step, Option.map_eq_some_iff, Prod.mk.injEq] at h
    obtain ⟨⟨a, b⟩, ha, rfl, -, -⟩ := h
    have : ∃ p, a = { c with sdbs := p } := by
      unfold setSdbs at ha
      split at ha
      · cases ha
      · cases ha
      · split at ha
        · simp only [Option.some.injEq, Prod.mk.injEq] at ha
          exact ⟨_, ha.1.symm⟩
        · simp only [Option.some.injEq, Prod.mk.injEq] at ha
          exact ⟨_, ha.1.symm⟩
    obtain ⟨p, rfl⟩ := this
    exact inv_same I rfl rfl rfl rfl rfl (members_snoc ..) (subOps_snoc ..) (started_snoc ..) (dayOf_snoc ..)
  | setOther =>
    simp only [step, Option.some.injEq, Prod.mk.injEq] at h
    obtain ⟨rfl, -, -⟩ := h
    exact inv_same I rfl rfl rfl rfl rfl (members_snoc ..) (subOps_snoc ..) (started_snoc ..) (dayOf_snoc ..)
  | start n today =>
    simp only [step, Option.some.injEq, Prod.mk.injEq] at h
    obtain ⟨rfl, -, -⟩ := h
    refine ⟨by rw [started_snoc]; rfl, by rw [dayOf_snoc], ?_, ?_, ?_, ?_, ?_⟩
    · rw [members_snoc, ← I.users]; simp [List.map_map, Function.comp_def]
    · have := I.nodup; simpa [List.map_map, Function.comp_def] using this
    · intro _ u hu
      obtain ⟨v, -, rfl⟩ := List.mem_map.1 hu
      exact Or.inl rfl
    · exact Int.natCast_nonneg _
    · rw [subOps_snoc]; exact I.hist
  | stop =>
    simp only [step, Option.some.injEq] at h
    unfold stop at h
    by_cases hs : c.stat = .stop ∨ c.stat = .idle
    · rw [if_pos hs] at h
      simp only [Prod.mk.injEq] at h
      obtain ⟨rfl, -, -⟩ := h
      refine ⟨?_, I.date.trans (by simp [dayOf_snoc]), ?_, I.nodup, I.live, I.readers, ?_⟩
      · rw [started_snoc]
        rcases hs with hs | hs <;> rw [hs] <;> rfl
      · rw [members_snoc]; exact I.users
      · rw [subOps_snoc]; exact I.hist
    · rw [if_neg hs] at h
      simp only [Prod.mk.injEq] at h
      obtain ⟨rfl, -, -⟩ := h
      refine ⟨by rw [started_snoc]; rfl, I.date.trans (by simp [dayOf_snoc]), ?_, ?_, ?_, ?_, ?_⟩
      · rw [members_snoc, ← I.users]; simp [List.map_map, Function.comp_def]
      · have := I.nodup; simpa [List.map_map, Function.comp_def] using this
      · intro h; cases h
      · exact Int.natCast_nonneg _
      · rw [subOps_snoc]; exact I.hist
  | pub s i =>
    simp only [step, pub] at h
    cases hr : readerInit c with
    | none => rw [hr] at h; cases h
    | some x =>
      obtain ⟨c1, m1, b⟩ := x
      rw [hr] at h
      have hk := readerInit_spec I hr
      cases b with
      | false =>
        simp only [Option.some.injEq, Prod.mk.injEq] at h
        obtain ⟨rfl, -, -⟩ := h
        rcases hk with ⟨-, rfl, -⟩ | ⟨h0, -⟩
        · exact inv_same I rfl rfl rfl rfl rfl (members_snoc ..) (subOps_snoc ..) (started_snoc ..) (dayOf_snoc ..)
        · cases h0
      | true =>
        simp only [Option.map_eq_some_iff, Prod.mk.injEq] at h
        obtain ⟨l, -, rfl, -, -⟩ := h
        rcases hk with ⟨h0, -⟩ | ⟨-, h1, h2, h3, h4, -, -, h5, h6, -⟩
        · cases h0
        · refine ⟨?_, h4.trans (I.date.trans (by simp [dayOf_snoc])), ?_, ?_, ?_, h6, ?_⟩
          · rw [started_snoc]
            exact h3.trans (h1.symm.trans I.on)
          · rw [members_snoc, ← I.users, h2, List.map_map]
            apply List.map_congr_left
            intro u _
            simp only [Function.comp_apply, opened]
            split <;> rfl
          · have := I.nodup
            rw [h2, List.map_map]
            simpa only [Function.comp_def, opened_cid] using this
          · intro _ u hu
            rw [h2] at hu
            obtain ⟨v, hv, rfl⟩ := List.mem_map.1 hu
            exact Or.inr (opened_work (I.live h1 v hv))
          · rw [subOps_snoc, h5]; exact I.hist
  | sub cid p =>
    simp only [step, Option.map_eq_some_iff, Prod.mk.injEq] at h
    obtain ⟨⟨s, n⟩, hs, rfl, -, -⟩ := h
    have hsub : (userIncr c cid p).subs = c.subs := by unfold userIncr; split <;> rfl
    rw [hsub] at hs
    have hh : Sub.Hist (subOps (cmds ++ [.sub cid p])) s := by
      rw [subOps_snoc]
      exact .snoc I.hist (op := .sub cid p true) (o := .reply n) (by simp only [Sub.step, hs, Option.map_some])
    by_cases ha : c.users.any (fun u => u.cid == cid) = true
    · have hu : userIncr c cid p = c := by unfold userIncr; rw [if_pos ha]
      rw [hu]
      have hm : members (cmds ++ [.sub cid p]) = members cmds := by
        rw [members_snoc]
        dsimp only
        rw [if_pos (by rw [← I.any]; exact ha)]
      exact ⟨I.on.trans (by simp [started_snoc]), I.date.trans (by simp [dayOf_snoc]), by rw [hm]; exact I.users, I.nodup, I.live, I.readers, hh⟩
    · have hu : userIncr c cid p = { c with users := c.users ++ [⟨cid, .init, Sub.part (Sub.before p), Sub.part (Sub.after p)⟩] } := by
        unfold userIncr; rw [if_neg ha]
      rw [hu]
      have hm : members (cmds ++ [.sub cid p]) = members cmds ++ [(cid, p)] := by
        rw [members_snoc]
        dsimp only
        rw [if_neg (by rw [← I.any]; exact ha)]
      refine ⟨I.on.trans (by simp [started_snoc]), I.date.trans (by simp [dayOf_snoc]), ?_, ?_, ?_, ?_, hh⟩
      · rw [hm]
        dsimp only
        rw [List.map_append, List.map_append, I.users]
        rfl
      · dsimp only
        rw [List.map_append, List.nodup_append]
        refine ⟨I.nodup, by simp, ?_⟩
        intro a haa b hb
        simp only [List.map_cons, List.map_nil, List.mem_singleton] at hb
        subst hb
        intro e
        subst e
        apply ha
        obtain ⟨u, hu1, hu2⟩ := List.mem_map.1 haa
        exact List.any_eq_true.2 ⟨u, hu1, by simpa using hu2⟩
      · intro hl u hu
        rcases List.mem_append.1 hu with hu | hu
        · exact I.live hl u hu
        · rw [List.mem_singleton.1 hu]; exact Or.inl rfl
      · have := I.readers
        dsimp only
        rw [List.countP_append]
        omega
  | unsub cid =>
    simp only [step, Option.some.injEq, Prod.mk.injEq] at h
    obtain ⟨rfl, -, -⟩ := h
    have hsub : (userDecr c cid).subs = c.subs := by unfold userDecr; split <;> rfl
    have hh : Sub.Hist (subOps (cmds ++ [.unsub cid])) (Sub.unsub (userDecr c cid).subs cid).1 := by
      rw [subOps_snoc, hsub]
      exact .snoc I.hist (op := .unsub cid) (o := .reply (Sub.unsub c.subs cid).2) rfl
    have hm : members (cmds ++ [.unsub cid]) = (members cmds).filter fun x => x.1 != cid := by rw [members_snoc]
    by_cases ha : c.users.any (fun u => u.cid == cid) = true
    · have hu : userDecr c cid = { c with users := c.users.filter (fun u => u.cid != cid), readers := max (c.readers - 1) 0 } := by
        unfold userDecr; rw [if_pos ha]
      refine ⟨?_, ?_, ?_, ?_, ?_, ?_, hh⟩
      · rw [hu]; exact I.on.trans (by simp [started_snoc])
      · rw [hu]; exact I.date.trans (by simp [dayOf_snoc])
      · rw [hu, hm]
        dsimp only
        have e := congrArg (List.filter fun x => x.1 != cid) I.users
        rw [List.filter_map, List.filter_map] at e
        exact e
      · rw [hu]
        exact (List.Sublist.map _ List.filter_sublist).nodup I.nodup
      · rw [hu]
        intro hl u hv
        exact I.live hl u (List.mem_filter.1 hv).1
      · rw [hu]
        dsimp only
        have hr := I.readers
        have hcount : ∀ l : List User, (l.map User.cid).Nodup →
            l.countP (fun u => u.stat = .work) ≤ (l.filter (fun u => u.cid != cid)).countP (fun u => u.stat = .work) + 1 := by
          intro l
          induction l with
          | nil => simp
          | cons v l ih =>
            intro hn
            simp only [List.map_cons, List.nodup_cons] at hn
            by_cases hv : v.cid = cid
            · have hf : l.filter (fun u => u.cid != cid) = l := by
                rw [List.filter_eq_self]
                intro u hu
                simp only [bne_iff_ne, ne_eq]
                intro e
                exact hn.1 (List.mem_map.2 ⟨u, hu, e.trans hv.symm⟩)
              rw [List.filter_cons, if_neg (by simp [hv]), hf, List.countP_cons]
              split <;> omega
            · rw [List.filter_cons, if_pos (by simpa using hv), List.countP_cons, List.countP_cons]
              have := ih hn.2
              omega
        have := hcount c.users I.nodup
        omega
    · have hu : userDecr c cid = c := by unfold userDecr; rw [if_neg ha]
      have hf : (members cmds).filter (fun x => x.1 != cid) = members cmds := by
        rw [List.filter_eq_self]
        intro x hx
        simp only [bne_iff_ne, ne_eq]
        intro e
        apply ha
        rw [I.any]
        exact List.any_eq_true.2 ⟨x, hx, by simpa using e⟩
      refine ⟨?_, ?_, ?_, ?_, ?_, ?_, hh⟩
      · rw [hu]; exact I.on.trans (by simp [started_snoc])
      · rw [hu]; exact I.date.trans (by simp [dayOf_snoc])
      · rw [hu, hm, hf]; exact I.users
      · rw [hu]; exact I.nodup
      · rw [hu]; exact I.live
      · rw [hu]; exact I.readers

theorem run_inv : ∀ {cmds : List Cmd} {c : Cxt} {out : List (Int × Msg)}, run init cmds = some (c, out) → Inv cmds c := by
  intro cmds
  induction cmds using List.reverseRecOn with
  | nil =>
    intro c out h
    simp only [run, Option.some.injEq, Prod.mk.injEq] at h
    rw [← h.1]; exact inv_init
  | append_singleton a k ih =>
    intro c out h
    obtain ⟨c1, o1, o2, r, h1, h2, -⟩ := run_snoc h
    exact inv_step (ih h1) h2

end Sis.Live
