import Verif.Sno.PutLemmas
import Verif.Sdb.Growth
/- Lemmas on files of records in order: the calls of a session, closing and opening. -/
namespace Sis.Sno
open Sis Sis.Disk Sis.Sdb
open Sis.Dyn (sameN getN setN Db sameN_iff sameN_refl getN_none getN_some setN_spec getN_congr)

/-! ### Bytes are only added -/

theorem flush_grow {lib : Lib} {f f' : File} (h : flush lib f = some f') : ∃ x, f'.c.body = f.c.body ++ x := by
  unfold flush at h
  obtain ⟨cats, _, h⟩ := Option.map_eq_some_iff.1 h
  obtain ⟨x, hx⟩ := putCats_grow lib cats f.c
  rw [← h]
  refine ⟨x ++ ?_, ?_⟩
  rotate_left
  · show (cats.foldl (fun c e => putCat lib c e.2) f.c).body ++ _ = _
    rw [hx, List.append_assoc]

theorem ioWrite_grow {lib : Lib} {v : Time.Env} {limit : Nat} {f f' : File} {k s : Bytes × Nat} {dbs : List Db} {d : Bytes} (h : ioWrite lib v limit f k s dbs d = some f') :
    ∃ x, f'.c.body = f.c.body ++ x := by
  unfold ioWrite at h
  split at h
  · rw [← Option.some.inj h]; exact ⟨[], by simp⟩
  · split at h
    · cases h
    · split at h
      · rw [← Option.some.inj h]; exact ⟨[], by simp⟩
      · obtain ⟨cats, _, h⟩ := Option.bind_eq_some_iff.1 h
        obtain ⟨t, _, h⟩ := Option.bind_eq_some_iff.1 h
        obtain ⟨ms, _, h⟩ := Option.bind_eq_some_iff.1 h
        simp only at h
        split at h
        · have h2 := flush_grow h
          exact h2
        · rw [← Option.some.inj h]; exact ⟨[], by simp⟩

theorem step_grow {lib : Lib} {v : Time.Env} {limit : Nat} {f f' : File} {x : Cmd} (h : step lib v limit f x = some f') : ∃ y, f'.c.body = f.c.body ++ y := by
  cases x with
  | keys s =>
    rw [← Option.some.inj h]
    unfold setKeys
    split
    · exact ⟨[], by simp⟩
    · obtain ⟨x, hx⟩ := writeKeys_grow lib ((splitNames s).foldl setKey f.c)
      exact ⟨x, by show (writeKeys lib ((splitNames s).foldl setKey f.c)).body = _; rw [hx, setKeys_body]⟩
  | tabs ts =>
    rw [← Option.some.inj h]
    obtain ⟨x, hx⟩ := writeTabs_grow lib (ts.foldl setTab f.c)
    have hb : ∀ (ts : List Tab) (c : Ctl), (ts.foldl setTab c).body = c.body := by
      intro ts
      induction ts with
      | nil => intro c; rfl
      | cons t ts ih => intro c; rw [List.foldl_cons, ih, setTab_body]
    exact ⟨x, by show (writeTabs lib (ts.foldl setTab f.c)).body = _; rw [hx, hb]⟩
  | start =>
    rw [← Option.some.inj h]
    obtain ⟨x, hx⟩ := writeKeys_grow lib f.c
    obtain ⟨y, hy⟩ := writeTabs_grow lib (writeKeys lib f.c)
    exact ⟨x ++ y, by show (writeTabs lib (writeKeys lib f.c)).body = _; rw [hy, hx, List.append_assoc]⟩
  | put k s d =>
    simp only [step, put] at h
    split at h
    · rw [← Option.some.inj h]; exact ⟨[], by simp⟩
    · obtain ⟨k', _, h⟩ := Option.bind_eq_some_iff.1 h
      obtain ⟨y, hy⟩ := ioWrite_grow h
      rw [hy]
      show ∃ z, (if (getKey f.c.kd k).isSome = true then f.c else writeKeys lib (setKey f.c k)).body ++ y = f.c.body ++ z
      split
      · exact ⟨y, rfl⟩
      · obtain ⟨x, hx⟩ := writeKeys_grow lib (setKey f.c k)
        exact ⟨x ++ y, by rw [hx, setKey_body, List.append_assoc]⟩
  | stop =>
    simp only [step, stop] at h
    obtain ⟨f1, h1, h2⟩ := Option.map_eq_some_iff.1 h
    obtain ⟨x, hx⟩ := flush_grow h1
    exact ⟨x, by rw [← h2]; exact hx⟩

theorem steps_grow {lib : Lib} {v : Time.Env} {limit : Nat} (cs : List Cmd) : ∀ {f f' : File}, cs.foldlM (step lib v limit) f = some f' → ∃ y, f'.c.body = f.c.body ++ y := by
  induction cs with
  | nil => intro f f' h; rw [← Option.some.inj (show some f = some f' by simpa using h)]; exact ⟨[], by simp⟩
  | cons c cs ih =>
    intro f f' h
    rw [List.foldlM_cons] at h
    obtain ⟨f1, h1, h2⟩ := Option.bind_eq_some_iff.1 h
    obtain ⟨x, hx⟩ := step_grow h1
    obtain ⟨y, hy⟩ := ih h2
    exact ⟨x ++ y, by rw [hy, hx, List.append_assoc]⟩

/-! ### The calls -/

theorem setKey_sd (c : Ctl) (k : Bytes) : (setKey c k).sd = c.sd := by
  unfold setKey; split <;> rfl

theorem writeKeys_sd (lib : Lib) (c : Ctl) : (writeKeys lib c).sd = c.sd := by
  unfold writeKeys; split
  · rfl
  · simp only [writeWork]; split <;> rfl

theorem step_ok {lib : Lib} (L : ZipOk lib) {P : Db → Prop} (T : TextOk lib P) {v : Time.Env} {limit : Nat} {a : Abs} {f f' : File} {pgs : List (List Rec)} {pend : List Rec}
    (h : St lib P a f pgs pend) (hsize : pend.length ≤ f.size ∧ f.size ≤ limit) {x : Act} (hx : Allowed P limit a x) (hs : step lib v limit f x.cmd = some f')
    (hb : f'.c.body.length + 64 < 2 ^ 31) :
    ∃ pgs' pend', St lib P (a.act x) f' pgs' pend' ∧ pend'.length ≤ f'.size ∧ f'.size ≤ limit := by
  have hmh : mainHead ≤ 64 := by decide
  cases x with
  | keys ks =>
    have hs := Option.some.inj hs
    have hg : ∀ k ∈ ks, GoodKey k := fun k hk => goodKey (hx k hk).1
    replace hs : setKeys lib f (List.intercalate [44] ks) = f' := hs
    simp only [setKeys, join_eq] at hs
    by_cases hks : ks = []
    · subst hks
      have e : joinNames [] = [] := rfl
      rw [if_pos e] at hs
      rw [← hs]
      exact ⟨pgs, pend, h, hsize⟩
    · rw [if_neg (joinNames_ne hks hg), splitNames_join _ hg] at hs
      subst hs
      exact ⟨pgs, pend, keys_ok h hg (by simp only at hb; omega), hsize⟩
  | tabs ts =>
    have hs := Option.some.inj hs
    replace hs : setTabs lib f ts = f' := hs
    simp only [setTabs] at hs
    subst hs
    obtain ⟨h1, h2⟩ := hx
    exact ⟨pgs, pend, tabs_ok T h (fun t ht => ⟨goodTab (h1 t ht).1, (h1 t ht).2.2.1⟩) (fun t ht => (h1 t ht).2.2.2.1) h2 (fun t ht => (h1 t ht).2.2.2.2)
      (by simp only at hb; omega), hsize⟩
  | start =>
    have hs := Option.some.inj hs
    have hbusy : a.busy = false := hx
    have hc : f.cats = none := by
      cases hc : f.cats with
      | none => rfl
      | some cats => have := (h.live cats hc).1; rw [hbusy] at this; cases this
    obtain ⟨_, hp⟩ := h.idle hc
    have e1 : writeKeys lib f.c = f.c := by unfold writeKeys; rw [if_pos h.core.newk]
    have e2 : writeTabs lib f.c = f.c := by unfold writeTabs; rw [if_pos h.core.news]
    replace hs : start lib f = f' := hs
    simp only [start, e1, e2] at hs
    subst hs
    subst hp
    refine ⟨pgs, [], ⟨h.core, h.keys, h.tabs, h.recs, h.good, h.ends, h.ecnt, h.pages, by show (0 : Nat) < 2 ^ 64; omega, rfl, (by intro e; cases e), ?_⟩, Nat.le_refl _, Nat.zero_le _⟩
    intro cats hcats
    have hcats : [] = cats := Option.some.inj hcats
    subst hcats
    exact ⟨rfl, List.Pairwise.nil, by simp, by simp⟩
  | put k s d =>
    obtain ⟨h1, h2, h3, h4, h5⟩ := hx
    simp only [Act.cmd, step, put] at hs
    obtain ⟨v1, v2⟩ := getTab_view h.core.inv.sdiff s
    rw [h.tabs] at v1 v2
    cases hg : getTab f.c.sd s with
    | none =>
      rw [hg] at hs
      simp only [Option.some.injEq] at hs
      subst hs
      have : a.act (.put k s d) = a := by
        simp only [Abs.act, v1 hg]
      rw [this]
      exact ⟨pgs, pend, h, hsize⟩
    | some t =>
      obtain ⟨⟨s', dbs⟩, si⟩ := t
      rw [hg] at hs
      obtain ⟨w1, w2, w3⟩ := v2 s' dbs si hg
      simp only at hs
      obtain ⟨⟨k', ki⟩, hk', hs⟩ := Option.bind_eq_some_iff.1 hs
      have hgood := goodKey h2
      obtain ⟨c1, hc1⟩ : ∃ c1, c1 = if (getKey f.c.kd k).isSome = true then f.c else writeKeys lib (setKey f.c k) := ⟨_, rfl⟩
      rw [← hc1] at hk' hs
      have hg1 := ioWrite_grow hs
      obtain ⟨y, hy⟩ := hg1
      have hlen : c1.body.length + 64 < 2 ^ 31 := by
        have e : ({ f with c := c1 } : File).c = c1 := rfl
        rw [hy, e, List.length_append] at hb
        omega
      have hst : St lib P { a with keys := addName a.keys k } { f with c := c1 } pgs pend := by
        by_cases hsome : (getKey f.c.kd k).isSome = true
        · rw [if_pos hsome] at hc1
          rw [hc1, ← h.keys, addName_eq, if_pos hsome, h.keys]
          exact h
        · rw [if_neg hsome] at hc1
          rw [hc1] at hlen ⊢
          exact keys_ok h (ks := [k]) (by simpa using hgood) (by simp only [List.foldl_cons, List.foldl_nil]; omega)
      have hsd : c1.sd = f.c.sd := by
        rw [hc1]
        split
        · rfl
        · rw [writeKeys_sd, setKey_sd]
      have hkeys : c1.kd = addName a.keys k := hst.keys
      have hsp : spell (addName a.keys k) k = k' := by
        rw [← hkeys]
        exact spell_eq hst.core.inv.kdiff hk'
      have := ioWrite_ok L (v := v) hst hsize (getKey_some hk').2.2 (by show c1.sd[si]? = _; rw [hsd]; exact w1) h1 h4 h5 hs hlen (by omega)
      have hact : a.act (.put k s d) = { a with
          keys := addName a.keys k
          recs := a.recs ++ if d.length % (dbs.getLast?.map (·.size)).getD 0 = 0 then
            (records ((dbs.getLast?.map (·.size)).getD 0) (d.length / (dbs.getLast?.map (·.size)).getD 0) d).map fun r => ⟨k', s', r⟩ else [] } := by
        simp only [Abs.act, w3, hsp]
      rw [hact]
      exact this
  | stop =>
    obtain ⟨f1, h1, h2⟩ := Option.map_eq_some_iff.1 hs
    subst h2
    obtain ⟨g1, g2⟩ := flush_ok L h h1 (by simp only at hb; omega)
    refine ⟨pgs ++ [pend], [], ⟨g1.core, g1.keys, g1.tabs, g1.recs, g1.good, g1.ends, g1.ecnt, g1.pages, g1.msec, g1.series, fun _ => ⟨rfl, rfl⟩, (by intro c e; cases e)⟩, by simp, ?_⟩
    show f1.size ≤ limit
    rw [g2]; omega

theorem steps_ok {lib : Lib} (L : ZipOk lib) {P : Db → Prop} (T : TextOk lib P) {v : Time.Env} {limit : Nat} (as : List Act) : ∀ {a : Abs} {f f' : File}
    {pgs : List (List Rec)} {pend : List Rec}, St lib P a f pgs pend → pend.length ≤ f.size ∧ f.size ≤ limit →
    (∀ (pre : List Act) (x : Act) (post : List Act), as = pre ++ x :: post → Allowed P limit (a.acts pre) x) →
    (as.map Act.cmd).foldlM (step lib v limit) f = some f' → f'.c.body.length + 64 < 2 ^ 31 → ∃ pgs' pend', St lib P (a.acts as) f' pgs' pend' := by
  induction as with
  | nil =>
    intro a f f' pgs pend h _ _ hs _
    rw [← Option.some.inj (show some f = some f' by simpa using hs)]
    exact ⟨pgs, pend, h⟩
  | cons x as ih =>
    intro a f f' pgs pend h hsize hal hs hb
    rw [List.map_cons, List.foldlM_cons] at hs
    obtain ⟨f1, h1, h2⟩ := Option.bind_eq_some_iff.1 hs
    obtain ⟨y, hy⟩ := steps_grow _ h2
    obtain ⟨pgs1, pend1, g1, g2⟩ := step_ok L T h hsize (hal [] x as rfl) h1 (by rw [hy, List.length_append] at hb; omega)
    exact ih g1 g2 (fun pre z post he => hal (x :: pre) z post (by rw [he]; rfl)) h2 hb

/-! ### A new file -/

theorem st_new (lib : Lib) (P : Db → Prop) : St lib P {} {} [] [] := by
  refine ⟨⟨⟨rfl, List.Pairwise.nil, ⟨[], rfl, rfl⟩, ⟨[], rfl, rfl⟩, List.Pairwise.nil, ?_, List.Pairwise.nil, ?_, ?_, ?_, ?_, ?_, ?_, fun _ _ h => by cases h⟩, rfl, rfl, ?_, ?_, ⟨[], rfl, by simp, fun _ _ _ _ _ _ => rfl⟩, ?_,
    Nat.le_refl _, Nat.le_refl _, Nat.le_refl _, Nat.le_refl _, Nat.zero_le _⟩, rfl, rfl, rfl, ?_, ?_, Nat.le_refl _, rfl, by show (0 : Nat) < 2 ^ 64; omega, rfl, fun _ => ⟨rfl, rfl⟩, ?_⟩
  all_goals first
    | (intro x h; cases h; done)
    | (intro k s h; cases h)

/-! ### Closing and opening -/

theorem topOf_le (us : List IUnit) : ∀ t, t ≤ topOf t us ∧ ∀ u ∈ us, u.stop ≤ topOf t us := by
  induction us with
  | nil => intro t; exact ⟨Nat.le_refl _, by simp⟩
  | cons u us ih =>
    intro t
    obtain ⟨h1, h2⟩ := ih (max t u.stop)
    refine ⟨by show t ≤ topOf (max t u.stop) us; omega, fun x hx => ?_⟩
    show x.stop ≤ topOf (max t u.stop) us
    rcases List.mem_cons.1 hx with rfl | hx
    · omega
    · exact h2 x hx

theorem topOf_lt {N : Nat} (us : List IUnit) : ∀ t, t < N → (∀ u ∈ us, u.stop < N) → topOf t us < N := by
  induction us with
  | nil => intro t h _; exact h
  | cons u us ih =>
    intro t h hu
    have := hu u (by simp)
    exact ih (max t u.stop) (by omega) fun x hx => hu x (by simp [hx])

theorem tops_le (es : List (Bytes × Node)) : ∀ t, t ≤ tops t es ∧ ∀ e ∈ es, ∀ u ∈ e.2.units, u.stop ≤ tops t es := by
  induction es with
  | nil => intro t; exact ⟨Nat.le_refl _, by simp⟩
  | cons e es ih =>
    intro t
    obtain ⟨h1, h2⟩ := ih (topOf t e.2.units)
    obtain ⟨h3, h4⟩ := topOf_le e.2.units t
    refine ⟨Nat.le_trans h3 h1, fun x hx u hu => ?_⟩
    rcases List.mem_cons.1 hx with rfl | hx
    · exact Nat.le_trans (h4 u hu) h1
    · exact h2 x hx u hu

theorem tops_lt {N : Nat} (es : List (Bytes × Node)) : ∀ t, t < N → (∀ e ∈ es, ∀ u ∈ e.2.units, u.stop < N) → tops t es < N := by
  induction es with
  | nil => intro t h _; exact h
  | cons e es ih =>
    intro t h hu
    exact ih _ (topOf_lt _ t h (hu e (by simp))) fun x hx => hu x (by simp [hx])

theorem pagesFrom_mem {k s : Bytes} (pgs : List (List Rec)) : ∀ (i p : Nat) (pg : List Rec), pgs[p]? = some pg → mine pg k s ≠ [] → (i + p, mine pg k s) ∈ pagesFrom i pgs k s := by
  induction pgs with
  | nil => intro i p pg h; cases h
  | cons q qs ih =>
    intro i p pg h hm
    rw [pagesFrom]
    cases p with
    | zero =>
      simp only [List.getElem?_cons_zero, Option.some.injEq] at h
      subst h
      rw [if_neg hm]; simp
    | succ p =>
      rw [List.getElem?_cons_succ] at h
      have := ih (i + 1) p pg h hm
      rw [show i + 1 + p = i + (p + 1) by omega] at this
      exact List.mem_append.2 (.inr this)

theorem forall2_right {α β : Type} {R : α → β → Prop} {as : List α} {bs : List β} (h : List.Forall₂ R as bs) : ∀ b ∈ bs, ∃ a ∈ as, R a b := by
  induction h with
  | nil => simp
  | cons h _ ih =>
    intro b hb
    rcases List.mem_cons.1 hb with rfl | hb
    · exact ⟨_, by simp, h⟩
    · obtain ⟨a, ha, hr⟩ := ih b hb; exact ⟨a, by simp [ha], hr⟩

theorem forall2_left {α β : Type} {R : α → β → Prop} {as : List α} {bs : List β} (h : List.Forall₂ R as bs) : ∀ a ∈ as, ∃ b ∈ bs, R a b := by
  induction h with
  | nil => simp
  | cons h _ ih =>
    intro b hb
    rcases List.mem_cons.1 hb with rfl | hb
    · exact ⟨_, by simp, h⟩
    · obtain ⟨a, ha, hr⟩ := ih b hb; exact ⟨a, by simp [ha], hr⟩

theorem inv_kind {lib : Lib} {P : Db → Prop} {c : Ctl} (h : Inv lib P c) (ht : ∀ e ∈ data c.idx, e.2.sname ≠ none) : Inv lib P { c with kind := .date } :=
  ⟨rfl, h.diff, h.keys, h.tabs, h.kdiff, h.knames, h.sdiff, h.snames, h.news, h.nodes, h.units, h.kkind, h.tkind, fun _ => ht⟩

/-- A node and the pages it names. -/
theorem node_pages {lib : Lib} {P : Db → Prop} {c : Ctl} {pgs : List (List Rec)} (h : Core lib P c pgs) {e : Bytes × Node} (he : e ∈ data c.idx) :
    ∃ k s, Named c.kd c.sd e k (some s) ∧ e.2.units ≠ [] ∧
      List.Forall₂ (fun u pq => u.stop = pq.1 ∧ UnitHas lib c.body c.kd (tabView c.sd) u k s pq.2) e.2.units (pagesFrom 0 pgs k s) := by
  obtain ⟨⟨k, s, hnm⟩, hu⟩ := h.nodes e he
  obtain ⟨dbs, hdb⟩ := hnm.tab s rfl
  have := h.units k s hnm.key (mem_tabView hdb)
  have hg := getN_mem h.inv.diff (List.mem_filter.1 he).1
  rw [hnm.name] at hg
  unfold unitsOf dictUnits at this
  rw [hg] at this
  exact ⟨k, s, hnm, hu, this⟩

/-- The pages that are left when a file is closed and opened. -/
theorem pages_back {lib : Lib} {P : Db → Prop} {c : Ctl} {pgs : List (List Rec)} (h : Core lib P c pgs)
    (hgood : ∀ r ∈ pgs.flatten, r.key ∈ c.kd ∧ (r.tab, r.data.length) ∈ tabView c.sd) :
    ∃ pgs' : List (List Rec), pgs'.length = tops 0 (data c.idx) + 1 ∧ pgs'.flatten = pgs.flatten ∧ (∀ k s, pagesFrom 0 pgs' k s = pagesFrom 0 pgs k s) ∧
      pgs'.length ≤ pgs.length + 1 := by
  have hlt : ∀ e ∈ data c.idx, ∀ u ∈ e.2.units, u.stop < pgs.length := by
    intro e he u hu
    obtain ⟨k, s, _, _, hf⟩ := node_pages h he
    obtain ⟨pq, hpq, h1, _⟩ := forall2_left hf u hu
    have := (pagesFrom_range k s pgs 0 pq hpq).2.1
    omega
  by_cases hp : pgs = []
  · subst hp
    have hd : data c.idx = [] := by
      cases hd : data c.idx with
      | nil => rfl
      | cons e l =>
        obtain ⟨k, s, _, hu, hf⟩ := node_pages h (e := e) (by rw [hd]; simp)
        cases hfu : e.2.units with
        | nil => exact absurd hfu hu
        | cons u us => have := hlt e (by rw [hd]; simp) u (by rw [hfu]; simp); simp at this
    rw [hd]
    exact ⟨[[]], rfl, rfl, fun k s => by simp [pagesFrom, mine, tagFrom], by simp⟩
  · have hM := tops_lt (data c.idx) 0 (List.length_pos_iff.2 hp) hlt
    obtain ⟨M, hMd⟩ : ∃ M, M = tops 0 (data c.idx) := ⟨_, rfl⟩
    rw [← hMd] at hM ⊢
    have hempty : ∀ pg ∈ pgs.drop (M + 1), pg = [] := by
      intro pg hpg
      cases pg with
      | nil => rfl
      | cons r rs =>
        exfalso
        obtain ⟨j, hj⟩ := List.mem_iff_getElem?.1 hpg
        rw [List.getElem?_drop] at hj
        have hrin : r ∈ pgs.flatten := List.mem_flatten.2 ⟨_, List.mem_of_getElem? hj, by simp⟩
        obtain ⟨g1, g2⟩ := hgood r hrin
        have hm : mine (r :: rs) r.key r.tab ≠ [] := by
          unfold mine
          rw [tagFrom, List.filter_cons, if_pos (by simp)]
          simp
        have hin := pagesFrom_mem pgs 0 (M + 1 + j) (r :: rs) hj hm
        obtain ⟨u, hu, h1, _⟩ := forall2_right (h.units r.key r.tab g1 ⟨_, g2⟩) _ hin
        unfold unitsOf at hu
        unfold dictUnits at hu
        cases hg : getN c.idx (nodeName r.key (some r.tab)) with
        | none => rw [hg] at hu; cases hu
        | some nd =>
          rw [hg] at hu
          obtain ⟨i, e, e1, e2, e3⟩ := getN_some hg
          have e3' : sameN (nodeName r.key (some r.tab)) e.1 = true := by simpa using e3
          have hdn := isData_node r.key r.tab
          have hd : e ∈ data c.idx := List.mem_filter.2 ⟨List.mem_of_getElem? e1, by
            rw [← sameN_trans_r e3', ← sameN_trans_r e3', hdn.1, hdn.2]; rfl⟩
          have := (tops_le (data c.idx) 0).2 e hd u (by rw [e2]; exact hu)
          rw [← hMd] at this
          simp only at h1
          omega
    have hsplit : pgs = pgs.take (M + 1) ++ pgs.drop (M + 1) := (List.take_append_drop _ _).symm
    refine ⟨pgs.take (M + 1), by rw [List.length_take]; omega, ?_, ?_, by rw [List.length_take]; omega⟩
    · conv => rhs; rw [hsplit]
      rw [List.flatten_append]
      have : (pgs.drop (M + 1)).flatten = [] := List.flatten_eq_nil_iff.2 hempty
      rw [this, List.append_nil]
    · intro k s
      conv => rhs; rw [hsplit]
      rw [pagesFrom_append]
      have : pagesFrom (0 + (pgs.take (M + 1)).length) (pgs.drop (M + 1)) k s = [] := by
        apply pagesFrom_nil
        intro r hr
        obtain ⟨pg, hpg, hr⟩ := List.mem_flatten.1 hr
        rw [hempty pg hpg] at hr
        cases hr
      rw [this, List.append_nil]

theorem open_ok {lib : Lib} (L : ZipOk lib) {P : Db → Prop} {a : Abs} {f : File} {pgs : List (List Rec)} {pend : List Rec} (h : St lib P a f pgs pend) (hbusy : a.busy = false)
    {file : Bytes × Bytes} (hc : close lib f = some file) (hm : Moderate file) :
    ∃ f' pgs', openFile lib file = some f' ∧ St lib P a f' pgs' [] ∧ f'.c.body = file.1 ∧ f'.size = 0 ∧ ∀ e ∈ f'.c.idx, e ∈ data f'.c.idx ∨ e.2.kname = none := by
  have hcats : f.cats = none := by
    cases hc : f.cats with
    | none => rfl
    | some cats => have := (h.live cats hc).1; rw [hbusy] at this; cases this
  obtain ⟨_, hpend⟩ := h.idle hcats
  subst hpend
  have hrecs : a.recs = pgs.flatten := by rw [h.recs, List.append_nil]
  unfold close at hc
  obtain ⟨bs, hbs, hc⟩ := Option.bind_eq_some_iff.1 hc
  have hbn : bs ≠ [] := by intro e; rw [if_pos e] at hc; cases hc
  rw [if_neg hbn] at hc
  have hfile : file = (f.c.body, idxFile bs) := (Option.some.inj hc).symm
  have hbody : f.c.body.length + 64 < 2 ^ 31 := by have := hm.body; rw [hfile] at this; exact this
  have hidx : Readable (idxFile bs) := by
    have := hm.idx
    rw [hfile] at this
    exact this
  have hcnt : ∀ e ∈ data f.c.idx, e.2.units.length < 2 ^ 31 := by
    intro e he
    obtain ⟨k, s, _, _, hf⟩ := node_pages h.core he
    rw [hf.length_eq]
    have := pagesFrom_length k s pgs 0
    have := h.core.pnum
    omega
  have hdu : ∀ sign, (sign = signKeys ∨ sign = signTabs) → (dictUnits f.c.idx sign).length < 2 ^ 31 := by
    intro sign hsg
    have := h.core.kcnt
    have := h.core.scnt
    rcases hsg with rfl | rfl <;> omega
  have hiok := inv_idxOk h.core.inv h.core.newk h.core.news hcnt hdu
  have hpg : Pages (data f.c.idx) := by
    intro e he u hu
    obtain ⟨k, s, _, _, hf⟩ := node_pages h.core he
    obtain ⟨pq, hpq, h1, _⟩ := forall2_left hf u hu
    have := (pagesFrom_range k s pgs 0 pq hpq).2.1
    have := h.core.pnum
    omega
  obtain ⟨bs', e1, e2, e3⟩ := idx_back L hiok hpg h.ends (by have := h.ecnt; omega)
  rw [hbs] at e1
  have e1 := Option.some.inj e1
  subst e1
  have hlen : (bs.flatMap fun b => encRec b.1 b.2).length + 48 < 2 ^ 31 := by
    have : (idxFile bs).length = (bs.flatMap fun b => encRec b.1 b.2).length + 48 := by simp [idxFile]
    have h2 := hidx.len
    omega
  have hht : hidOf (headByte 1 0 hidTail) = 31 := by decide
  have hread := readFull_smooth bs (fun b hb => ⟨(e2 b hb).1, (e2 b hb).2, by have := flatMap_len hb; omega⟩) _ hht (List.replicate 47 0) (by simp) hidx.cut.prefix
  have hone : (bs.filter fun b => hidOf b.1 == hidIdxSno).length ≤ 1 := by
    apply hm.one bs
    rw [hfile]
    exact hread
  obtain ⟨r, r1, r2, r3, r4, r5⟩ := e3 hbn hone
  have hopen : openFile lib file = some { c := { kind := .date, body := f.c.body, kd := r.r.kd, sd := r.r.sd, idx := r.r.idx }, ends := r.ends, pages := r.pages } := by
    unfold openFile readIdx
    rw [hfile]
    simp only
    unfold idxFile
    rw [hread]
    simp only [Option.bind_some, r1, Option.map_some]
  obtain ⟨pgs', p1, p2, p3, p4⟩ := pages_back h.core (by rw [← hrecs]; exact h.good)
  obtain ⟨g1, g2, g3, g4⟩ := inv_reload h.core.inv h.core.newk h.core.news
  refine ⟨_, pgs', hopen, ?_, by rw [hfile], rfl, ?_⟩
  rotate_left
  · intro e he
    have hidx : r.r.idx = (reload f.c).idx := by rw [r2]; rfl
    have he : e ∈ r.r.idx := he
    show e ∈ data r.r.idx ∨ _
    rw [hidx] at he ⊢
    rw [g3]
    have hdn : ∀ sign, e ∈ dictNode f.c.idx sign → e.2.kname = none := by
      intro sign h
      unfold dictNode at h
      cases hg : getN f.c.idx sign with
      | none => rw [hg] at h; cases h
      | some n => rw [hg] at h; rw [List.mem_singleton.1 h]
    rcases List.mem_append.1 he with he | he
    · rcases List.mem_append.1 he with he | he
      · exact .inr (hdn _ he)
      · exact .inr (hdn _ he)
    · exact .inl he
  have hc' : ({ kind := .date, body := f.c.body, kd := r.r.kd, sd := r.r.sd, idx := r.r.idx } : Ctl) = { reload f.c with kind := .date } := by
    rw [r2]; rfl
  rw [hc']
  refine ⟨⟨inv_kind g1 (fun e he => by obtain ⟨⟨k, s, hnm⟩, _⟩ := h.core.nodes e (g3 ▸ he); rw [hnm.sname]; simp), rfl, rfl, ?_, ?_, ?_, h.core.size, h.core.knum, h.core.snum, ?_, ?_, ?_⟩, h.keys, h.tabs, by rw [hrecs, p2, List.append_nil], h.good, r4, Nat.le_trans r5 h.ecnt, ?_,
    by show (0 : Nat) < 2 ^ 64; omega, rfl, fun _ => ⟨hbusy, rfl⟩, by intro c e; cases e⟩
  · intro k s hk hs
    have := h.core.units k s hk hs
    rw [p3]
    unfold unitsOf dictUnits at this ⊢
    rw [show ({ reload f.c with kind := Kind.date } : Ctl).idx = (reload f.c).idx from rfl, g2 _ (isData_node k s)]
    exact this
  · intro e he
    have he : e ∈ data (reload f.c).idx := he
    rw [g3] at he
    exact h.core.nodes e he
  · rw [p2]; exact h.core.whole
  · show (dictUnits (reload f.c).idx signKeys).length ≤ f.c.body.length
    rw [g4 _ (.inl rfl), List.length_map]
    exact h.core.kcnt
  · show (dictUnits (reload f.c).idx signTabs).length ≤ f.c.body.length
    rw [g4 _ (.inr rfl), List.length_map]
    exact h.core.scnt
  · show pgs'.length ≤ f.c.body.length + 1
    rw [p1]
    by_cases hp : pgs = []
    · have hd : tops 0 (data f.c.idx) + 1 ≤ 1 := by rw [← p1]; rw [hp] at p4; exact p4
      omega
    · have := tops_lt (N := pgs.length) (data f.c.idx) 0 (List.length_pos_iff.2 hp) (by
        intro e he u hu
        obtain ⟨k, s, _, _, hf⟩ := node_pages h.core he
        obtain ⟨pq, hpq, h1, _⟩ := forall2_left hf u hu
        have := (pagesFrom_range k s pgs 0 pq hpq).2.1
        omega)
      have := h.core.pnum
      omega
  · show r.pages = pgs'.length
    rw [r3, p1]

/-- A file used in sessions is opened with what it should have. -/
theorem hist_ok {lib : Lib} (L : ZipOk lib) {P : Db → Prop} (T : TextOk lib P) {v : Time.Env} {limit : Nat} {old : Option (Bytes × Bytes)} {a : Abs} (h : Hist lib v P limit old a) :
    (old = none → a = {}) ∧ ∀ file, old = some file → ∃ f pgs, openFile lib file = some f ∧ St lib P a f pgs [] ∧ f.c.body = file.1 ∧ f.size = 0 ∧
      (∀ e ∈ f.c.idx, e ∈ data f.c.idx ∨ e.2.kname = none) ∧ Moderate file := by
  induction h with
  | new => exact ⟨fun _ => rfl, by intro f e; cases e⟩
  | @session old a hh as new s ih =>
    refine ⟨(by intro e; cases e), ?_⟩
    intro file hfile
    have hfile := Option.some.inj hfile
    subst hfile
    have hrun := s.run
    unfold session at hrun
    obtain ⟨f0, hf0, hrun⟩ := Option.bind_eq_some_iff.1 hrun
    obtain ⟨f1, hf1, hcl⟩ := Option.bind_eq_some_iff.1 hrun
    have hst : ∃ pgs, St lib P a f0 pgs [] ∧ f0.size = 0 := by
      cases old with
      | none =>
        have := ih.1 rfl
        subst this
        have hf0 : ({} : File) = f0 := Option.some.inj hf0
        subst hf0
        exact ⟨[], st_new lib P, rfl⟩
      | some o =>
        obtain ⟨f, pgs, g1, g2, _, g4, _⟩ := ih.2 o rfl
        have hf0 : openFile lib o = some f0 := hf0
        rw [g1] at hf0
        rw [← Option.some.inj hf0]
        exact ⟨pgs, g2, g4⟩
    obtain ⟨pgs, hst, hz⟩ := hst
    have hb1 : f1.c.body.length + 64 < 2 ^ 31 := by
      have := s.size.body
      have e : new.1 = f1.c.body := by
        unfold close at hcl
        obtain ⟨bs, _, hcl⟩ := Option.bind_eq_some_iff.1 hcl
        split at hcl
        · cases hcl
        · rw [← Option.some.inj hcl]
      rw [← e]; exact this
    obtain ⟨pgs1, pend1, hst1⟩ := steps_ok L T as hst (by rw [hz]; exact ⟨Nat.le_refl _, Nat.zero_le _⟩) s.ok hf1 hb1
    obtain ⟨f', pgs', g1, g2, g3, g4, g5⟩ := open_ok L hst1 s.stopped hcl s.size
    exact ⟨f', pgs', g1, g2, g3, g4, g5, s.size⟩

theorem addName_mem {ks : List Bytes} {k x : Bytes} (h : x ∈ addName ks k) : x ∈ ks ∨ x = k := by
  unfold addName at h
  split at h
  · exact .inl h
  · rcases List.mem_append.1 h with h | h
    · exact .inl h
    · exact .inr (List.mem_singleton.1 h)

theorem addNames_mem (l : List Bytes) : ∀ {ks : List Bytes} {x : Bytes}, x ∈ l.foldl addName ks → x ∈ ks ∨ x ∈ l := by
  induction l with
  | nil => intro ks x h; exact .inl h
  | cons k l ih =>
    intro ks x h
    rcases ih h with h | h
    · rcases addName_mem h with h | h
      · exact .inl h
      · exact .inr (by simp [h])
    · exact .inr (by simp [h])

theorem addTables_mem (l : List Tab) : ∀ {ts : List (Bytes × Nat)} {x : Bytes × Nat}, x ∈ l.foldl addTable ts → x ∈ ts ∨ ∃ t ∈ l, x.1 = t.name := by
  induction l with
  | nil => intro ks x h; exact .inl h
  | cons t l ih =>
    intro ks x h
    rcases ih h with h | ⟨t', h, h'⟩
    · unfold addTable at h
      split at h
      · exact .inl h
      · rcases List.mem_append.1 h with h | h
        · exact .inl h
        · exact .inr ⟨t, by simp, by rw [List.mem_singleton.1 h]⟩
    · exact .inr ⟨t', by simp [h], h'⟩

theorem acts_names {P : Db → Prop} {limit : Nat} (as : List Act) : ∀ {a : Abs}, ((∀ k ∈ a.keys, (0 : UInt8) ∉ k) ∧ ∀ t ∈ a.tabs, (44 : UInt8) ∉ t.1) →
    (∀ (pre : List Act) (x : Act) (post : List Act), as = pre ++ x :: post → Allowed P limit (a.acts pre) x) →
    (∀ k ∈ (a.acts as).keys, (0 : UInt8) ∉ k) ∧ ∀ t ∈ (a.acts as).tabs, (44 : UInt8) ∉ t.1 := by
  induction as with
  | nil => intro a h _; exact h
  | cons x as ih =>
    intro a h hok
    refine ih (a := a.act x) ?_ fun pre y post he => hok (x :: pre) y post (by rw [he]; rfl)
    have hx := hok [] x as rfl
    cases x with
    | keys ks =>
      refine ⟨fun k hk => ?_, h.2⟩
      rcases addNames_mem ks hk with hk | hk
      · exact h.1 k hk
      · exact (hx k hk).2
    | tabs ts =>
      refine ⟨h.1, fun t ht => ?_⟩
      rcases addTables_mem ts ht with ht | ⟨t', ht, he⟩
      · exact h.2 t ht
      · rw [he]; exact (hx.1 t' ht).2.1
    | start => exact h
    | put k s d =>
      simp only [Abs.act]
      split
      · exact h
      · refine ⟨fun k' hk => ?_, h.2⟩
        rcases addName_mem hk with hk | hk
        · exact h.1 k' hk
        · rw [hk]; exact hx.2.2.1
    | stop => exact h

/-- Names in a file are usual ones. -/
theorem hist_names {lib : Lib} {v : Time.Env} {P : Db → Prop} {limit : Nat} {old : Option (Bytes × Bytes)} {a : Abs} (h : Hist lib v P limit old a) :
    (∀ k ∈ a.keys, (0 : UInt8) ∉ k) ∧ ∀ t ∈ a.tabs, (44 : UInt8) ∉ t.1 := by
  induction h with
  | new => exact ⟨(by intro k h; cases h), (by intro k h; cases h)⟩
  | session hh s ih => exact acts_names _ ih s.ok

end Sis.Sno
