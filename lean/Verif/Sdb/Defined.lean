import Verif.Sdb.RefineHist
import Verif.Sdb.MergeLemmas
import Verif.Sdb.DefinedSpec
/- No call of a writer that is allowed does anything undefined, whatever the sizes of the files become. -/
namespace Sis.Sdb
open Sis Sis.Disk
open Sis.Dyn (sameN getN setN Db sameN_iff sameN_refl getN_none getN_some setN_spec getN_congr)

/-- What a data file needs for calls to be defined. -/
structure UW (P : Db → Prop) (u : Uid) (c : Ctl) : Prop where
  kind : c.kind = u.kind
  sd : ∀ e ∈ c.sd, e.2 ≠ [] ∧ ∀ db ∈ e.2, P db
  enc : ∀ x ∈ c.idx, Enc x

theorem UW.indexed {P : Db → Prop} {u : Uid} {c : Ctl} (h : UW P u c) : c.indexed = true := by
  unfold Ctl.indexed
  rw [h.kind]
  cases u <;> rfl

theorem uw_of {lib : Lib} {P : Db → Prop} {u : Uid} {c : Ctl} (h : UOk lib P u c) : UW P u c where
  kind := h.kind
  sd := fun e he => ⟨(h.inv.snames e he).2, h.pdbs e he⟩
  enc := by
    intro x hx
    by_cases h1 : sameN signKeys x.1 = true
    · exact .inl h1
    by_cases h2 : sameN signTabs x.1 = true
    · exact .inr (.inl h2)
    obtain ⟨k, s, hn⟩ := h.inv.nodes x (List.mem_filter.2 ⟨hx, by simp [h1, h2]⟩)
    exact .inr (.inr (by rw [hn.kname]; simp))

theorem enc_setN {idx : Idx} (h : ∀ x ∈ idx, Enc x) {name : Bytes} {n : Node} (hn : n.kname ≠ none ∨ ∃ o, getN idx name = some o ∧ n.kname = o.kname) :
    ∀ x ∈ (setN idx name n).1, Enc x := by
  intro x hx
  rcases mem_setN hx with hx | ⟨rfl, hg⟩ | ⟨o, ho, hs, hg, rfl⟩
  · exact h x hx
  · rcases hn with hn | ⟨o, ho, _⟩
    · exact .inr (.inr hn)
    · rw [hg] at ho; cases ho
  · rcases hn with hn | ⟨o', ho', hk⟩
    · exact .inr (.inr hn)
    · rw [hg] at ho'
      cases ho'
      rcases h o ho with h | h | h
      · exact .inl h
      · exact .inr (.inl h)
      · exact .inr (.inr (by rw [hk]; exact h))

theorem setN_ne {α : Type} (l : List (Bytes × α)) (k : Bytes) (v : α) : (setN l k v).1 ≠ [] := by
  rcases setN_spec l k v with ⟨_, h⟩ | ⟨i, o, h1, _, _, h⟩
  · rw [h]; simp
  · rw [h]
    intro hx
    rw [List.set_eq_nil_iff] at hx
    rw [hx] at h1; cases h1

theorem enc_upd {idx : Idx} (h : ∀ x ∈ idx, Enc x) (k : Bytes) (s : Option Bytes) (f : List IUnit → List IUnit) : ∀ x ∈ idxUpd idx k s f, Enc x := by
  unfold idxUpd
  simp only
  unfold idxGet
  cases hg : getN idx (nodeName k s) with
  | some n => exact enc_setN h (.inr ⟨n, hg, rfl⟩)
  | none => exact enc_setN (enc_setN h (.inl (by simp))) (.inl (by simp))

theorem upd_ne (idx : Idx) (k : Bytes) (s : Option Bytes) (f : List IUnit → List IUnit) : idxUpd idx k s f ≠ [] := by
  unfold idxUpd
  exact setN_ne _ _ _

theorem work_uw {P : Db → Prop} {u : Uid} {c : Ctl} (h : UW P u c) (lib : Lib) (z : Bool) (k : Bytes) (s : Option Bytes) (hid : Nat) (win : IUnit) (d : Bytes) :
    UW P u (writeWork lib c z k s hid win d).1 ∧ (writeWork lib c z k s hid win d).1.idx ≠ [] := by
  unfold writeWork
  simp only
  rw [if_pos h.indexed]
  exact ⟨⟨h.kind, h.sd, by dsimp only; exact enc_upd h.enc _ _ _⟩, by dsimp only; exact upd_ne _ _ _ _⟩

theorem writeKeys_uw {P : Db → Prop} {u : Uid} {c : Ctl} (h : UW P u c) (lib : Lib) : UW P u (writeKeys lib c) ∧ (c.idx ≠ [] → (writeKeys lib c).idx ≠ []) := by
  unfold writeKeys
  split
  · exact ⟨h, id⟩
  · obtain ⟨h1, h2⟩ := work_uw h lib false signKeys none hidKeys {} (joinNames c.newk)
    exact ⟨⟨h1.kind, h1.sd, h1.enc⟩, fun _ => h2⟩

theorem writeTabs_uw {P : Db → Prop} {u : Uid} {c : Ctl} (h : UW P u c) (lib : Lib) : UW P u (writeTabs lib c) ∧ (c.idx ≠ [] → (writeTabs lib c).idx ≠ []) := by
  unfold writeTabs
  split
  · exact ⟨h, id⟩
  · obtain ⟨h1, h2⟩ := work_uw h lib false signTabs none hidTabs {} (lib.text c.news)
    exact ⟨⟨h1.kind, h1.sd, h1.enc⟩, fun _ => h2⟩

theorem setKey_uw {P : Db → Prop} {u : Uid} {c : Ctl} (h : UW P u c) (k : Bytes) : UW P u (setKey c k) ∧ (setKey c k).idx = c.idx := by
  unfold setKey
  split
  · exact ⟨h, rfl⟩
  · exact ⟨⟨h.kind, h.sd, h.enc⟩, rfl⟩

theorem setKeys_uw {P : Db → Prop} {u : Uid} (ks : List Bytes) : ∀ {c : Ctl}, UW P u c → UW P u (ks.foldl setKey c) ∧ (ks.foldl setKey c).idx = c.idx := by
  induction ks with
  | nil => intro c h; exact ⟨h, rfl⟩
  | cons k ks ih =>
    intro c h
    obtain ⟨h1, h2⟩ := setKey_uw h k
    obtain ⟨g1, g2⟩ := ih h1
    exact ⟨g1, g2.trans h2⟩

theorem setKey_kd (c : Ctl) (k : Bytes) : (setKey c k).kd = addKey c.kd k ∧ (setKey c k).sd = c.sd := by
  unfold setKey addKey
  split <;> exact ⟨rfl, rfl⟩

theorem setKeys_kd (ks : List Bytes) : ∀ c : Ctl, (ks.foldl setKey c).kd = ks.foldl addKey c.kd ∧ (ks.foldl setKey c).sd = c.sd := by
  induction ks with
  | nil => intro c; exact ⟨rfl, rfl⟩
  | cons k ks ih =>
    intro c
    rw [List.foldl_cons, List.foldl_cons, (ih _).1, (ih _).2, (setKey_kd c k).1, (setKey_kd c k).2]
    exact ⟨rfl, rfl⟩

theorem addTab_W {P : Db → Prop} {sd : TDict} {t : Tab} (h : ∀ e ∈ sd, e.2 ≠ [] ∧ ∀ db ∈ e.2, P db) (hp : P t.db) :
    ∀ e ∈ (addTab sd t).1, e.2 ≠ [] ∧ ∀ db ∈ e.2, P db := by
  intro e he
  unfold addTab at he
  split at he
  · rcases mem_setN he with he | ⟨he, _⟩ | ⟨o, ho, _, _, he⟩
    · exact h e he
    · rw [he]; simpa using hp
    · rw [he]; simpa using hp
  · rename_i dbs hg
    split at he
    · have hdbs : ∀ db ∈ dbs ++ [t.db], P db := by
        obtain ⟨i, o, o1, o2, _⟩ := getN_some hg
        intro db hx
        rcases List.mem_append.1 hx with hx | hx
        · exact (h o (List.mem_of_getElem? o1)).2 db (by rw [o2]; exact hx)
        · rw [List.mem_singleton.1 hx]; exact hp
      rcases mem_setN he with he | ⟨he, _⟩ | ⟨o, ho, _, _, he⟩
      · exact h e he
      · rw [he]; exact ⟨by simp, hdbs⟩
      · rw [he]; exact ⟨by simp, hdbs⟩
    · exact h e he

theorem setTab_sd (c : Ctl) (t : Tab) : (setTab c t).sd = (addTab c.sd t).1 ∧ (setTab c t).kd = c.kd ∧ (setTab c t).idx = c.idx := by
  unfold setTab
  split
  · exact ⟨rfl, rfl, rfl⟩
  · rename_i h
    refine ⟨?_, rfl, rfl⟩
    unfold addTab at h ⊢
    split
    · rename_i hg; rw [hg] at h; simp at h
    · rename_i dbs hg
      rw [hg] at h
      simp only at h
      split
      · rename_i hn; rw [if_pos hn] at h; simp at h
      · rfl

theorem setTab_uw {P : Db → Prop} {u : Uid} {c : Ctl} (h : UW P u c) {t : Tab} (hp : P t.db) : UW P u (setTab c t) ∧ (setTab c t).idx = c.idx := by
  obtain ⟨h1, _, h3⟩ := setTab_sd c t
  exact ⟨⟨by rw [setTab_kind]; exact h.kind, by rw [h1]; exact addTab_W h.sd hp, by rw [h3]; exact h.enc⟩, h3⟩

theorem setTabKs_uw {P : Db → Prop} {u : Uid} (ts : List Tab) (ht : ∀ t ∈ ts, P t.db) : ∀ {c : Ctl}, UW P u c → UW P u (ts.foldl setTabK c) ∧ (ts.foldl setTabK c).idx = c.idx := by
  induction ts with
  | nil => intro c h; exact ⟨h, rfl⟩
  | cons t ts ih =>
    intro c h
    have h1 : UW P u (setTabK c t) ∧ (setTabK c t).idx = c.idx := by
      unfold setTabK
      split
      · exact setTab_uw h (ht t (by simp))
      · exact ⟨h, rfl⟩
    obtain ⟨g1, g2⟩ := ih (fun x hx => ht x (by simp [hx])) h1.1
    exact ⟨g1, g2.trans h1.2⟩

/-- The tables of the main file are added. -/
theorem cmpTabs_uw {P : Db → Prop} (K : TabsOk P) {u : Uid} (sd : TDict) (hd : sd.Pairwise fun a b => sameN a.1 b.1 = false)
    (hs : ∀ e ∈ sd, e.2 ≠ [] ∧ ∀ db ∈ e.2, P db) :
    ∀ c : Ctl, UW P u c →
      ∃ c', sd.foldlM cmpTab c = some c' ∧ UW P u c' ∧ c'.kd = c.kd ∧ c'.idx = c.idx ∧ (∀ n, (∀ e ∈ sd, sameN n e.1 = false) → getN c'.sd n = getN c.sd n) ∧
        (∀ e ∈ sd, ∀ db, e.2.getLast? = some db → scale db = some u.kind →
          ∃ dbs l, getN c'.sd e.1 = some dbs ∧ dbs.getLast? = some l ∧ P l ∧ (l = db ∨ sameDb l db = true)) := by
  induction sd with
  | nil => intro c h; exact ⟨c, rfl, h, rfl, rfl, fun _ _ => rfl, by simp⟩
  | cons e sd ih =>
    intro c h
    obtain ⟨hd1, hd2⟩ := List.pairwise_cons.1 hd
    obtain ⟨e2, e3⟩ := hs e (by simp)
    obtain ⟨db, hdb⟩ : ∃ db, e.2.getLast? = some db := by
      cases hl : e.2.getLast? with
      | none => rw [List.getLast?_eq_none_iff] at hl; exact absurd hl e2
      | some db => exact ⟨db, rfl⟩
    have hp : P db := e3 db (List.mem_of_getLast? hdb)
    obtain ⟨k, hk, _⟩ := K.kind db hp
    rw [List.foldlM_cons]
    simp only [cmpTab, hdb, hk, Option.map_some, Option.bind_eq_bind, Option.bind_some]
    by_cases hkind : k = c.kind
    · rw [if_pos hkind]
      obtain ⟨s1, s3⟩ := setTab_uw h (t := ⟨e.1, db⟩) hp
      obtain ⟨s5, s4, _⟩ := setTab_sd c ⟨e.1, db⟩
      obtain ⟨c', g1, g2, g5, g6, g7, g8⟩ := ih hd2 (fun x hx => hs x (by simp [hx])) _ s1
      refine ⟨c', g1, g2, g5.trans s4, g6.trans s3, ?_, ?_⟩
      · intro n hx
        rw [g7 n (fun x hxs => hx x (by simp [hxs])), s5]
        exact (getN_addTab c.sd ⟨e.1, db⟩ n).1 (hx e (by simp))
      · intro x hx db' hl hsc
        rcases List.mem_cons.1 hx with rfl | hx
        · rw [hdb] at hl
          cases hl
          rw [g7 x.1 (fun y hy => hd1 y hy), s5]
          obtain ⟨dbs, l, a1, a2, a3⟩ := (getN_addTab c.sd ⟨x.1, db⟩ x.1).2 (sameN_refl _)
          refine ⟨dbs, l, a1, a2, ?_, ?_⟩
          · rcases a3 with rfl | ⟨_, a4⟩
            · exact hp
            · obtain ⟨i, o, o1, o2, _⟩ := getN_some a4
              exact (h.sd o (List.mem_of_getElem? o1)).2 l (by rw [o2]; exact List.mem_of_getLast? a2)
          · rcases a3 with a3 | a3
            · exact .inl a3
            · exact .inr a3.1
        · exact g8 x hx db' hl hsc
    · rw [if_neg hkind]
      obtain ⟨c', g1, g2, g5, g6, g7, g8⟩ := ih hd2 (fun x hx => hs x (by simp [hx])) c h
      refine ⟨c', g1, g2, g5, g6, fun n hx => g7 n (fun x hxs => hx x (by simp [hxs])), ?_⟩
      intro x hx db' hl hsc
      rcases List.mem_cons.1 hx with rfl | hx
      · rw [hdb] at hl
        cases hl
        rw [hk] at hsc
        exact absurd ((Option.some.inj hsc).trans h.kind.symm) hkind
      · exact g8 x hx db' hl hsc

/-- What an open writer needs for calls to be defined: the dictionaries of the main file and its data files. -/
structure WW (lib : Lib) (P : Db → Prop) (d : Disk) (w : Writer) : Prop where
  sdiff : w.main.sd.Pairwise fun a b => sameN a.1 b.1 = false
  snames : ∀ e ∈ w.main.sd, e.2 ≠ [] ∧ ∀ db ∈ e.2, P db
  units : ∀ e ∈ w.units, UW P e.1 e.2 ∧ e.2.idx ≠ [] ∧ Sane e.1
  disk : ∀ u f, d.unit u = some f → ∃ c, openUnit lib u.kind f = some c ∧ UW P u c

/-- The dictionaries hold what was declared. -/
structure DW (P : Db → Prop) (defs : Bytes → Option Db) (m : Ctl) : Prop where
  undef : ∀ s, defs (fold s) = none → getN m.sd s = none
  defs : ∀ s db, defs (fold s) = some db → P db ∧ ∃ dbs l, getN m.sd s = some dbs ∧ dbs.getLast? = some l ∧ (l = db ∨ sameDb l db = true)

theorem getUnit_w {lib : Lib} {P : Db → Prop} (K : TabsOk P) {d : Disk} {w : Writer} (h : WW lib P d w) {u : Uid} (hu : Sane u) :
    ∃ c, getUnit lib d w u = some c ∧ UW P u c ∧ (∀ k ∈ w.main.kd, ∃ n ∈ c.kd, sameN k n = true) ∧
      (∀ e ∈ w.main.sd, ∀ db, e.2.getLast? = some db → scale db = some u.kind →
        ∃ dbs l, getN c.sd e.1 = some dbs ∧ dbs.getLast? = some l ∧ P l ∧ (l = db ∨ sameDb l db = true)) := by
  obtain ⟨c0, hc0, hok⟩ : ∃ c0, ((match w.units.find? (fun e : Uid × Ctl => e.1.key == u.key) with
    | some e => some e.2
    | none =>
      match d.unit u with
      | none => some { kind := u.kind }
      | some f => openUnit lib u.kind f) : Option Ctl) = some c0 ∧ UW P u c0 := by
    cases hf : w.units.find? (fun e : Uid × Ctl => e.1.key == u.key) with
    | some e =>
      have he := List.mem_of_find?_eq_some hf
      obtain ⟨h1, _, h2⟩ := h.units e he
      have heu : e.1 = u := key_inj h2 hu (by simpa using List.find?_some hf)
      rw [heu] at h1
      exact ⟨e.2, rfl, h1⟩
    | none =>
      cases hd : d.unit u with
      | none => exact ⟨_, rfl, rfl, by simp, by simp⟩
      | some f =>
        obtain ⟨c, h2, h3⟩ := h.disk u f hd
        exact ⟨c, h2, h3⟩
  have hgu : getUnit lib d w u = (some c0).bind fun c => (cmpTabs w.main (cmpKeys w.main c)).map fun c => writeTabs lib (writeKeys lib c) :=
    congrArg (fun o : Option Ctl => o.bind fun c => (cmpTabs w.main (cmpKeys w.main c)).map fun c => writeTabs lib (writeKeys lib c)) hc0
  rw [hgu]
  simp only [Option.bind_some]
  obtain ⟨p1, _⟩ := setKeys_uw (P := P) (u := u) w.main.kd (c := { c0 with newk := [] }) ⟨hok.kind, hok.sd, hok.enc⟩
  have p2 := (setKeys_kd w.main.kd { c0 with newk := [] }).1
  have p3 : cmpKeys w.main c0 = w.main.kd.foldl setKey { c0 with newk := [] } := rfl
  rw [p3]
  generalize w.main.kd.foldl setKey { c0 with newk := [] } = c1 at p1 p2
  obtain ⟨c2, q1, q2, q3, _, _, q8⟩ := cmpTabs_uw K w.main.sd h.sdiff h.snames { c1 with news := [] } ⟨p1.kind, p1.sd, p1.enc⟩
  have q0 : cmpTabs w.main c1 = some c2 := q1
  rw [q0]
  simp only [Option.map_some]
  obtain ⟨d1, d2⟩ := writeKeys_dict lib c2
  obtain ⟨d3, d4⟩ := writeTabs_dict lib (writeKeys lib c2)
  refine ⟨_, rfl, (writeTabs_uw (writeKeys_uw q2 lib).1 lib).1, ?_, ?_⟩
  · intro k hk
    rw [d3, d1, q3]
    show ∃ n ∈ c1.kd, _
    rw [p2]
    exact addKeys_has _ _ hk
  · rw [d4, d2]; exact q8

theorem putUnit_main (w : Writer) (u : Uid) (c : Ctl) : (putUnit w u c).main = w.main := by unfold putUnit; split <;> rfl

theorem put_w {lib : Lib} {P : Db → Prop} {d : Disk} {w : Writer} (h : WW lib P d w) {u : Uid} (hu : Sane u) {c : Ctl} (hc : UW P u c) (hne : c.idx ≠ []) :
    WW lib P d (putUnit w u c) where
  sdiff := by rw [putUnit_main]; exact h.sdiff
  snames := by rw [putUnit_main]; exact h.snames
  units := by
    intro e he
    unfold putUnit at he
    split at he
    · obtain ⟨o, ho, rfl⟩ := List.mem_map.1 he
      obtain ⟨o1, o2, o3⟩ := h.units o ho
      by_cases hk : (o.1.key == u.key) = true
      · rw [if_pos hk]
        have := key_inj o3 hu hk
        exact ⟨by rw [this]; exact hc, hne, o3⟩
      · rw [if_neg hk]; exact ⟨o1, o2, o3⟩
    · rcases List.mem_append.1 he with he | he
      · exact h.units e he
      · rw [List.mem_singleton.1 he]; exact ⟨hc, hne, hu⟩
  disk := h.disk

theorem main_w {lib : Lib} {P : Db → Prop} {d : Disk} {w : Writer} (h : WW lib P d w) {m : Ctl} (hm : m.sd = w.main.sd) : WW lib P d { w with main := m } where
  sdiff := by show m.sd.Pairwise _; rw [hm]; exact h.sdiff
  snames := by show ∀ e ∈ m.sd, _; rw [hm]; exact h.snames
  units := h.units
  disk := h.disk

theorem units_w {lib : Lib} {P : Db → Prop} {d : Disk} {w : Writer} (h : WW lib P d w) {f : Ctl → Ctl} (hf : ∀ u c, UW P u c → UW P u (f c) ∧ (c.idx ≠ [] → (f c).idx ≠ [])) :
    WW lib P d (onUnits w f) where
  sdiff := h.sdiff
  snames := h.snames
  units := by
    intro e he
    obtain ⟨o, ho, rfl⟩ := List.mem_map.1 he
    obtain ⟨o1, o2, o3⟩ := h.units o ho
    obtain ⟨g1, g2⟩ := hf o.1 o.2 o1
    exact ⟨g1, g2 o2, o3⟩
  disk := h.disk

theorem work_dict (lib : Lib) (c : Ctl) (z : Bool) (k : Bytes) (s : Option Bytes) (hid : Nat) (win : IUnit) (d : Bytes) :
    (writeWork lib c z k s hid win d).1.kd = c.kd ∧ (writeWork lib c z k s hid win d).1.sd = c.sd := by
  unfold writeWork
  simp only
  split <;> exact ⟨rfl, rfl⟩

theorem map_dict (lib : Lib) (m : Ctl) (k : Bytes × Nat) (s : Option (Bytes × Nat)) (ktype day : Nat) (moved : Bool) :
    (writeMap lib m k s ktype day moved).kd = m.kd ∧ (writeMap lib m k s ktype day moved).sd = m.sd := by
  unfold writeMap
  simp only
  split
  · split
    · exact ⟨rfl, rfl⟩
    · exact work_dict lib m false k.1 none hidMap m.win _
  · split
    · split
      · exact ⟨rfl, rfl⟩
      · exact work_dict lib m false k.1 none hidMap m.win _
    · split
      · exact work_dict lib m false k.1 none hidMap m.win _
      · exact ⟨rfl, rfl⟩

theorem msg_uw {P : Db → Prop} {u : Uid} {c : Ctl} (h : UW P u c) (lib : Lib) (k : Bytes) (s : Option Bytes) (hid ktype : Nat) (win : IUnit) (d : Bytes) :
    UW P u (writeMsg lib c k s hid ktype win d) ∧ (writeMsg lib c k s hid ktype win d).idx ≠ [] := by
  unfold writeMsg
  simp only
  have h1 : UW P u (mergeSdb c k s win) := ⟨h.kind, h.sd, enc_upd h.enc _ _ _⟩
  obtain ⟨g1, g2⟩ := work_uw h1 lib (mergeSdb c k s win).indexed k s hid { win with ktype := ktype } d
  exact ⟨⟨g1.kind, g1.sd, g1.enc⟩, g2⟩

theorem newKey_dict (lib : Lib) (m : Ctl) (k : Bytes) : (newKey lib m k).kd = addKey m.kd k ∧ (newKey lib m k).sd = m.sd := by
  unfold newKey addKey
  split
  · exact ⟨rfl, rfl⟩
  · rename_i h
    obtain ⟨h1, h2⟩ := setKey_kd m k
    rw [(writeKeys_dict lib _).1, (writeKeys_dict lib _).2, h1, h2]
    unfold addKey
    rw [if_neg h]
    exact ⟨rfl, rfl⟩

/-- A value of a key is written. -/
theorem alone_w {lib : Lib} {P : Db → Prop} (K : TabsOk P) {d : Disk} {w : Writer} (h : WW lib P d w) {k : Bytes} (wr : Ctl → Option Ctl) (ktype : Nat)
    (hwr : ∀ c : Ctl, UW P .nots c → (∃ n ∈ c.kd, sameN k n = true) → ∃ c', wr c = some c' ∧ UW P .nots c' ∧ c'.idx ≠ []) :
    ∃ w', ((getKey (newKey lib w.main k).kd k).bind fun kd =>
      (getUnit lib d { w with main := newKey lib w.main k } .nots).bind fun c => (wr c).map fun c =>
        let w := putUnit { w with main := newKey lib w.main k } .nots c
        { w with main := writeMap lib w.main kd none ktype 0 false }) = some w' ∧ WW lib P d w' ∧ w'.main.kd = addKey w.main.kd k ∧ w'.main.sd = w.main.sd := by
  obtain ⟨m1, m2⟩ := newKey_dict lib w.main k
  have h1 := main_w h m2
  obtain ⟨⟨k', i⟩, hg⟩ := Option.isSome_iff_exists.1 (getKey_isSome.2 (addKey_has w.main.kd k))
  obtain ⟨k1, k2, _⟩ := getKey_some hg
  obtain ⟨c, c1, c2, c3, _⟩ := getUnit_w K h1 (u := .nots) trivial
  obtain ⟨c', e1, e2, e3⟩ := hwr c c2 (by
    obtain ⟨n', hn', hs'⟩ := c3 k' (by show k' ∈ (newKey lib w.main k).kd; rw [m1]; exact k1)
    refine ⟨n', hn', ?_⟩
    rw [sameN_iff] at k2 hs' ⊢
    exact k2.trans hs')
  rw [m1, hg]
  simp only [Option.bind_some, c1, e1, Option.map_some]
  obtain ⟨q1, q2⟩ := map_dict lib (putUnit { w with main := newKey lib w.main k } .nots c').main (k', i) none ktype 0 false
  refine ⟨_, rfl, main_w (put_w h1 (u := .nots) trivial e2 e3) q2, ?_, ?_⟩
  · rw [q1, putUnit_main]; exact m1
  · rw [q2, putUnit_main]; exact m2

theorem pieces_w {lib : Lib} {P : Db → Prop} (K : TabsOk P) {d : Disk} {year : Bool} {k sn : Bytes} {i si : Nat} {dbs : List Db} {db : Db}
    (hl : dbs.getLast? = some db) (hp : P db) (hsc : scale db = some (if year then .year else .date)) (ps : List (Int × Bytes)) :
    (∀ p ∈ ps, Sane (uidOf year p.1) ∧ p.2.length % db.size = 0 ∧ ∃ ab, blockTimes db p.2 = some ab) → ∀ {w : Writer}, WW lib P d w →
      k ∈ w.main.kd → w.main.sd[si]? = some (sn, dbs) →
      ∃ w', writePieces lib d year (k, i) (sn, si) w ps = some w' ∧ WW lib P d w' ∧ w'.main.kd = w.main.kd ∧ w'.main.sd = w.main.sd := by
  induction ps with
  | nil => intro _ w h _ _; exact ⟨w, rfl, h, rfl, rfl⟩
  | cons p ps ih =>
    intro hps w h hk hs
    obtain ⟨p, b⟩ := p
    obtain ⟨hsane, hdiv, ⟨t1, t2⟩, hbt⟩ := hps (p, b) (by simp)
    obtain ⟨c, e1, e2, e3, e4⟩ := getUnit_w K h hsane
    obtain ⟨dbs', l, f1, f2, f3, f4⟩ := e4 (sn, dbs) (List.mem_of_getElem? hs) db hl (by rw [uidOf_kind]; exact hsc)
    have hsame : l.size = db.size ∧ l.time.map (Dyn.unit l) = db.time.map (Dyn.unit db) := by
      rcases f4 with rfl | f4
      · exact ⟨rfl, rfl⟩
      · exact K.same l db f3 hp f4
    have hbt' : blockTimes l b = some (t1, t2) := by rw [blockTimes_same hsame.1 hsame.2]; exact hbt
    obtain ⟨⟨k', j⟩, hg⟩ := Option.isSome_iff_exists.1 (getKey_isSome.2 (e3 k hk))
    obtain ⟨sn', j', ht, _, _⟩ := getTab_of f1
    obtain ⟨c', hc', u1, u2⟩ : ∃ c', writeSdb lib c k sn b = some c' ∧ UW P (uidOf year p) c' ∧ c'.idx ≠ [] := by
      unfold writeSdb writeTab
      rw [ht]
      simp only [Option.bind_some, f2]
      rw [if_neg (K.size l f3), if_neg (by simp [hsame.1, hdiv]), hg, hbt']
      exact ⟨_, rfl, msg_uw e2 lib _ _ _ _ _ _⟩
    obtain ⟨q1, q2⟩ := map_dict lib (putUnit w (uidOf year p) c').main (k, i) (some (sn, si)) 0 (u32 p) false
    rw [putUnit_main] at q1 q2
    have h1 : WW lib P d { putUnit w (uidOf year p) c' with main := writeMap lib (putUnit w (uidOf year p) c').main (k, i) (some (sn, si)) 0 (u32 p) false } :=
      main_w (put_w h hsane u1 u2) (by rw [putUnit_main]; exact q2)
    obtain ⟨w', r1, r2, r3, r4⟩ := ih (fun x hx => hps x (by simp [hx])) h1 (by rw [putUnit_main]; simp only [q1]; exact hk) (by rw [putUnit_main]; simp only [q2]; exact hs)
    refine ⟨w', ?_, r2, ?_, ?_⟩
    · unfold writePieces
      refine Option.bind_eq_some_iff.2 ⟨c, e1, Option.bind_eq_some_iff.2 ⟨c', hc', ?_⟩⟩
      exact r1
    · rw [r3]; simp only [putUnit_main, q1]
    · rw [r4]; simp only [putUnit_main, q2]

/-- A block of records that have times falls into pieces that can be written. -/
theorem split_good {P : Db → Prop} (K : Tables P) {db l : Db} (hpl : P l) (hst : l.size = db.size ∧ l.time.map (Dyn.unit l) = db.time.map (Dyn.unit db)) {v : Time.Env}
    {b : Bytes} (hblk : BlockOk v db b) {f : Dyn.Field} (hf : timeField db = some f) :
    ∃ ps, split v (decide (f.style = .date)) l b = some ps ∧
      ∀ e ∈ ps, Sane (uidOf (decide (f.style = .date)) e.1) ∧ e.2.length % l.size = 0 ∧ ∃ ab, blockTimes l e.2 = some ab := by
  have hfl : timeField l = some f := by rw [timeField_same hst.2, hf]
  have hT := timed K hpl hfl
  have hrec : recordsOf l b = recordsOf db b := by unfold recordsOf; rw [hst.1]
  have hday : ∀ x ∈ recordsOf l b, ∃ n, dayOf v f (timeOf f x) = some n ∧ 10000 ≤ n ∧ n < 10 ^ 8 := by
    intro x hx
    rw [hrec] at hx
    exact (hblk.time f hf x hx).2.2
  have hper : ∀ x ∈ recordsOf l b, placeOf v f x = some (uidN f (perOf v f x)) ∧ perOf v f x < 2 ^ 31 ∧ Sane (uidN f (perOf v f x)) := by
    intro x hx
    obtain ⟨n, hn, hn1, hn2⟩ := hday x hx
    unfold placeOf perOf day0 uidN
    rw [hn]
    by_cases hd : f.style = .date
    · simp only [hd, if_true, Option.map_some, Option.getD_some, true_and, Sane]
      omega
    · simp only [hd, if_false, Option.map_some, Option.getD_some, true_and, Sane]
      omega
  have hord : (recordsOf l b).Pairwise fun x y => ∀ m n, dayOf v f (timeOf f x) = some m → dayOf v f (timeOf f y) = some n → m ≤ n := by
    rw [hrec]
    exact (hblk.order f hf).imp fun hx => hx.2
  obtain ⟨r0, rs, hrs, hsplit⟩ := split_runs hT v hblk.ne (by rw [hst.1]; exact hblk.whole) hblk.len (fun x hx => by
    obtain ⟨n, h1, _, h2⟩ := hday x hx
    exact ⟨n, h1, h2⟩) (by rw [hrec]; exact hblk.fits f hf) hord
  have hmul : b.length = b.length / l.size * l.size := by
    have := Nat.div_add_mod b.length l.size
    rw [hst.1, hblk.whole, Nat.add_zero, Nat.mul_comm] at this
    rw [hst.1]
    exact this.symm
  have hR : (recordsOf l b).flatten = b ∧ ∀ x ∈ recordsOf l b, x.length = l.size := records_flatten l.size hT.size _ b hmul
  have hpo : (recordsOf l b).Pairwise fun x y => perOf v f x ≤ perOf v f y := by
    refine hord.imp_of_mem fun {x y} hx hy hxy => ?_
    obtain ⟨m, hm, _⟩ := hday x hx
    obtain ⟨n, hn, _⟩ := hday y hy
    have := hxy m n hm hn
    unfold perOf day0
    rw [hm, hn]
    simp only [Option.getD_some]
    split
    · exact Nat.div_le_div_right this
    · exact this
  have hpieces : ∀ (ys xs : List Bytes) (p : Nat), xs ≠ [] → (∀ x ∈ xs ++ ys, x ∈ recordsOf l b) → (xs ++ ys).flatten.length < 2 ^ 31 → (∀ x ∈ xs, perOf v f x = p) →
      ∀ e ∈ (runsFrom (perOf v f) p xs ys).map piece, Sane (uidOf (decide (f.style = .date)) e.1) ∧ e.2.length % l.size = 0 ∧ ∃ ab, blockTimes l e.2 = some ab := by
    have hbase : ∀ (xs : List Bytes) (p : Nat), xs ≠ [] → (∀ x ∈ xs, x ∈ recordsOf l b) → xs.flatten.length < 2 ^ 31 → (∀ x ∈ xs, perOf v f x = p) →
        Sane (uidOf (decide (f.style = .date)) (piece (p, xs)).1) ∧ (piece (p, xs)).2.length % l.size = 0 ∧ ∃ ab, blockTimes l (piece (p, xs)).2 = some ab := by
      intro xs p hne hm hlen hxp
      obtain ⟨x, hx1⟩ : ∃ x, xs.head? = some x := by cases xs with | nil => exact absurd rfl hne | cons a _ => exact ⟨a, rfl⟩
      obtain ⟨y, hy1⟩ : ∃ y, xs.getLast? = some y := by
        cases hcx : xs.getLast? with
        | none => rw [List.getLast?_eq_none_iff] at hcx; exact absurd hcx hne
        | some y => exact ⟨y, rfl⟩
      have hxm : x ∈ xs := List.mem_of_head? hx1
      have hlx : ∀ z ∈ xs, z.length = l.size := fun z hz => hR.2 z (hm z hz)
      obtain ⟨_, o1, o2⟩ := hper x (hm x hxm)
      rw [hxp x hxm] at o1 o2
      refine ⟨?_, ?_, _, blockTimes_rec hT hlx hlen hx1 hy1⟩
      · show Sane (uidOf _ (p : Int))
        rw [uidOf_eq f o1]; exact o2
      · show xs.flatten.length % l.size = 0
        rw [flatten_length l.size xs hlx]
        exact Nat.mul_mod_left _ _
    intro ys
    induction ys with
    | nil =>
      intro xs p hne hm hlen hxp e he
      rw [runsFrom, List.map_singleton] at he
      rw [List.mem_singleton.1 he]
      rw [List.append_nil] at hm hlen
      exact hbase xs p hne hm hlen hxp
    | cons y ys ih =>
      intro xs p hne hm hlen hxp e he
      rw [runsFrom] at he
      have ee : xs ++ y :: ys = (xs ++ [y]) ++ ys := by simp
      split at he
      · rename_i hy
        rw [ee] at hm hlen
        refine ih (xs ++ [y]) p (by simp) hm hlen ?_ e he
        intro x hx
        rcases List.mem_append.1 hx with hx | hx
        · exact hxp x hx
        · rw [List.mem_singleton.1 hx]; exact hy
      · rw [List.map_cons] at he
        rw [List.flatten_append, List.length_append] at hlen
        rcases List.mem_cons.1 he with rfl | he
        · exact hbase xs p hne (fun x hx => hm x (by simp [hx])) (by omega) hxp
        · exact ih [y] (perOf v f y) (by simp) (fun x hx => hm x (by simp at hx ⊢; exact .inr hx)) (by simp at hlen ⊢; omega) (by simp) e he
  exact ⟨_, hsplit, hpieces rs [r0] (perOf v f r0) (by simp) (fun x hx => by rw [hrs]; exact hx) (by
    have : ([r0] ++ rs).flatten = b := by rw [← hR.1, hrs]; rfl
    rw [this]; exact hblk.len) (by simp)⟩

/-- Records of a table are written. -/
theorem rows_w {lib : Lib} {P : Db → Prop} (K : Tables P) {d : Disk} {w : Writer} {defs : Bytes → Option Db} (h : WW lib P d w) (r : DW P defs w.main) {v : Time.Env} {k s b : Bytes}
    (hb : ∀ db, defs (fold s) = some db → BlockOk v db b) :
    ∃ w', writerSdb lib v d w k s b = some w' ∧ WW lib P d w' ∧ w'.main.sd = w.main.sd := by
  unfold writerSdb
  cases hdef : defs (fold s) with
  | none =>
    have hg := r.undef s hdef
    have : getTab w.main.sd s = none := by
      cases ht : getTab w.main.sd s with
      | none => rfl
      | some e =>
        exfalso
        unfold getTab at ht
        have h1 := List.mem_of_find?_eq_some ht
        have h2 : sameN s e.1.1 = true := by simpa using List.find?_some ht
        rw [List.mem_zipIdx_iff_getElem?] at h1
        have := getN_none.1 hg e.1 (List.mem_of_getElem? h1)
        rw [h2] at this; cases this
    rw [this]
    exact ⟨w, rfl, h, rfl⟩
  | some db =>
    have hblk := hb db hdef
    obtain ⟨hp, dbs, l, hg, hl, hsame⟩ := r.defs s db hdef
    obtain ⟨sn, si, ht, hsn, hsi⟩ := getTab_of hg
    have hpl : P l := (h.snames (sn, dbs) (List.mem_of_getElem? hsi)).2 l (List.mem_of_getLast? hl)
    have hst : l.size = db.size ∧ l.time.map (Dyn.unit l) = db.time.map (Dyn.unit db) := by
      rcases hsame with rfl | hx
      · exact ⟨rfl, rfl⟩
      · exact (tabsOk K).same l db hpl hp hx
    rw [ht]
    simp only
    obtain ⟨m1, m2⟩ := newKey_dict lib w.main k
    generalize hw1 : (if (getKey w.main.kd k).isNone = true then onUnits { w with main := newKey lib w.main k } fun c => setKey c k
      else { w with main := newKey lib w.main k }) = w1
    have hmain : w1.main = newKey lib w.main k := by rw [← hw1]; split <;> rfl
    have h1 : WW lib P d w1 := by
      rw [← hw1]
      have g := main_w h m2
      split
      · refine units_w g fun u c hc => ?_
        obtain ⟨g1, g2⟩ := setKey_uw hc k
        exact ⟨g1, by rw [g2]; exact id⟩
      · exact g
    have hsd1 : w1.main.sd = w.main.sd := by rw [hmain]; exact m2
    obtain ⟨⟨k', i⟩, hgk⟩ := Option.isSome_iff_exists.1 (getKey_isSome.2 (addKey_has w.main.kd k))
    have hgk1 : getKey w1.main.kd k = some (k', i) := by rw [hmain, m1]; exact hgk
    obtain ⟨k1, k2, k3⟩ := getKey_some hgk1
    have hsi1 : w1.main.sd[si]? = some (sn, dbs) := by rw [hsd1]; exact hsi
    simp only [hgk1, Option.bind_some, hl]
    cases hf : timeField db with
    | none =>
      have hfl : timeField l = none := by rw [timeField_same hst.2, hf]
      have hsc := untimed K hpl hfl
      rw [hsc]
      simp only [Option.bind_some]
      obtain ⟨c, e1, e2, e3, e4⟩ := getUnit_w (tabsOk K) h1 (u := .nots) trivial
      obtain ⟨dbs', l', f1, f2, f3, f4⟩ := e4 (sn, dbs) (List.mem_of_getElem? hsi1) l hl hsc
      have hsame' : l'.size = l.size := by
        rcases f4 with rfl | f4
        · rfl
        · exact ((tabsOk K).same l' l f3 hpl f4).1
      have hdiv : b.length % l'.size = 0 := by rw [hsame', hst.1]; exact hblk.whole
      obtain ⟨⟨k'', j⟩, hg''⟩ := Option.isSome_iff_exists.1 (getKey_isSome.2 (e3 k' k1))
      obtain ⟨sn', j', ht', _, _⟩ := getTab_of f1
      obtain ⟨c', hc', u1, u2⟩ : ∃ c', writeNon lib c k' sn b = some c' ∧ UW P .nots c' ∧ c'.idx ≠ [] := by
        unfold writeNon writeTab
        rw [ht']
        simp only [Option.bind_some, f2]
        rw [if_neg ((tabsOk K).size l' f3), if_neg (by simp [hdiv]), hg'']
        exact ⟨_, rfl, msg_uw e2 lib _ _ _ _ _ _⟩
      obtain ⟨q1, q2⟩ := map_dict lib (putUnit w1 .nots c').main (k', i) (some (sn, si)) 1 0 false
      refine ⟨_, Option.bind_eq_some_iff.2 ⟨c, e1, Option.map_eq_some_iff.2 ⟨c', hc', rfl⟩⟩, main_w (put_w h1 (u := .nots) trivial u1 u2) q2, ?_⟩
      show (writeMap lib _ _ _ _ _ _).sd = _
      rw [q2, putUnit_main, hsd1]
    | some f =>
      have hfl : timeField l = some f := by rw [timeField_same hst.2, hf]
      have hsc := scale_timed (timed K hpl hfl)
      obtain ⟨ps, hsplit, hps⟩ := split_good K hpl hst hblk hf
      obtain ⟨w', p1, p2, p3, p4⟩ := pieces_w (i := i) (tabsOk K) hl hpl (year := decide (f.style = .date)) (by rw [hsc]; simp) ps hps h1 k1 hsi1
      refine ⟨w', ?_, p2, p4.trans hsd1⟩
      rw [hsc]
      simp only [Option.bind_some]
      by_cases hd : f.style = .date
      · rw [if_pos hd]
        simp only [hd, decide_true] at hsplit p1
        exact Option.bind_eq_some_iff.2 ⟨ps, hsplit, p1⟩
      · rw [if_neg hd]
        simp only [hd, decide_false] at hsplit p1
        exact Option.bind_eq_some_iff.2 ⟨ps, hsplit, p1⟩

theorem dw_eq {P : Db → Prop} {defs : Bytes → Option Db} {m m' : Ctl} (r : DW P defs m) (hs : m'.sd = m.sd) : DW P defs m' :=
  ⟨by rw [hs]; exact r.undef, by rw [hs]; exact r.defs⟩

theorem setTab_w {P : Db → Prop} {defs : Bytes → Option Db} {m : Ctl} (r : DW P defs m) {t : Tab} (hp : P t.db) :
    DW P (fun n => if n = fold t.name then some t.db else defs n) (setTab m t) := by
  obtain ⟨h1, _, _⟩ := setTab_sd m t
  refine ⟨fun s hs => ?_, fun s db hs => ?_⟩
  · rw [h1]
    by_cases he : fold s = fold t.name
    · simp only [he, if_true] at hs; cases hs
    · simp only [he, if_false] at hs
      rw [(getN_addTab m.sd t s).1 (same_false he)]
      exact r.undef s hs
  · rw [h1]
    by_cases he : fold s = fold t.name
    · simp only [he, if_true] at hs
      cases hs
      obtain ⟨dbs, l, g1, g2, g3⟩ := (getN_addTab m.sd t s).2 (fold_same.2 he)
      exact ⟨hp, dbs, l, g1, g2, g3.imp id (·.1)⟩
    · simp only [he, if_false] at hs
      rw [(getN_addTab m.sd t s).1 (same_false he)]
      exact r.defs s db hs

theorem setTabs_w {P : Db → Prop} (ts : List Tab) (hp : ∀ t ∈ ts, P t.db) : ∀ {defs : Bytes → Option Db} {m : Ctl}, DW P defs m →
    DW P (ts.foldl (fun defs t n => if n = fold t.name then some t.db else defs n) defs) (ts.foldl setTab m) := by
  induction ts with
  | nil => intro defs m r; exact r
  | cons t ts ih => intro defs m r; exact ih (fun x hx => hp x (by simp [hx])) (setTab_w r (hp t (by simp)))

theorem cmd_w {lib : Lib} {P : Db → Prop} (K : Tables P) {d : Disk} {w : Writer} {defs : Bytes → Option Db} (h : WW lib P d w) (r : DW P defs w.main) {v : Time.Env} {x : Cmd}
    (hok : Safe v P defs x) : ∃ w', cmd lib v d w x = some w' ∧ WW lib P d w' ∧ DW P (defsAfter defs x) w'.main := by
  cases x with
  | keys s =>
    refine ⟨_, rfl, ?_⟩
    show WW lib P d (setKeys lib w s) ∧ DW P defs (setKeys lib w s).main
    unfold setKeys
    split
    · exact ⟨h, r⟩
    · simp only
      generalize splitNames s = ks
      rw [keys_fold]
      obtain ⟨p1, p2⟩ := setKeys_kd ks w.main
      obtain ⟨d1, d2⟩ := writeKeys_dict lib (ks.foldl setKey w.main)
      refine ⟨units_w (main_w (w := { main := ks.foldl setKey w.main, units := _ }) ?_ (d2)) (fun u c hc => writeKeys_uw hc lib), ?_⟩
      · refine ⟨?_, ?_, ?_, h.disk⟩
        · show (ks.foldl setKey w.main).sd.Pairwise _; rw [p2]; exact h.sdiff
        · show ∀ e ∈ (ks.foldl setKey w.main).sd, _; rw [p2]; exact h.snames
        · intro e he
          obtain ⟨o, ho, rfl⟩ := List.mem_map.1 he
          obtain ⟨o1, o2, o3⟩ := h.units o ho
          obtain ⟨g1, g2⟩ := setKeys_uw ks o1
          exact ⟨g1, by dsimp only; rw [g2]; exact o2, o3⟩
      · exact dw_eq r (d2.trans p2)
  | tabs ts =>
    have hp : ∀ t ∈ ts, P t.db := fun t ht => (hok t ht).2
    have hsd : ∀ (ts : List Tab) (m : Ctl), (ts.foldl setTab m).sd = ts.foldl (fun sd t => (addTab sd t).1) m.sd := by
      intro ts
      induction ts with
      | nil => intro m; rfl
      | cons t ts ih => intro m; rw [List.foldl_cons, List.foldl_cons, ih _, (setTab_sd m t).1]
    have hfd : ∀ (ts : List Tab) (sd : TDict), (∀ t ∈ ts, P t.db) → sd.Pairwise (fun a b => sameN a.1 b.1 = false) → (∀ e ∈ sd, e.2 ≠ [] ∧ ∀ db ∈ e.2, P db) →
        (ts.foldl (fun sd t => (addTab sd t).1) sd).Pairwise (fun a b => sameN a.1 b.1 = false) ∧ ∀ e ∈ ts.foldl (fun sd t => (addTab sd t).1) sd, e.2 ≠ [] ∧ ∀ db ∈ e.2, P db := by
      intro ts
      induction ts with
      | nil => intro sd _ g1 g2; exact ⟨g1, g2⟩
      | cons t ts ih => intro sd g0 g1 g2; exact ih _ (fun x hx => g0 x (by simp [hx])) (addTab_diff sd t g1) (addTab_W g2 (g0 t (by simp)))
    have p1 := hsd ts w.main
    obtain ⟨d1, d2⟩ := writeTabs_dict lib (ts.foldl setTab w.main)
    obtain ⟨f1, f2⟩ := hfd ts w.main.sd hp h.sdiff h.snames
    refine ⟨onUnits { main := writeTabs lib (ts.foldl setTab w.main), units := w.units.map fun e => (e.1, ts.foldl setTabK e.2) } (writeTabs lib), ?_, ?_, ?_⟩
    · show setTabs lib w ts = _
      unfold setTabs
      rw [tabs_fold (tabsOk K) ts hp]
      rfl
    · refine units_w (main_w (w := { main := ts.foldl setTab w.main, units := w.units.map fun e => (e.1, ts.foldl setTabK e.2) }) ?_ d2) (fun u c hc => writeTabs_uw hc lib)
      refine ⟨?_, ?_, ?_, h.disk⟩
      · show (ts.foldl setTab w.main).sd.Pairwise _; rw [p1]; exact f1
      · show ∀ e ∈ (ts.foldl setTab w.main).sd, _; rw [p1]; exact f2
      · intro e he
        obtain ⟨o, ho, rfl⟩ := List.mem_map.1 he
        obtain ⟨o1, o2, o3⟩ := h.units o ho
        obtain ⟨g1, g2⟩ := setTabKs_uw ts hp o1
        exact ⟨g1, by dsimp only; rw [g2]; exact o2, o3⟩
    · exact dw_eq (setTabs_w ts hp r) d2
  | one k b =>
    obtain ⟨w', g1, g2, _, g4⟩ := alone_w (tabsOk K) h (k := k) (fun c => writeOne lib c k b) 2 (by
      intro c hc hk
      obtain ⟨⟨k', i⟩, hg⟩ := Option.isSome_iff_exists.1 (getKey_isSome.2 hk)
      unfold writeOne
      rw [hg]
      exact ⟨_, rfl, msg_uw hc lib _ _ _ _ _ _⟩)
    exact ⟨w', g1, g2, dw_eq r g4⟩
  | mul k l =>
    obtain ⟨w', g1, g2, _, g4⟩ := alone_w (tabsOk K) h (k := k) (fun c => writeMul lib c k l) 3 (by
      intro c hc hk
      obtain ⟨⟨k', i⟩, hg⟩ := Option.isSome_iff_exists.1 (getKey_isSome.2 hk)
      unfold writeMul
      rw [hg]
      exact ⟨_, rfl, msg_uw hc lib _ _ _ _ _ _⟩)
    exact ⟨w', g1, g2, dw_eq r g4⟩
  | rows k s b =>
    obtain ⟨w', g1, g2, g4⟩ := rows_w K h r (lib := lib) (v := v) (k := k) (s := s) (b := b) hok.2.2
    exact ⟨w', g1, g2, dw_eq r g4⟩
  | remove k s mul sign =>
    show ∃ w', writerRemove lib w k s mul sign = some w' ∧ WW lib P d w' ∧ DW P defs w'.main
    unfold writerRemove
    split
    · split
      · exact ⟨w, rfl, h, r⟩
      · have q := (map_dict lib w.main ‹_› none (if mul then 3 else 2) 0 true).2
        exact ⟨_, rfl, main_w h q, dw_eq r q⟩
    · rename_i s
      split
      · rename_i sn dbs si kd hg _
        obtain ⟨e1, e2⟩ := h.snames (sn, dbs) (by
          unfold getTab at hg
          have h1 := List.mem_of_find?_eq_some hg
          rw [List.mem_zipIdx_iff_getElem?] at h1
          exact List.mem_of_getElem? h1)
        cases hl : dbs.getLast? with
        | none => rw [List.getLast?_eq_none_iff] at hl; exact absurd hl e1
        | some db =>
          obtain ⟨sc, hsc, _⟩ := (tabsOk K).kind db (e2 db (List.mem_of_getLast? hl))
          rw [Option.bind_some, hsc, Option.map_some]
          have q := (map_dict lib w.main kd (some (sn, si)) (if sc = .nots then 1 else 0) (sign % 2 ^ 32) true).2
          exact ⟨_, rfl, main_w h q, dw_eq r q⟩
      · exact ⟨w, rfl, h, r⟩

theorem cmds_w {lib : Lib} {P : Db → Prop} (K : Tables P) {d : Disk} {v : Time.Env} (cs : List Cmd) : ∀ {w : Writer} {defs : Bytes → Option Db}, WW lib P d w → DW P defs w.main →
      (∀ (pre : List Cmd) (x : Cmd) (post : List Cmd), cs = pre ++ x :: post → Safe v P (pre.foldl defsAfter defs) x) →
      ∃ w', cmds lib v d w cs = some w' ∧ WW lib P d w' := by
  induction cs with
  | nil => intro w a h _ _; exact ⟨w, rfl, h⟩
  | cons x xs ih =>
    intro w a h r hok
    obtain ⟨w1, h1, h2, h3⟩ := cmd_w K h r (hok [] x xs rfl)
    obtain ⟨w2, g1, g2⟩ := ih h2 h3 (fun pre y post he => hok (x :: pre) y post (by rw [he]; rfl))
    exact ⟨w2, by rw [cmds, h1, Option.bind_some]; exact g1, g2⟩

theorem closeUnits_some {lib : Lib} {P : Db → Prop} (ht : lib.trace = false) (us : List (Uid × Ctl)) : ∀ fs, (∀ e ∈ us, UW P e.1 e.2 ∧ e.2.idx ≠ [] ∧ Sane e.1) →
    ∃ fs', closeUnits lib fs us = some fs' := by
  induction us with
  | nil => intro fs _; exact ⟨fs, rfl⟩
  | cons e us ih =>
    intro fs h
    obtain ⟨u, c⟩ := e
    obtain ⟨h1, h2, _⟩ := h (u, c) (by simp)
    obtain ⟨g, hg⟩ := close_some ht h1.enc h2
    obtain ⟨fs', h3⟩ := ih ((fs.filter fun e => !(e.1 == u)) ++ [(u, g)]) (fun e he => h e (by simp [he]))
    exact ⟨fs', by rw [closeUnits, hg, Option.bind_some]; exact h3⟩

theorem session_defined {lib : Lib} {P : Db → Prop} {v : Time.Env} (ht : lib.trace = false) (K : Tables P) {d : Disk} {a : Abs} {m : Ctl} {S : Store}
    (h : DiskOk lib P d m S) (r : Rel P a S m) {cs : List Cmd}
    (ok : ∀ (pre : List Cmd) (x : Cmd) (post : List Cmd), cs = pre ++ x :: post → Safe v P (pre.foldl defsAfter a.defs) x) :
    ∃ d', session lib v d cs = some d' := by
  obtain ⟨o1, o2, o3⟩ := open_good h
  have hw : WW lib P d { main := m } := ⟨h.main.sdiff, fun e he => (h.main.snames e he).2, by simp, fun u f hu => by
    obtain ⟨_, c, h1, h2, _⟩ := h.files.disk u f hu
    exact ⟨c, h1, uw_of h2⟩⟩
  obtain ⟨w', c1, c2⟩ := cmds_w K cs hw (defs := a.defs) ⟨r.undef, r.defs⟩ ok
  obtain ⟨fs, hfs⟩ := closeUnits_some ht w'.units d.units c2.units
  exact ⟨_, by unfold session closeWriter; rw [o1, Option.bind_some, c1, Option.bind_some, hfs]; rfl⟩

end Sis.Sdb
