import Verif.Sdb.RefineHist
/- The data files of a database that was used in sessions hold only definitions of tables that were given. -/
namespace Sis.Sdb
open Sis Sis.Disk
open Sis.Dyn (sameN getN setN Db sameN_iff sameN_refl getN_none getN_some setN_spec getN_congr)

def SdIn (Q : Bytes → Db → Prop) (sd : TDict) : Prop := ∀ e ∈ sd, ∀ db ∈ e.2, Q (fold e.1) db

theorem addTab_in {Q : Bytes → Db → Prop} {sd : TDict} (h : SdIn Q sd) {t : Tab} (ht : Q (fold t.name) t.db) : SdIn Q (addTab sd t).1 :=
  foldTab_known (fun n db => Q (fold n) db) (fun n n' db hn hq => by rw [fold_same] at hn; rw [← hn]; exact hq) [t] sd h
    (fun x hx => by rw [List.mem_singleton.1 hx]; exact ht)

theorem setTab_in {Q : Bytes → Db → Prop} {c : Ctl} (h : SdIn Q c.sd) {t : Tab} (ht : Q (fold t.name) t.db) : SdIn Q (setTab c t).sd := by
  have := addTab_in h ht
  unfold setTab
  split <;> simp_all

theorem setKey_sd (c : Ctl) (k : Bytes) : (setKey c k).sd = c.sd := by
  unfold setKey; split <;> rfl

theorem writeWork_sd (lib : Lib) (c : Ctl) (z : Bool) (k : Bytes) (s : Option Bytes) (hid : Nat) (win : IUnit) (d : Bytes) :
    (writeWork lib c z k s hid win d).1.sd = c.sd := by
  unfold writeWork; simp only; split <;> rfl

theorem writeKeys_sd (lib : Lib) (c : Ctl) : (writeKeys lib c).sd = c.sd := by
  unfold writeKeys; split
  · rfl
  · exact writeWork_sd ..

theorem writeTabs_sd (lib : Lib) (c : Ctl) : (writeTabs lib c).sd = c.sd := by
  unfold writeTabs; split
  · rfl
  · exact writeWork_sd ..

theorem writeMsg_sd (lib : Lib) (c : Ctl) (k : Bytes) (s : Option Bytes) (hid ktype : Nat) (win : IUnit) (d : Bytes) :
    (writeMsg lib c k s hid ktype win d).sd = c.sd := by
  unfold writeMsg; exact writeWork_sd ..

theorem writeOne_sd {lib : Lib} {c c' : Ctl} {k d : Bytes} (h : writeOne lib c k d = some c') : c'.sd = c.sd := by
  unfold writeOne at h
  obtain ⟨x, _, rfl⟩ := Option.map_eq_some_iff.1 h
  exact writeMsg_sd ..

theorem writeMul_sd {lib : Lib} {c c' : Ctl} {k : Bytes} {l : List Bytes} (h : writeMul lib c k l = some c') : c'.sd = c.sd := by
  unfold writeMul at h
  obtain ⟨x, _, rfl⟩ := Option.map_eq_some_iff.1 h
  exact writeMsg_sd ..

theorem writeTab_sd {lib : Lib} {c c' : Ctl} {k s d : Bytes} {hid kt : Nat} {ts : Db → IUnit → Option IUnit}
    (h : writeTab lib c k s hid kt ts d = some c') : c'.sd = c.sd := by
  unfold writeTab at h
  obtain ⟨⟨⟨s', dbs⟩, si⟩, _, h⟩ := Option.bind_eq_some_iff.1 h
  simp only at h
  split at h
  · cases h; rfl
  · split at h
    · cases h
    · split at h
      · cases h; rfl
      · obtain ⟨x, _, h⟩ := Option.bind_eq_some_iff.1 h
        obtain ⟨y, _, rfl⟩ := Option.map_eq_some_iff.1 h
        exact writeMsg_sd ..

theorem writeMap_sd (lib : Lib) (c : Ctl) (k : Bytes × Nat) (s : Option (Bytes × Nat)) (ktype day : Nat) (moved : Bool) :
    (writeMap lib c k s ktype day moved).sd = c.sd := by
  unfold writeMap
  simp only
  split
  · split
    · rfl
    · exact writeWork_sd ..
  · split
    · split
      · rfl
      · exact writeWork_sd ..
    · split
      · exact writeWork_sd ..
      · rfl

theorem cmpKeys_sd (m c : Ctl) : (cmpKeys m c).sd = c.sd := by
  unfold cmpKeys
  suffices ∀ (l : List Bytes) (c : Ctl), (l.foldl setKey c).sd = c.sd by exact this _ _
  intro l
  induction l with
  | nil => intro c; rfl
  | cons k l ih => intro c; rw [List.foldl_cons, ih, setKey_sd]

theorem cmpTabs_in {Q : Bytes → Db → Prop} {m c c' : Ctl} (hm : SdIn Q m.sd) (hc : SdIn Q c.sd) (h : cmpTabs m c = some c') : SdIn Q c'.sd := by
  unfold cmpTabs at h
  suffices ∀ (l : TDict) (c : Ctl), SdIn Q l → SdIn Q c.sd → l.foldlM cmpTab c = some c' → SdIn Q c'.sd by exact this _ { c with news := [] } hm hc h
  intro l
  induction l with
  | nil => intro c _ hc h; cases h; exact hc
  | cons e l ih =>
    intro c hl hc h
    rw [List.foldlM_cons] at h
    obtain ⟨c1, h1, h2⟩ := Option.bind_eq_some_iff.1 h
    refine ih c1 (fun x hx => hl x (List.mem_cons_of_mem _ hx)) ?_ h2
    unfold cmpTab at h1
    split at h1
    · cases h1
    · rename_i db hdb
      obtain ⟨k, _, rfl⟩ := Option.map_eq_some_iff.1 h1
      split
      · exact setTab_in hc (hl e List.mem_cons_self db (List.mem_of_getLast? hdb))
      · exact hc

/-- Every file, open or on disk, holds only definitions `Q` knows. -/
structure KW (lib : Lib) (Q : Bytes → Db → Prop) (d : Disk) (w : Writer) : Prop where
  main : SdIn Q w.main.sd
  units : ∀ e ∈ w.units, SdIn Q e.2.sd
  disk : ∀ u f c, d.unit u = some f → openUnit lib u.kind f = some c → SdIn Q c.sd

theorem getUnit_in {lib : Lib} {Q : Bytes → Db → Prop} {d : Disk} {w : Writer} (h : KW lib Q d w) {u : Uid} {c : Ctl} (hc : getUnit lib d w u = some c) : SdIn Q c.sd := by
  unfold getUnit at hc
  obtain ⟨c0, h0, hc⟩ := Option.bind_eq_some_iff.1 hc
  obtain ⟨c1, h1, rfl⟩ := Option.map_eq_some_iff.1 hc
  rw [writeTabs_sd, writeKeys_sd]
  refine cmpTabs_in h.main ?_ h1
  rw [cmpKeys_sd]
  split at h0
  · rename_i e he
    cases h0
    exact h.units e (List.mem_of_find?_eq_some he)
  · split at h0
    · cases h0; intro e he; cases he
    · rename_i f hf
      exact h.disk u f c0 hf h0

theorem KW.setMain {lib : Lib} {Q : Bytes → Db → Prop} {d : Disk} {w : Writer} (h : KW lib Q d w) {m : Ctl} (hm : SdIn Q m.sd) : KW lib Q d { w with main := m } :=
  ⟨hm, h.units, h.disk⟩

theorem KW.put {lib : Lib} {Q : Bytes → Db → Prop} {d : Disk} {w : Writer} (h : KW lib Q d w) {u : Uid} {c : Ctl} (hc : SdIn Q c.sd) : KW lib Q d (putUnit w u c) := by
  unfold putUnit
  split
  · refine ⟨h.main, ?_, h.disk⟩
    intro e he
    obtain ⟨x, hx, rfl⟩ := List.mem_map.1 he
    split
    · exact hc
    · exact h.units x hx
  · refine ⟨h.main, ?_, h.disk⟩
    intro e he
    rcases List.mem_append.1 he with he | he
    · exact h.units e he
    · rw [List.mem_singleton.1 he]; exact hc

theorem KW.on {lib : Lib} {Q : Bytes → Db → Prop} {d : Disk} {w : Writer} (h : KW lib Q d w) {f : Ctl → Ctl} (hf : ∀ c, SdIn Q c.sd → SdIn Q (f c).sd) :
    KW lib Q d (onUnits w f) := by
  refine ⟨h.main, ?_, h.disk⟩
  intro e he
  obtain ⟨x, hx, rfl⟩ := List.mem_map.1 he
  exact hf _ (h.units x hx)

theorem newKey_sd (lib : Lib) (m : Ctl) (k : Bytes) : (newKey lib m k).sd = m.sd := by
  unfold newKey; split
  · rfl
  · rw [writeKeys_sd, setKey_sd]

theorem writePieces_in {lib : Lib} {Q : Bytes → Db → Prop} {d : Disk} {year : Bool} {k s : Bytes × Nat} (ps : List (Int × Bytes)) : ∀ {w w' : Writer},
    KW lib Q d w → writePieces lib d year k s w ps = some w' → KW lib Q d w' := by
  induction ps with
  | nil => intro w w' h hc; cases hc; exact h
  | cons p ps ih =>
    intro w w' h hc
    obtain ⟨p, b⟩ := p
    unfold writePieces at hc
    simp only at hc
    obtain ⟨c, h1, hc⟩ := Option.bind_eq_some_iff.1 hc
    obtain ⟨c', h2, hc⟩ := Option.bind_eq_some_iff.1 hc
    have g : SdIn Q c'.sd := by rw [writeTab_sd h2]; exact getUnit_in h h1
    refine ih ?_ hc
    refine (h.put g).setMain ?_
    rw [writeMap_sd]
    exact (h.put g).main

theorem cmd_in {lib : Lib} {Q : Bytes → Db → Prop} {d : Disk} {v : Time.Env} {w w' : Writer} (h : KW lib Q d w) {x : Act}
    (hq : ∀ ts, x = .tabs ts → ∀ t ∈ ts, Q (fold t.name) t.db) (hc : cmd lib v d w x.cmd = some w') : KW lib Q d w' := by
  have h0 : ∀ k, KW lib Q d { w with main := newKey lib w.main k } := fun k => h.setMain (by rw [newKey_sd]; exact h.main)
  cases x with
  | keys ks =>
    have hc : setKeys lib w (List.intercalate [44] ks) = w' := Option.some.inj hc
    rw [← hc]
    unfold setKeys
    split
    · exact h
    · simp only
      suffices ∀ (l : List Bytes) (w : Writer), KW lib Q d w → KW lib Q d (l.foldl (fun w k => onUnits { w with main := setKey w.main k } fun c => setKey c k) w) by
        have g := this (splitNames (List.intercalate [44] ks)) w h
        exact (g.setMain (by rw [writeKeys_sd]; exact g.main)).on fun c hc => by rw [writeKeys_sd]; exact hc
      intro l
      induction l with
      | nil => intro w h; exact h
      | cons k l ih =>
        intro w h
        exact ih _ ((h.setMain (by rw [setKey_sd]; exact h.main)).on fun c hc => by rw [setKey_sd]; exact hc)
  | tabs ts =>
    have hc : setTabs lib w ts = some w' := hc
    have hq := hq ts rfl
    unfold setTabs at hc
    obtain ⟨w1, h1, rfl⟩ := Option.map_eq_some_iff.1 hc
    suffices ∀ (l : List Tab) (w : Writer), (∀ t ∈ l, Q (fold t.name) t.db) → KW lib Q d w →
        l.foldlM (fun w t => tabChanged { w with main := setTab w.main t } t) w = some w1 → KW lib Q d w1 by
      have g := this ts w hq h h1
      exact (g.setMain (by rw [writeTabs_sd]; exact g.main)).on fun c hc => by rw [writeTabs_sd]; exact hc
    intro l
    induction l with
    | nil => intro w _ h h1; cases h1; exact h
    | cons t l ih =>
      intro w hl h h1
      rw [List.foldlM_cons] at h1
      obtain ⟨w2, h2, h3⟩ := Option.bind_eq_some_iff.1 h1
      refine ih w2 (fun x hx => hl x (List.mem_cons_of_mem _ hx)) ?_ h3
      unfold tabChanged at h2
      obtain ⟨k, _, rfl⟩ := Option.map_eq_some_iff.1 h2
      have ht := hl t List.mem_cons_self
      refine (h.setMain (setTab_in h.main ht)).on fun c hc => ?_
      split
      · exact setTab_in hc ht
      · exact hc
  | one k b =>
    have hc : writerOne lib d w k b = some w' := hc
    unfold writerOne at hc
    simp only at hc
    obtain ⟨kd, _, hc⟩ := Option.bind_eq_some_iff.1 hc
    obtain ⟨c, h1, hc⟩ := Option.bind_eq_some_iff.1 hc
    obtain ⟨c', h2, rfl⟩ := Option.map_eq_some_iff.1 hc
    have g : SdIn Q c'.sd := by rw [writeOne_sd h2]; exact getUnit_in (h0 k) h1
    have p := (h0 k).put (u := .nots) g
    exact p.setMain (by rw [writeMap_sd]; exact p.main)
  | mul k l =>
    have hc : writerMul lib d w k l = some w' := hc
    unfold writerMul at hc
    simp only at hc
    obtain ⟨kd, _, hc⟩ := Option.bind_eq_some_iff.1 hc
    obtain ⟨c, h1, hc⟩ := Option.bind_eq_some_iff.1 hc
    obtain ⟨c', h2, rfl⟩ := Option.map_eq_some_iff.1 hc
    have g : SdIn Q c'.sd := by rw [writeMul_sd h2]; exact getUnit_in (h0 k) h1
    have p := (h0 k).put (u := .nots) g
    exact p.setMain (by rw [writeMap_sd]; exact p.main)
  | rows k s b =>
    have hc : writerSdb lib v d w k s b = some w' := hc
    unfold writerSdb at hc
    split at hc
    · cases hc; exact h
    · rename_i sn dbs si _
      simp only at hc
      have h1 : KW lib Q d (if (getKey w.main.kd k).isNone then onUnits { w with main := newKey lib w.main k } fun c => setKey c k else { w with main := newKey lib w.main k }) := by
        split
        · exact (h0 k).on fun c hc => by rw [setKey_sd]; exact hc
        · exact h0 k
      revert hc h1
      generalize (if (getKey w.main.kd k).isNone then onUnits { w with main := newKey lib w.main k } fun c => setKey c k else { w with main := newKey lib w.main k }) = w1
      intro hc h1
      obtain ⟨kd, _, hc⟩ := Option.bind_eq_some_iff.1 hc
      obtain ⟨db, _, hc⟩ := Option.bind_eq_some_iff.1 hc
      obtain ⟨sc, _, hc⟩ := Option.bind_eq_some_iff.1 hc
      split at hc
      · obtain ⟨ps, _, hc⟩ := Option.bind_eq_some_iff.1 hc
        exact writePieces_in ps h1 hc
      · obtain ⟨ps, _, hc⟩ := Option.bind_eq_some_iff.1 hc
        exact writePieces_in ps h1 hc
      · obtain ⟨c, g1, hc⟩ := Option.bind_eq_some_iff.1 hc
        obtain ⟨c', g2, rfl⟩ := Option.map_eq_some_iff.1 hc
        have g : SdIn Q c'.sd := by rw [writeTab_sd g2]; exact getUnit_in h1 g1
        have p := h1.put (u := .nots) g
        exact p.setMain (by rw [writeMap_sd]; exact p.main)

theorem cmds_in {lib : Lib} {Q : Bytes → Db → Prop} {d : Disk} {v : Time.Env} (as : List Act) : ∀ {w w' : Writer}, KW lib Q d w →
    (∀ ts, Act.tabs ts ∈ as → ∀ t ∈ ts, Q (fold t.name) t.db) → cmds lib v d w (as.map Act.cmd) = some w' → KW lib Q d w' := by
  induction as with
  | nil => intro w w' h _ hc; cases hc; exact h
  | cons x xs ih =>
    intro w w' h hq hc
    rw [List.map_cons, cmds] at hc
    obtain ⟨w1, h1, h2⟩ := Option.bind_eq_some_iff.1 hc
    exact ih (cmd_in h (fun ts e => hq ts (by rw [e]; exact List.mem_cons_self)) h1) (fun ts ht => hq ts (List.mem_cons_of_mem _ ht)) h2

theorem act_was {v : Time.Env} (a : Abs) (x : Act) {n : Bytes} {db : Db} (h : a.was n db) : (a.act v x).was n db := by
  cases x with
  | tabs ts => exact .inl h
  | rows k s b =>
    unfold Abs.act
    simp only
    split <;> exact h
  | _ => exact h

theorem acts_was {v : Time.Env} (as : List Act) : ∀ (a : Abs), (∀ n db, a.was n db → (a.acts v as).was n db) ∧
    ∀ ts, Act.tabs ts ∈ as → ∀ t ∈ ts, (a.acts v as).was (fold t.name) t.db := by
  induction as with
  | nil => intro a; exact ⟨fun _ _ h => h, fun _ h => by cases h⟩
  | cons x xs ih =>
    intro a
    obtain ⟨i1, i2⟩ := ih (a.act v x)
    refine ⟨fun n db h => i1 n db (act_was a x h), fun ts hts t ht => ?_⟩
    rcases List.mem_cons.1 hts with rfl | hts
    · exact i1 _ _ (.inr ⟨t, ht, rfl, rfl⟩)
    · exact i2 ts hts t ht

/-- A data file holds only definitions of a table that were given. -/
theorem hist_known {lib : Lib} {P : Db → Prop} {v : Time.Env} (ht : lib.trace = false) (L : Restores lib) (T : Readable lib P) (K : Tables P) {d : Disk} {a : Abs}
    (h : Hist lib v P d a) : ∀ u f c, d.unit u = some f → openUnit lib u.kind f = some c → SdIn a.was c.sd := by
  induction h with
  | new => intro u f c hu; cases hu
  | session h s ih =>
    rename_i d0 a0 as d1
    obtain ⟨hok, hr, hd⟩ := s
    obtain ⟨m, S, h1, h2⟩ := hist_rel ht L T K h
    obtain ⟨o1, o2, o3⟩ := open_good h1
    unfold session at hr
    rw [o1, Option.bind_some] at hr
    obtain ⟨w', c1, c2⟩ := Option.bind_eq_some_iff.1 hr
    obtain ⟨k1, _⟩ := cmds_grow _ o3 c1
    have hds : DiskSmall _ := ⟨hd.main, hd.units⟩
    obtain ⟨S', s1, s2⟩ := acts_rel L T K as o2 o3 h2 hok c1 (close_small k1 c2 hds)
    obtain ⟨a1, a2⟩ := acts_was (v := v) as a0
    have kw : KW lib (a0.acts v as).was d0 w' := by
      refine cmds_in as ?_ a2 c1
      refine ⟨fun e he db hdb => a1 _ _ (h2.known e he db hdb), fun e he => by simp at he, fun u f c hu hc e he db hdb => a1 _ _ (ih u f c hu hc e he db hdb)⟩
    unfold closeWriter at c2
    obtain ⟨fs, f1, hc⟩ := Option.map_eq_some_iff.1 c2
    obtain ⟨q1, q2⟩ := closeUnits_find w'.units s1.files.diff f1
    intro u f c hu hcc
    have hu' := hu
    rw [← hc, disk_unit_find] at hu
    by_cases hop : ∃ e ∈ w'.units, e.1 = u
    · obtain ⟨e, he, rfl⟩ := hop
      obtain ⟨f', g1, g2⟩ := q1 e he
      rw [g2] at hu
      cases hu
      obtain ⟨u1, u2, u3⟩ := s1.files.units e he
      have hsz := hds.units e.1 f' hu'
      obtain ⟨c', b1, b2, b3, b4, b5, b6, b7, -⟩ := unit_back ht u1.inv u1.newk u1.news g1 hsz.2
      rw [u1.kind, hcc] at b1
      cases b1
      rw [b7]
      exact kw.units e he
    · have hno : ∀ e ∈ w'.units, e.1 ≠ u := fun e he hx => hop ⟨e, he, hx⟩
      rw [q2 u hno] at hu
      exact kw.disk u f c hu hcc

end Sis.Sdb
