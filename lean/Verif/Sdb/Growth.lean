import Verif.Sdb.WriterSteps
/- Files of an open writer only grow, whatever is done with it. -/
namespace Sis.Sdb
open Sis Sis.Disk
open Sis.Dyn (sameN getN setN Db sameN_iff sameN_refl getN_none getN_some setN_spec getN_congr)

def KeyDiff (w : Writer) : Prop := w.units.Pairwise fun a b => a.1.key ≠ b.1.key

theorem setKey_body (c : Ctl) (k : Bytes) : (setKey c k).body = c.body := by unfold setKey; split <;> rfl

theorem setTab_body (c : Ctl) (t : Tab) : (setTab c t).body = c.body := by unfold setTab; split <;> rfl

theorem setKeys_body (ks : List Bytes) : ∀ c : Ctl, (ks.foldl setKey c).body = c.body := by
  induction ks with
  | nil => intro c; rfl
  | cons k ks ih => intro c; rw [List.foldl_cons, ih, setKey_body]

theorem cmpTabs_body (sd : TDict) : ∀ c c' : Ctl, sd.foldlM cmpTab c = some c' → c'.body = c.body := by
  induction sd with
  | nil => intro c c' h; simp at h; rw [h]
  | cons e sd ih =>
    intro c c' h
    rw [List.foldlM_cons] at h
    obtain ⟨c1, h1, h2⟩ := Option.bind_eq_some_iff.1 h
    rw [ih c1 c' h2]
    unfold cmpTab at h1
    split at h1
    · cases h1
    · obtain ⟨k, _, h1⟩ := Option.map_eq_some_iff.1 h1
      rw [← h1]
      split
      · exact setTab_body _ _
      · rfl

theorem getUnit_grow {lib : Lib} {d : Disk} {w : Writer} (hw : KeyDiff w) {u : Uid} {c : Ctl} (h : getUnit lib d w u = some c) :
    ∀ e ∈ w.units, e.1.key = u.key → ∃ x, c.body = e.2.body ++ x := by
  intro e he hk
  unfold getUnit at h
  obtain ⟨c0, h0, h⟩ := Option.bind_eq_some_iff.1 h
  obtain ⟨c1, h1, h⟩ := Option.map_eq_some_iff.1 h
  have hb : c1.body = c0.body := by
    unfold cmpTabs at h1
    rw [cmpTabs_body _ _ _ h1]
    unfold cmpKeys
    exact setKeys_body _ _
  have hc : c0 = e.2 := by
    cases hf : w.units.find? (fun e : Uid × Ctl => e.1.key == u.key) with
    | none =>
      rw [List.find?_eq_none] at hf
      exact absurd (by rw [hk]; simp) (hf e he)
    | some o =>
      rw [hf] at h0
      have ho := List.mem_of_find?_eq_some hf
      have hok : o.1.key = u.key := by simpa using List.find?_some hf
      rw [← Option.some.inj h0]
      apply Classical.byContradiction
      intro hne
      obtain ⟨i, hi⟩ := List.mem_iff_getElem?.1 he
      obtain ⟨j, hj⟩ := List.mem_iff_getElem?.1 ho
      have hij : i ≠ j := by rintro rfl; rw [hi] at hj; cases hj; exact hne rfl
      have hd := hw
      unfold KeyDiff at hd
      rw [List.pairwise_iff_getElem] at hd
      obtain ⟨hi1, hi2⟩ := List.getElem?_eq_some_iff.1 hi
      obtain ⟨hj1, hj2⟩ := List.getElem?_eq_some_iff.1 hj
      rcases Nat.lt_or_gt_of_ne hij with hl | hl
      · have := hd i j hi1 hj1 hl
        rw [hi2, hj2] at this
        exact this (hk.trans hok.symm)
      · have := hd j i hj1 hi1 hl
        rw [hi2, hj2] at this
        exact this (hok.trans hk.symm)
  obtain ⟨x, hx⟩ := writeKeys_grow lib c1
  obtain ⟨y, hy⟩ := writeTabs_grow lib (writeKeys lib c1)
  exact ⟨x ++ y, by rw [← h, hy, hx, hb, hc, List.append_assoc]⟩

theorem putUnit_grow {w : Writer} (hw : KeyDiff w) {u : Uid} {c : Ctl} (hc : ∀ e ∈ w.units, e.1.key = u.key → ∃ x, c.body = e.2.body ++ x) :
    KeyDiff (putUnit w u c) ∧ Grow w (putUnit w u c) := by
  unfold putUnit
  split
  · refine ⟨?_, ⟨[], by simp⟩, fun e he => ?_⟩
    · unfold KeyDiff
      rw [List.pairwise_map]
      refine hw.imp fun h => ?_
      split <;> split <;> exact h
    · refine ⟨_, List.mem_map.2 ⟨e, he, rfl⟩, ?_, ?_⟩
      · split <;> rfl
      · split
        · rename_i hk
          exact hc e he (by simpa using hk)
        · exact ⟨[], by simp⟩
  · rename_i hn
    refine ⟨?_, ⟨[], by simp⟩, fun e he => ⟨e, by simp [he], rfl, [], by simp⟩⟩
    unfold KeyDiff
    rw [List.pairwise_append]
    refine ⟨hw, by simp, fun a ha b hb => ?_⟩
    rw [List.mem_singleton.1 hb]
    intro hk
    apply hn
    rw [List.any_eq_true]
    exact ⟨a, ha, by simpa using hk⟩

theorem onUnits_grow {w : Writer} (hw : KeyDiff w) (m : Ctl) (hm : ∃ x, m.body = w.main.body ++ x) {f : Ctl → Ctl} (hf : ∀ c, ∃ x, (f c).body = c.body ++ x) :
    KeyDiff (onUnits { w with main := m } f) ∧ Grow w (onUnits { w with main := m } f) := by
  refine ⟨?_, hm, fun e he => ⟨_, List.mem_map.2 ⟨e, he, rfl⟩, rfl, hf e.2⟩⟩
  unfold KeyDiff onUnits
  rw [List.pairwise_map]
  exact hw

theorem writeMap_grow (lib : Lib) (m : Ctl) (k : Bytes × Nat) (s : Option (Bytes × Nat)) (ktype day : Nat) (moved : Bool) :
    ∃ x, (writeMap lib m k s ktype day moved).body = m.body ++ x := by
  have hw : ∀ (c : Ctl) (win : IUnit) (d : Bytes) (l : List (Bytes × MapE)), ∃ x, ({ (writeWork lib c false k.1 none hidMap win d).1 with maps := l } : Ctl).body = c.body ++ x := by
    intro c win d l
    unfold writeWork
    simp only
    split <;> exact ⟨_, rfl⟩
  unfold writeMap
  simp only
  split
  · split
    · exact ⟨[], by simp⟩
    · exact hw _ _ _ _
  · split
    · split
      · exact ⟨[], by simp⟩
      · exact hw _ _ _ _
    · split
      · exact hw _ _ _ _
      · exact ⟨[], by simp⟩

theorem writeTab_grow {lib : Lib} {c c' : Ctl} {k s : Bytes} {hid ktype : Nat} {ts : Db → IUnit → Option IUnit} {d : Bytes}
    (h : writeTab lib c k s hid ktype ts d = some c') : ∃ x, c'.body = c.body ++ x := by
  unfold writeTab at h
  obtain ⟨⟨⟨s', dbs⟩, si⟩, _, h⟩ := Option.bind_eq_some_iff.1 h
  simp only at h
  split at h
  · cases h; exact ⟨[], by simp⟩
  · split at h
    · cases h
    · split at h
      · cases h; exact ⟨[], by simp⟩
      · obtain ⟨e, _, h⟩ := Option.bind_eq_some_iff.1 h
        obtain ⟨win, _, h⟩ := Option.map_eq_some_iff.1 h
        rw [← h]
        exact writeMsg_body _ _ _ _ _ _ _ _

/-- A data file asked for, changed and put back, and a mark. -/
theorem change_grow {lib : Lib} {d : Disk} {w : Writer} (hw : KeyDiff w) {u : Uid} {c c' : Ctl} (h : getUnit lib d w u = some c) (hc : ∃ x, c'.body = c.body ++ x)
    (k : Bytes × Nat) (s : Option (Bytes × Nat)) (ktype day : Nat) :
    KeyDiff { putUnit w u c' with main := writeMap lib (putUnit w u c').main k s ktype day false } ∧
      Grow w { putUnit w u c' with main := writeMap lib (putUnit w u c').main k s ktype day false } := by
  obtain ⟨h1, h2⟩ := putUnit_grow hw (u := u) (c := c') (by
    intro e he hk
    obtain ⟨x, hx⟩ := getUnit_grow hw h e he hk
    obtain ⟨y, hy⟩ := hc
    exact ⟨x ++ y, by rw [hy, hx, List.append_assoc]⟩)
  exact ⟨h1, h2.trans (grow_main _ _ (writeMap_grow _ _ _ _ _ _ _))⟩

theorem pieces_grow {lib : Lib} {d : Disk} {year : Bool} {k s : Bytes × Nat} (ps : List (Int × Bytes)) : ∀ {w w' : Writer}, KeyDiff w →
    writePieces lib d year k s w ps = some w' → KeyDiff w' ∧ Grow w w' := by
  induction ps with
  | nil => intro w w' hw h; cases h; exact ⟨hw, Grow.refl _⟩
  | cons p ps ih =>
    intro w w' hw h
    obtain ⟨p, b⟩ := p
    unfold writePieces at h
    obtain ⟨c, h1, h⟩ := Option.bind_eq_some_iff.1 h
    obtain ⟨c', h2, h⟩ := Option.bind_eq_some_iff.1 h
    obtain ⟨g1, g2⟩ := change_grow hw h1 (writeTab_grow h2) k (some s) 0 (u32 p)
    obtain ⟨g3, g4⟩ := ih g1 h
    exact ⟨g3, g2.trans g4⟩

theorem newKey_grow (lib : Lib) (m : Ctl) (k : Bytes) : ∃ x, (newKey lib m k).body = m.body ++ x := by
  unfold newKey
  split
  · exact ⟨[], by simp⟩
  · obtain ⟨x, hx⟩ := writeKeys_grow lib (setKey m k)
    exact ⟨x, by rw [hx, setKey_body]⟩

theorem cmd_grow {lib : Lib} {v : Time.Env} {d : Disk} {w w' : Writer} {c : Cmd} (hw : KeyDiff w) (h : cmd lib v d w c = some w') :
    KeyDiff w' ∧ Grow w w' := by
  cases c with
  | keys s =>
    cases h
    unfold setKeys
    split
    · exact ⟨hw, Grow.refl _⟩
    · rw [keys_fold]
      have h1 : KeyDiff { main := (splitNames s).foldl setKey w.main, units := w.units.map fun e => (e.1, (splitNames s).foldl setKey e.2) } ∧
          Grow w { main := (splitNames s).foldl setKey w.main, units := w.units.map fun e => (e.1, (splitNames s).foldl setKey e.2) } :=
        onUnits_grow hw ((splitNames s).foldl setKey w.main) ⟨[], by simp [setKeys_body]⟩ (f := fun c => (splitNames s).foldl setKey c)
          (fun c => ⟨[], by simp [setKeys_body]⟩)
      obtain ⟨h2, h3⟩ := onUnits_grow h1.1 (writeKeys lib ((splitNames s).foldl setKey w.main)) (writeKeys_grow lib _) (f := writeKeys lib) (writeKeys_grow lib)
      exact ⟨h2, h1.2.trans h3⟩
  | tabs ts =>
    unfold cmd setTabs at h
    obtain ⟨w1, h1, h⟩ := Option.map_eq_some_iff.1 h
    have hf : ∀ (ts : List Tab) (w w1 : Writer), KeyDiff w → ts.foldlM (fun w t => tabChanged { w with main := setTab w.main t } t) w = some w1 → KeyDiff w1 ∧ Grow w w1 := by
      intro ts
      induction ts with
      | nil => intro w w1 hw h; simp at h; rw [← h]; exact ⟨hw, Grow.refl _⟩
      | cons t ts ih =>
        intro w w1 hw h
        rw [List.foldlM_cons] at h
        obtain ⟨w2, h1, h2⟩ := Option.bind_eq_some_iff.1 h
        unfold tabChanged at h1
        obtain ⟨k, _, h1⟩ := Option.map_eq_some_iff.1 h1
        obtain ⟨a, b⟩ := onUnits_grow hw (setTab w.main t) ⟨[], by simp [setTab_body]⟩ (f := fun c => if c.kind = k then setTab c t else c) (by
          intro c
          split
          · exact ⟨[], by simp [setTab_body]⟩
          · exact ⟨[], by simp⟩)
        rw [h1] at a b
        obtain ⟨e, f⟩ := ih w2 w1 a h2
        exact ⟨e, b.trans f⟩
    obtain ⟨a, b⟩ := hf ts w w1 hw h1
    obtain ⟨e, f⟩ := onUnits_grow a (writeTabs lib w1.main) (writeTabs_grow lib _) (f := writeTabs lib) (writeTabs_grow lib)
    rw [h] at e f
    exact ⟨e, b.trans f⟩
  | one k b =>
    unfold cmd writerOne at h
    obtain ⟨kd, h1, h⟩ := Option.bind_eq_some_iff.1 h
    obtain ⟨c, h2, h⟩ := Option.bind_eq_some_iff.1 h
    obtain ⟨c', h3, h⟩ := Option.map_eq_some_iff.1 h
    have g := grow_main w (newKey lib w.main k) (newKey_grow lib _ _)
    obtain ⟨a, b⟩ := change_grow (w := { w with main := newKey lib w.main k }) hw h2 (c' := c') (by
      unfold writeOne at h3
      obtain ⟨e, _, h3⟩ := Option.map_eq_some_iff.1 h3
      rw [← h3]
      exact writeMsg_body _ _ _ _ _ _ _ _) kd none 2 0
    rw [h] at a b
    exact ⟨a, g.trans b⟩
  | mul k l =>
    unfold cmd writerMul at h
    obtain ⟨kd, h1, h⟩ := Option.bind_eq_some_iff.1 h
    obtain ⟨c, h2, h⟩ := Option.bind_eq_some_iff.1 h
    obtain ⟨c', h3, h⟩ := Option.map_eq_some_iff.1 h
    have g := grow_main w (newKey lib w.main k) (newKey_grow lib _ _)
    obtain ⟨a, b⟩ := change_grow (w := { w with main := newKey lib w.main k }) hw h2 (c' := c') (by
      unfold writeMul at h3
      obtain ⟨e, _, h3⟩ := Option.map_eq_some_iff.1 h3
      rw [← h3]
      exact writeMsg_body _ _ _ _ _ _ _ _) kd none 3 0
    rw [h] at a b
    exact ⟨a, g.trans b⟩
  | rows k s b =>
    replace h : writerSdb lib v d w k s b = some w' := h
    unfold writerSdb at h
    split at h
    · cases h; exact ⟨hw, Grow.refl _⟩
    · rename_i sn dbs si _
      have g : ∃ w1, (if (getKey w.main.kd k).isNone = true then onUnits { w with main := newKey lib w.main k } fun c => setKey c k
          else { w with main := newKey lib w.main k }) = w1 ∧ KeyDiff w1 ∧ Grow w w1 := by
        refine ⟨_, rfl, ?_⟩
        split
        · exact onUnits_grow hw (newKey lib w.main k) (newKey_grow lib _ _) (f := fun c => setKey c k) fun c => ⟨[], by simp [setKey_body]⟩
        · exact ⟨hw, grow_main w _ (newKey_grow lib _ _)⟩
      obtain ⟨w1, hw1, g1, g2⟩ := g
      simp only [hw1] at h
      obtain ⟨kd, _, h⟩ := Option.bind_eq_some_iff.1 h
      obtain ⟨db, _, h⟩ := Option.bind_eq_some_iff.1 h
      obtain ⟨sc, _, h⟩ := Option.bind_eq_some_iff.1 h
      split at h
      · obtain ⟨ps, _, h⟩ := Option.bind_eq_some_iff.1 h
        obtain ⟨a, b⟩ := pieces_grow ps g1 h
        exact ⟨a, g2.trans b⟩
      · obtain ⟨ps, _, h⟩ := Option.bind_eq_some_iff.1 h
        obtain ⟨a, b⟩ := pieces_grow ps g1 h
        exact ⟨a, g2.trans b⟩
      · obtain ⟨c, h2, h⟩ := Option.bind_eq_some_iff.1 h
        obtain ⟨c', h3, h⟩ := Option.map_eq_some_iff.1 h
        obtain ⟨a, b⟩ := change_grow g1 h2 (writeTab_grow h3) kd (some (sn, si)) 1 0
        rw [h] at a b
        exact ⟨a, g2.trans b⟩
  | remove k s mul sign =>
    have hm : ∀ kd s t day, KeyDiff { w with main := writeMap lib w.main kd s t day true } ∧ Grow w { w with main := writeMap lib w.main kd s t day true } :=
      fun kd s t day => ⟨hw, grow_main w _ (writeMap_grow _ _ _ _ _ _ _)⟩
    replace h : writerRemove lib w k s mul sign = some w' := h
    unfold writerRemove at h
    split at h
    · split at h
      · cases h; exact ⟨hw, Grow.refl _⟩
      · cases h; exact hm _ _ _ _
    · split at h
      · obtain ⟨db, _, h⟩ := Option.bind_eq_some_iff.1 h
        obtain ⟨sc, _, h⟩ := Option.map_eq_some_iff.1 h
        rw [← h]; exact hm _ _ _ _
      · cases h; exact ⟨hw, Grow.refl _⟩

theorem cmds_grow {lib : Lib} {v : Time.Env} {d : Disk} (cs : List Cmd) : ∀ {w w' : Writer}, KeyDiff w → cmds lib v d w cs = some w' → KeyDiff w' ∧ Grow w w' := by
  induction cs with
  | nil => intro w w' hw h; cases h; exact ⟨hw, Grow.refl _⟩
  | cons c cs ih =>
    intro w w' hw h
    unfold cmds at h
    obtain ⟨w1, h1, h⟩ := Option.bind_eq_some_iff.1 h
    obtain ⟨a, b⟩ := cmd_grow hw h1
    obtain ⟨e, f⟩ := ih a h
    exact ⟨e, b.trans f⟩

end Sis.Sdb
