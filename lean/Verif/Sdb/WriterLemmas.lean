import Verif.Sdb.UnitSteps
/- What the calls of a writer do to the files of a database. -/
namespace Sis.Sdb
open Sis Sis.Disk
open Sis.Dyn (sameN getN setN Db sameN_iff sameN_refl getN_none getN_some setN_spec getN_congr)

/-- What is seen of all data files: the blocks by file and name. -/
abbrev Store := Uid → Bytes → Option Blocks

/-- One name of one file changed. -/
def put (S : Store) (u : Uid) (n : Bytes) (f : Blocks → Blocks) : Store :=
  fun u' n' => if u' = u ∧ sameN n' n = true then some (f ((S u' n').getD [])) else S u' n'

def Sane : Uid → Prop
  | .nots => True
  | .year n => n < 10000
  | .date n => 10000 ≤ n

theorem key_inj {a b : Uid} (ha : Sane a) (hb : Sane b) (h : (a.key == b.key) = true) : a = b := by
  rw [beq_iff_eq] at h
  cases a <;> cases b <;> simp only [Uid.key, Sane, Option.some.injEq, reduceCtorEq] at h ha hb
  · rfl
  · rw [h]
  · omega
  · omega
  · rw [h]

/-- The data files of a disk with some of them open. -/
structure FilesOk (lib : Lib) (P : Db → Prop) (d : Disk) (us : List (Uid × Ctl)) (S : Store) : Prop where
  units : ∀ e ∈ us, UOk lib P e.1 e.2 ∧ Sane e.1 ∧ ∀ n, IsData n → view lib e.2 n = S e.1 n
  diff : us.Pairwise fun a b => a.1 ≠ b.1
  disk : ∀ u f, d.unit u = some f → Sane u ∧ ∃ c, openUnit lib u.kind f = some c ∧ UOk lib P u c ∧
    ((∀ e ∈ us, e.1 ≠ u) → ∀ n, IsData n → view lib c n = S u n)
  none : ∀ u, d.unit u = none → (∀ e ∈ us, e.1 ≠ u) → ∀ n, IsData n → S u n = none

theorem FilesOk.map {lib : Lib} {P : Db → Prop} {d : Disk} {us : List (Uid × Ctl)} {S : Store} (h : FilesOk lib P d us S) (f : Ctl → Ctl)
    (hf : ∀ e ∈ us, UOk lib P e.1 (f e.2) ∧ ∀ n, IsData n → view lib (f e.2) n = view lib e.2 n) :
    FilesOk lib P d (us.map fun e => (e.1, f e.2)) S := by
  have hmem : ∀ u : Uid, (∀ e ∈ us.map (fun e => (e.1, f e.2)), e.1 ≠ u) → ∀ e ∈ us, e.1 ≠ u :=
    fun u hx e he => hx (e.1, f e.2) (List.mem_map.2 ⟨e, he, rfl⟩)
  refine ⟨?_, ?_, ?_, fun u hu hx => h.none u hu (hmem u hx)⟩
  · intro e he
    obtain ⟨o, ho, rfl⟩ := List.mem_map.1 he
    obtain ⟨h1, h2, h3⟩ := h.units o ho
    exact ⟨(hf o ho).1, h2, fun n hn => ((hf o ho).2 n hn).trans (h3 n hn)⟩
  · rw [List.pairwise_map]; exact h.diff
  · intro u g hu
    obtain ⟨h1, c, h2, h3, h4⟩ := h.disk u g hu
    exact ⟨h1, c, h2, h3, fun hx => h4 (hmem u hx)⟩

/-- A data file put back. -/
theorem FilesOk.put {lib : Lib} {P : Db → Prop} {d : Disk} {w : Writer} {S : Store} (h : FilesOk lib P d w.units S) {u : Uid} (hu : Sane u) {c : Ctl}
    (hc : UOk lib P u c) (n0 : Bytes) (f : Blocks → Blocks)
    (hv : ∀ n, IsData n → view lib c n = if sameN n n0 = true then some (f ((S u n).getD [])) else S u n) :
    FilesOk lib P d (putUnit w u c).units (put S u n0 f) ∧ (putUnit w u c).main = w.main := by
  have hother : ∀ u', u' ≠ u → ∀ n, Sdb.put S u n0 f u' n = S u' n := by
    intro u' hne n
    unfold Sdb.put
    rw [if_neg (fun hx => hne hx.1)]
  have hview : ∀ n, IsData n → view lib c n = Sdb.put S u n0 f u n := by
    intro n hn
    unfold Sdb.put
    rw [hv n hn]
    simp
  unfold putUnit
  split
  · rename_i hany
    rw [List.any_eq_true] at hany
    obtain ⟨o, ho, hok⟩ := hany
    have hou := key_inj (h.units o ho).2.1 hu hok
    have hkey : ∀ e ∈ w.units, (e.1.key == u.key) = true ↔ e.1 = u := by
      intro e he
      refine ⟨key_inj (h.units e he).2.1 hu, ?_⟩
      rintro rfl; simp
    have hmem : ∀ u' : Uid, (∀ e ∈ w.units.map (fun e => if e.1.key == u.key then (e.1, c) else e), e.1 ≠ u') → ∀ e ∈ w.units, e.1 ≠ u' := by
      intro u' hx e he
      have := hx _ (List.mem_map.2 ⟨e, he, rfl⟩)
      split at this <;> exact this
    have hne : ∀ u' : Uid, (∀ e ∈ w.units, e.1 ≠ u') → u' ≠ u := fun u' hx => by rw [← hou]; exact fun hh => hx o ho hh.symm
    refine ⟨⟨?_, ?_, ?_, ?_⟩, rfl⟩
    · intro e he
      obtain ⟨o', ho', rfl⟩ := List.mem_map.1 he
      split
      · rename_i hk
        have := (hkey o' ho').1 hk
        simp only
        rw [this]
        exact ⟨hc, hu, hview⟩
      · rename_i hk
        obtain ⟨h1, h2, h3⟩ := h.units o' ho'
        refine ⟨h1, h2, fun n hn => ?_⟩
        rw [hother _ (fun hx => hk ((hkey o' ho').2 hx))]
        exact h3 n hn
    · rw [List.pairwise_map]
      refine h.diff.imp fun hx => ?_
      split <;> split <;> exact hx
    · intro u' g hg
      obtain ⟨h1, c', h2, h3, h4⟩ := h.disk u' g hg
      refine ⟨h1, c', h2, h3, fun hx n hn => ?_⟩
      rw [hother _ (hne u' (hmem u' hx))]
      exact h4 (hmem u' hx) n hn
    · intro u' hg hx n hn
      rw [hother _ (hne u' (hmem u' hx))]
      exact h.none u' hg (hmem u' hx) n hn
  · rename_i hany
    have hno : ∀ e ∈ w.units, e.1 ≠ u := by
      intro e he hx
      apply hany
      rw [List.any_eq_true]
      exact ⟨e, he, by rw [hx]; simp⟩
    refine ⟨⟨?_, ?_, ?_, ?_⟩, rfl⟩
    · intro e he
      rcases List.mem_append.1 he with he | he
      · obtain ⟨h1, h2, h3⟩ := h.units e he
        refine ⟨h1, h2, fun n hn => ?_⟩
        rw [hother _ (hno e he)]
        exact h3 n hn
      · rw [List.mem_singleton.1 he]; exact ⟨hc, hu, hview⟩
    · rw [List.pairwise_append]
      refine ⟨h.diff, by simp, ?_⟩
      intro a ha b hb
      rw [List.mem_singleton.1 hb]
      exact hno a ha
    · intro u' g hg
      obtain ⟨h1, c', h2, h3, h4⟩ := h.disk u' g hg
      refine ⟨h1, c', h2, h3, fun hx n hn => ?_⟩
      rw [hother _ (fun hh => hx (u, c) (by simp) hh.symm)]
      exact h4 (fun e he => hx e (by simp [he])) n hn
    · intro u' hg hx n hn
      rw [hother _ (fun hh => hx (u, c) (by simp) hh.symm)]
      exact h.none u' hg (fun e he => hx e (by simp [he])) n hn

/-- What is asked of the tables that are used. -/
structure TabsOk (P : Db → Prop) : Prop where
  kind : ∀ db, P db → ∃ k, scale db = some k ∧ k ≠ .main
  size : ∀ db, P db → db.size ≠ 0
  same : ∀ a b, P a → P b → sameDb a b = true → a.size = b.size ∧ a.time.map (Dyn.unit a) = b.time.map (Dyn.unit b)

/-- The tables of the main file are added. -/
theorem cmpTabs_pre {lib : Lib} {P : Db → Prop} (K : TabsOk P) {u : Uid} (sd : TDict) (hd : sd.Pairwise fun a b => sameN a.1 b.1 = false)
    (hs : ∀ e ∈ sd, GoodTab e.1 ∧ e.2 ≠ [] ∧ ∀ db ∈ e.2, P db) :
    ∀ c : Ctl, Pre lib P u c → (∀ n ∈ c.news, ∀ e ∈ sd, sameN n.name e.1 = false) →
      ∃ c', sd.foldlM cmpTab c = some c' ∧ Pre lib P u c' ∧ Ext lib c c' ∧ c'.newk = c.newk ∧ c'.kd = c.kd ∧
        c'.body = c.body ∧ (∀ n, (∀ e ∈ sd, sameN n e.1 = false) → getN c'.sd n = getN c.sd n) ∧
        (∀ e ∈ sd, ∀ db, e.2.getLast? = some db → scale db = some u.kind →
          ∃ dbs l, getN c'.sd e.1 = some dbs ∧ dbs.getLast? = some l ∧ P l ∧ (l = db ∨ sameDb l db = true)) := by
  induction sd with
  | nil => intro c h _; exact ⟨c, rfl, h, Ext.refl lib c, rfl, rfl, rfl, fun _ _ => rfl, by simp⟩
  | cons e sd ih =>
    intro c h hn
    obtain ⟨hd1, hd2⟩ := List.pairwise_cons.1 hd
    obtain ⟨e1, e2, e3⟩ := hs e (by simp)
    obtain ⟨db, hdb⟩ : ∃ db, e.2.getLast? = some db := by
      cases hl : e.2.getLast? with
      | none => rw [List.getLast?_eq_none_iff] at hl; exact absurd hl e2
      | some db => exact ⟨db, rfl⟩
    have hp : P db := e3 db (List.mem_of_getLast? hdb)
    obtain ⟨k, hk, _⟩ := K.kind db hp
    rw [List.foldlM_cons]
    simp only [cmpTab, hdb, hk, Option.map_some, Option.bind_eq_bind, Option.bind_some]
    by_cases hkind : k = c.kind
    · rw [if_pos hkind]
      obtain ⟨s1, s2, s3, s4, s5, s6, s7⟩ := setTab_pre h (t := ⟨e.1, db⟩) e1 hp (fun n hx => hn n hx e (by simp))
      obtain ⟨c', g1, g2, g3, g4, g5, g6, g7, g8⟩ := ih hd2 (fun x hx => hs x (by simp [hx])) _ s1 (by
        intro n hx x hxs
        rcases s6 n hx with hx | rfl
        · exact hn n hx x (by simp [hxs])
        · exact hd1 x hxs)
      refine ⟨c', g1, g2, s2.trans g3, g4.trans s3, g5.trans s4, g6.trans s7, ?_, ?_⟩
      · intro n hx
        rw [g7 n (fun x hxs => hx x (by simp [hxs])), s5]
        exact (getN_addTab c.sd ⟨e.1, db⟩ n).1 (hx e (by simp))
      · intro x hx db' hl hsc
        rcases List.mem_cons.1 hx with rfl | hx
        · rw [hdb] at hl
          cases hl
          rw [g7 x.1 (fun y hy => hd1 y hy), s5]
          obtain ⟨dbs, l, a1, a2, a3⟩ := (getN_addTab c.sd ⟨x.1, db⟩ x.1).2 (sameN_refl _)
          refine ⟨dbs, l, a1, a2, ?_, ?_⟩
          · rcases a3 with rfl | ⟨_, a4⟩
            · exact hp
            · obtain ⟨i, o, o1, o2, _⟩ := getN_some a4
              exact h.pdbs o (List.mem_of_getElem? o1) l (by rw [o2]; exact List.mem_of_getLast? a2)
          · rcases a3 with a3 | a3
            · exact .inl a3
            · exact .inr a3.1
        · exact g8 x hx db' hl hsc
    · rw [if_neg hkind]
      obtain ⟨c', g1, g2, g3, g4, g5, g6, g7, g8⟩ := ih hd2 (fun x hx => hs x (by simp [hx])) c h (fun n hx x hxs => hn n hx x (by simp [hxs]))
      refine ⟨c', g1, g2, g3, g4, g5, g6, fun n hx => g7 n (fun x hxs => hx x (by simp [hxs])), ?_⟩
      intro x hx db' hl hsc
      rcases List.mem_cons.1 hx with rfl | hx
      · rw [hdb] at hl
        cases hl
        rw [hk] at hsc
        exact absurd ((Option.some.inj hsc).trans h.kind.symm) hkind
      · exact g8 x hx db' hl hsc

theorem writeTabs_grow (lib : Lib) (c : Ctl) : ∃ x, (writeTabs lib c).body = c.body ++ x := by
  unfold writeTabs
  split
  · exact ⟨[], by simp⟩
  · unfold writeWork; split <;> exact ⟨_, rfl⟩

theorem writeKeys_grow (lib : Lib) (c : Ctl) : ∃ x, (writeKeys lib c).body = c.body ++ x := by
  unfold writeKeys
  split
  · exact ⟨[], by simp⟩
  · unfold writeWork; split <;> exact ⟨_, rfl⟩

theorem writeTabs_dict (lib : Lib) (c : Ctl) : (writeTabs lib c).kd = c.kd ∧ (writeTabs lib c).sd = c.sd := by
  unfold writeTabs
  split
  · exact ⟨rfl, rfl⟩
  · unfold writeWork; split <;> exact ⟨rfl, rfl⟩

theorem writeKeys_dict (lib : Lib) (c : Ctl) : (writeKeys lib c).kd = c.kd ∧ (writeKeys lib c).sd = c.sd := by
  unfold writeKeys
  split
  · exact ⟨rfl, rfl⟩
  · unfold writeWork; split <;> exact ⟨rfl, rfl⟩

/-- A data file is asked for. -/
theorem getUnit_good {lib : Lib} {P : Db → Prop} (T : TextOk lib P) (K : TabsOk P) {d : Disk} {w : Writer} {S : Store} (hm : MainInv lib P w.main)
    (h : FilesOk lib P d w.units S) {u : Uid} (hu : Sane u) :
    ∃ c, getUnit lib d w u = some c ∧ (∀ e ∈ w.units, e.1 = u → ∃ x, c.body = e.2.body ++ x) ∧ (∀ k ∈ w.main.kd, ∃ n ∈ c.kd, sameN k n = true) ∧
      (∀ e ∈ w.main.sd, ∀ db, e.2.getLast? = some db → scale db = some u.kind →
        ∃ dbs l, getN c.sd e.1 = some dbs ∧ dbs.getLast? = some l ∧ P l ∧ (l = db ∨ sameDb l db = true)) ∧
      (c.body.length < 2 ^ 32 → UOk lib P u c ∧ ∀ n, IsData n → view lib c n = S u n) := by
  obtain ⟨c0, hc0, hok, hbody, hview⟩ : ∃ c0, ((match w.units.find? (fun e : Uid × Ctl => e.1.key == u.key) with
    | some e => some e.2
    | none =>
      match d.unit u with
      | none => some { kind := u.kind }
      | some f => openUnit lib u.kind f) : Option Ctl) = some c0 ∧ UOk lib P u c0 ∧ (∀ e ∈ w.units, e.1 = u → e.2 = c0) ∧ ∀ n, IsData n → view lib c0 n = S u n := by
    cases hf : w.units.find? (fun e : Uid × Ctl => e.1.key == u.key) with
    | some e =>
      have he := List.mem_of_find?_eq_some hf
      obtain ⟨h1, h2, h3⟩ := h.units e he
      have heu : e.1 = u := key_inj h2 hu (by simpa using List.find?_some hf)
      rw [heu] at h1 h3
      refine ⟨e.2, rfl, h1, ?_, h3⟩
      intro o ho hou
      apply Classical.byContradiction
      intro hne
      obtain ⟨i, hi⟩ := List.mem_iff_getElem?.1 he
      obtain ⟨j, hj⟩ := List.mem_iff_getElem?.1 ho
      have hij : i ≠ j := by rintro rfl; rw [hi] at hj; cases hj; exact hne rfl
      have hd := h.diff
      rw [List.pairwise_iff_getElem] at hd
      obtain ⟨hi1, hi2⟩ := List.getElem?_eq_some_iff.1 hi
      obtain ⟨hj1, hj2⟩ := List.getElem?_eq_some_iff.1 hj
      rcases Nat.lt_or_gt_of_ne hij with hl | hl
      · have := hd i j hi1 hj1 hl
        rw [hi2, hj2] at this
        exact this (heu.trans hou.symm)
      · have := hd j i hj1 hi1 hl
        rw [hi2, hj2] at this
        exact this (hou.trans heu.symm)
    | none =>
      rw [List.find?_eq_none] at hf
      have hno : ∀ e ∈ w.units, e.1 ≠ u := by
        intro e he hx
        exact hf e he (by rw [hx]; simp)
      cases hd : d.unit u with
      | none =>
        refine ⟨_, rfl, uok_new lib P u, fun e he hx => absurd hx (hno e he), fun n hn => ?_⟩
        rw [h.none u hd hno n hn]
        rfl
      | some f =>
        obtain ⟨_, c, h2, h3, h4⟩ := h.disk u f hd
        exact ⟨c, h2, h3, fun e he hx => absurd hx (hno e he), h4 hno⟩
  have hgu : getUnit lib d w u = (some c0).bind fun c => (cmpTabs w.main (cmpKeys w.main c)).map fun c => writeTabs lib (writeKeys lib c) :=
    congrArg (fun o : Option Ctl => o.bind fun c => (cmpTabs w.main (cmpKeys w.main c)).map fun c => writeTabs lib (writeKeys lib c)) hc0
  rw [hgu]
  simp only [Option.bind_some]
  have hck : cmpKeys w.main c0 = w.main.kd.foldl setKey c0 := by
    unfold cmpKeys
    rw [← hok.newk]
  obtain ⟨p1, p2, p3, p4, p5, p6⟩ := setKeys_pre w.main.kd hm.knames c0 hok.toPre
  rw [hck]
  generalize hcc : w.main.kd.foldl setKey c0 = c1 at p1 p2 p3 p4 p5 p6
  have hct : cmpTabs w.main c1 = w.main.sd.foldlM cmpTab c1 := by
    unfold cmpTabs
    have : ({ c1 with news := [] } : Ctl) = c1 := by rw [← hok.news, ← p3]
    rw [this]
  obtain ⟨c2, q1, q2, q3, q4, q5, q6, q7, q8⟩ := cmpTabs_pre K w.main.sd hm.sdiff hm.snames c1 p1 (by rw [p3, hok.news]; simp)
  rw [hct, q1]
  simp only [Option.map_some]
  obtain ⟨d1, d2⟩ := writeKeys_dict lib c2
  obtain ⟨d3, d4⟩ := writeTabs_dict lib (writeKeys lib c2)
  obtain ⟨x, hx⟩ := writeKeys_grow lib c2
  obtain ⟨y, hy⟩ := writeTabs_grow lib (writeKeys lib c2)
  refine ⟨_, rfl, ?_, ?_, ?_, ?_⟩
  · intro e he heu
    exact ⟨x ++ y, by rw [hy, hx, q6, p6, hbody e he heu, List.append_assoc]⟩
  · rw [d3, d1, q5]; exact p5
  · rw [d4, d2]; exact q8
  · intro hsm
    obtain ⟨r1, r2, _, _⟩ := flush_both T q2 hsm
    refine ⟨r1, fun n hn => ?_⟩
    rw [((p2.trans q3).trans r2).view n hn]
    exact hview n hn

end Sis.Sdb
