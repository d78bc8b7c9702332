import Verif.Io.SaveKept
/- The calls of the writer made by a save, and the content of the files behind them. -/
namespace Sis.Io
open Sis
open Sis.Dyn (Db getN setN sameN sameN_refl sameN_iff getN_some getN_none getN_congr)
open Sis.Sdb (fold getN_setN sameN_trans_l Abs KeyName TabName)
open Sis.Fmap (Sorted)
open Sis.Time (Zone)

theorem pair_apart {α : Type} {l : List (Bytes × α)} (h : l.Pairwise fun a b => sameN a.1 b.1 = false) {x y : Bytes × α} (hx : x ∈ l) (hy : y ∈ l)
    (he : fold x.1 = fold y.1) : x = y := by
  induction l with
  | nil => cases hx
  | cons z l ih =>
    rw [List.pairwise_cons] at h
    rcases List.mem_cons.1 hx with rfl | hx
    · rcases List.mem_cons.1 hy with rfl | hy
      · rfl
      · have := h.1 y hy
        rw [Sdb.fold_same.2 he] at this; cases this
    · rcases List.mem_cons.1 hy with hyz | hy
      · rw [hyz] at he ⊢
        have := h.1 x hx
        rw [Sdb.fold_same.2 he.symm] at this; cases this
      · exact ih h.2 hx hy

theorem fold_dotted {n : Bytes} (h : (46 : UInt8) ∈ n) : fold n = Sdb.nodeName (fold (keyName n)) (some (fold (tabOfKey n))) := by
  conv => lhs; rw [dot_split h]
  exact Sdb.fold_node _ _

/-- The same block written twice. -/
theorem add_twice {v : Time.Env} {f : Dyn.Field} {R : List Bytes} (h : R.Pairwise fun x y => Sdb.timeOf f x ≤ Sdb.timeOf f y) (u : Sdb.Uid) :
    Sdb.addRecords v f R u (Sdb.addRecords v f R u none) = Sdb.addRecords v f R u none := by
  unfold Sdb.addRecords
  dsimp only
  have hm := h.filter fun r => Sdb.placeOf v f r == some u
  generalize (R.filter fun r => Sdb.placeOf v f r == some u) = m at hm
  cases m with
  | nil => rfl
  | cons a m =>
    obtain ⟨b, hb⟩ : ∃ b, (a :: m).getLast? = some b := ⟨_, List.getLast?_eq_some_getLast (by simp)⟩
    rw [hb]
    simp only [List.head?_cons]
    have hab : Sdb.timeOf f a ≤ Sdb.timeOf f b := by
      have hbm := List.mem_of_getLast? hb
      rcases List.mem_cons.1 hbm with rfl | hbm
      · exact Nat.le_refl _
      · exact (List.pairwise_cons.1 hm).1 b hbm
    have hr : Sdb.replaces (Sdb.timeOf f a) (Sdb.timeOf f b) (Sdb.timeOf f a) (Sdb.timeOf f b) = true := by
      unfold Sdb.replaces
      by_cases he : Sdb.timeOf f a = Sdb.timeOf f b
      · simp [he]
      · have : Sdb.timeOf f a < Sdb.timeOf f b := by omega
        simp [this]
    simp [Sdb.addBlock, hr]

/-- The content of the files when the series of `l` were written. -/
structure Wrote (v : Time.Env) (l : List (Bytes × Ser)) (a0 a : Abs) : Prop where
  keys : a.keys = a0.keys
  defs : a.defs = a0.defs
  was : a.was = a0.was
  vals : a.vals = a0.vals
  off : ∀ K S u, (∀ x ∈ l, ¬ (fold (keyName x.1) = K ∧ fold (tabOfKey x.1) = S)) → a.rows K S u = none
  got : ∀ x ∈ l, ∀ f, Sdb.timeField x.2.tbl.db = some f → ∀ u, a.rows (fold (keyName x.1)) (fold (tabOfKey x.1)) u = Sdb.addRecords v f x.2.unit.recs u none
  marks : ∀ n t p, a.marks n t p ↔ ∃ x ∈ l, n = fold (keyName x.1) ∧ t = some (fold (tabOfKey x.1)) ∧
    ∃ f, Sdb.timeField x.2.tbl.db = some f ∧ ∃ r ∈ x.2.unit.recs, Sdb.periodOf v f r = some p

/-- The content before a series is written: the tables and keys are there. -/
structure Ready (c : Cxt) (a0 : Abs) : Prop where
  keys : ∀ x ∈ c.sers, a0.keys (fold (keyName x.1))
  defs : ∀ x ∈ c.sers, a0.defs (fold (tabOfKey x.1)) = some x.2.tbl.db

theorem wrote_step {e : Env} {v : Time.Env} (hz : Zone v) {c : Cxt} (hk : Kept e v c) {a0 a : Abs} (hr : Ready c a0) {l : List (Bytes × Ser)} (hl : ∀ x ∈ l, x ∈ c.sers)
    (h : Wrote v l a0 a) {y : Bytes × Ser} (hy : y ∈ c.sers) : Wrote v (l ++ [y]) a0 (a.act v (rowAct y)) := by
  obtain ⟨f, gt, g⟩ := kept_ser hk hy
  obtain ⟨hrec, hok⟩ := block_ok hz gt g
  have hd : a.defs (fold (tabOfKey y.1)) = some y.2.tbl.db := by rw [h.defs]; exact hr.defs y hy
  have hord : y.2.unit.recs.Pairwise fun p q => Sdb.timeOf f p ≤ Sdb.timeOf f q := by
    have := hok.order f gt.time
    rw [hrec] at this
    exact this.imp fun h => h.1
  have hsame : ∀ x ∈ l, fold (keyName x.1) = fold (keyName y.1) → fold (tabOfKey x.1) = fold (tabOfKey y.1) → x = y := by
    intro x hx h1 h2
    obtain ⟨f', _, g'⟩ := kept_ser hk (hl x hx)
    refine pair_apart hk.sapart (hl x hx) hy ?_
    rw [fold_dotted g'.dot, fold_dotted g.dot, h1, h2]
  have he : a.act v (rowAct y) = { a with
        rows := fun k' s' u => if k' = fold (keyName y.1) ∧ s' = fold (tabOfKey y.1) then Sdb.addRecords v f y.2.unit.recs u (a.rows k' s' u) else a.rows k' s' u
        marks := fun n t p => a.marks n t p ∨ (n = fold (keyName y.1) ∧ t = some (fold (tabOfKey y.1)) ∧ ∃ r ∈ y.2.unit.recs, Sdb.periodOf v f r = some p) } := by
    unfold rowAct Abs.act
    simp only [hd, gt.time, hrec]
  rw [he]
  refine ⟨h.keys, h.defs, h.was, h.vals, ?_, ?_, ?_⟩
  · intro K S u hn
    dsimp only
    rw [if_neg fun hh => hn y (by simp) ⟨hh.1.symm, hh.2.symm⟩]
    exact h.off K S u fun x hx => hn x (by simp [hx])
  · intro x hx f' hf' u
    dsimp only
    have hyy : (if fold (keyName y.1) = fold (keyName y.1) ∧ fold (tabOfKey y.1) = fold (tabOfKey y.1) then
        Sdb.addRecords v f y.2.unit.recs u (a.rows (fold (keyName y.1)) (fold (tabOfKey y.1)) u) else a.rows (fold (keyName y.1)) (fold (tabOfKey y.1)) u) =
        Sdb.addRecords v f y.2.unit.recs u none := by
      rw [if_pos ⟨rfl, rfl⟩]
      by_cases hm : y ∈ l
      · rw [h.got y hm f gt.time, add_twice hord]
      · rw [h.off _ _ _ fun x hx hh => hm (hsame x hx hh.1 hh.2 ▸ hx)]
    by_cases hxy : x = y
    · subst hxy
      rw [gt.time] at hf'
      cases hf'
      exact hyy
    · have hxl : x ∈ l := by
        rcases List.mem_append.1 hx with h | h
        · exact h
        · exact absurd (by simpa using h) hxy
      rw [if_neg fun hh => hxy (hsame x hxl hh.1 hh.2)]
      exact h.got x hxl f' hf' u
  · intro n t p
    dsimp only
    rw [h.marks]
    constructor
    · rintro (⟨x, hx, h1⟩ | ⟨h1, h2, h3⟩)
      · exact ⟨x, by simp [hx], h1⟩
      · exact ⟨y, by simp, h1, h2, f, gt.time, h3⟩
    · rintro ⟨x, hx, h1, h2, f', hf', h3⟩
      rcases List.mem_append.1 hx with hx | hx
      · exact .inl ⟨x, hx, h1, h2, f', hf', h3⟩
      · simp only [List.mem_singleton] at hx
        subst hx
        rw [gt.time] at hf'
        cases hf'
        exact .inr ⟨h1, h2, h3⟩

theorem wrote_all {e : Env} {v : Time.Env} (hz : Zone v) {c : Cxt} (hk : Kept e v c) {a0 : Abs} (hr : Ready c a0) :
    ∀ (m l : List (Bytes × Ser)) (a : Abs), (∀ x ∈ l, x ∈ c.sers) → (∀ x ∈ m, x ∈ c.sers) → Wrote v l a0 a → Wrote v (l ++ m) a0 (a.acts v (m.map rowAct))
  | [], l, a, _, _, h => by simpa [Abs.acts] using h
  | y :: m, l, a, hl, hm, h => by
    have := wrote_all hz hk hr m (l ++ [y]) (a.act v (rowAct y)) (fun x hx => by
      rcases List.mem_append.1 hx with h | h
      · exact hl x h
      · simp only [List.mem_singleton] at h; rw [h]; exact hm y (by simp)) (fun x hx => hm x (by simp [hx])) (wrote_step hz hk hr hl h (hm y (by simp)))
    rw [List.append_assoc] at this
    exact this

/-- A series may be written at any moment. -/
theorem wrote_allowed {e : Env} {v : Time.Env} (hz : Zone v) {c : Cxt} (hk : Kept e v c) {a0 a : Abs} (hr : Ready c a0) {l : List (Bytes × Ser)}
    (h : Wrote v l a0 a) {y : Bytes × Ser} (hy : y ∈ c.sers) : Sdb.Allowed v Sdb.Usual a (rowAct y) := by
  obtain ⟨f, gt, g⟩ := kept_ser hk hy
  refine ⟨g.name, by rw [h.keys]; exact hr.keys y hy, gt.name, fun db hdb => ?_⟩
  rw [h.defs, hr.defs y hy] at hdb
  cases hdb
  exact (block_ok hz gt g).2

/-! ### The whole session -/

/-- The tables of a save. -/
def tabList (c : Cxt) : List Sdb.Tab := c.tabs.map fun e => ⟨e.1, e.2.db⟩

theorem tab_find {tabs : List (Bytes × Tbl)} (h : tabs.Pairwise fun a b => sameN a.1 b.1 = false) {x : Bytes × Tbl} (hx : x ∈ tabs) {n : Bytes} (hn : fold x.1 = n) :
    ((tabs.map fun e => (⟨e.1, e.2.db⟩ : Sdb.Tab)).find? fun t => fold t.name == n) = some ⟨x.1, x.2.db⟩ := by
  induction tabs with
  | nil => cases hx
  | cons y tabs ih =>
    rw [List.map_cons, List.find?_cons]
    by_cases hy : fold y.1 = n
    · have : y = x := pair_apart h (by simp) hx (hy.trans hn.symm)
      subst this
      simp [hy]
    · simp only [beq_eq_false_iff_ne.2 hy]
      rcases List.mem_cons.1 hx with rfl | hx
      · exact absurd hn hy
      · exact ih (List.pairwise_cons.1 h).2 hx

/-- What is saved before the records. -/
def headActs (c : Cxt) (order : List (Bytes × Ser)) : List Sdb.Act :=
  (if order = [] then [] else [.keys ((order.map fun e => keyName e.1).foldl pushOnly [])]) ++ if c.tabs = [] then [] else [.tabs (tabList c)]

theorem save_cmds {e : Env} {v : Time.Env} {c : Cxt} (hk : Kept e v c) {order : List (Bytes × Ser)} (ho : ∀ x ∈ order, x ∈ c.sers) (hne : ¬ (order = [] ∧ c.tabs = [])) :
    saveCmds c order = some (some ((headActs c order ++ (order.flatMap fun x => List.replicate (times x.2) x).map rowAct).map Sdb.Act.cmd)) := by
  have htab : saveTabs c.tabs = some ((if c.tabs = [] then [] else [Sdb.Act.tabs (tabList c)]).map Sdb.Act.cmd) := by
    unfold saveTabs
    by_cases ht : c.tabs = []
    · rw [if_pos ht, if_pos ht]; rfl
    · rw [if_neg ht, if_neg ht]
      obtain ⟨b, h1, h2⟩ := Sdb.C82_text_partial (tabList c) fun t ht => by
        obtain ⟨x, hx, rfl⟩ := List.mem_map.1 ht
        obtain ⟨f, gt⟩ := hk.tabs x hx
        obtain ⟨ds, h, _⟩ := gt.usual
        exact ⟨gt.name, ds, h⟩
      show (Sdb.tabText (tabList c)).bind _ = _
      rw [h1]
      show (Sdb.textTabs b).map _ = _
      rw [h2]; rfl
  have hrow : order.flatMap saveUnit = ((order.flatMap fun x => List.replicate (times x.2) x).map rowAct).map Sdb.Act.cmd := by
    rw [List.map_map, List.map_flatMap, List.flatMap_def, List.flatMap_def]
    congr 1
    apply List.map_congr_left
    intro x hx
    obtain ⟨f, gt, g⟩ := kept_ser hk (ho x hx)
    exact save_unit gt.index g
  unfold saveCmds headActs
  by_cases h : order = []
  · have ht : c.tabs ≠ [] := fun ht => hne ⟨h, ht⟩
    rw [if_neg (by simp [h]), if_neg ht, htab]
    subst h
    simp
  · rw [if_pos h, htab, hrow, if_neg h]
    simp only [Option.map_some, List.map_append, List.map_cons, List.map_nil]
    rfl

theorem head_ready {e : Env} {v : Time.Env} {c : Cxt} (hk : Kept e v c) {order : List (Bytes × Ser)} (ho : order.Perm c.sers) :
    Ready c (Abs.acts v {} (headActs c order)) ∧ Wrote v [] (Abs.acts v {} (headActs c order)) (Abs.acts v {} (headActs c order)) ∧
      (∀ n, (Abs.acts v {} (headActs c order)).vals n = none) ∧
      (∀ n db, (Abs.acts v {} (headActs c order)).was n db → ∃ x ∈ c.tabs, fold x.1 = n ∧ x.2.db = db) ∧
      ∀ pre x post, headActs c order = pre ++ x :: post → Sdb.Allowed v Sdb.Usual (Abs.acts v {} pre) x := by
  have hcs : ∀ k ∈ order.map fun e => keyName e.1, CStr k := by
    intro k hk'
    obtain ⟨x, hx, rfl⟩ := List.mem_map.1 hk'
    obtain ⟨f, _, g⟩ := kept_ser hk (ho.mem_iff.1 hx)
    exact g.cstr
  obtain ⟨p1, p2⟩ := push_names _ hcs [] (by simp)
  have hkn : ∀ k ∈ (order.map fun e => keyName e.1).foldl pushOnly [], KeyName k := by
    intro k hk'
    rcases p1 k hk' with h | h
    · cases h
    · obtain ⟨x, hx, rfl⟩ := List.mem_map.1 h
      obtain ⟨f, _, g⟩ := kept_ser hk (ho.mem_iff.1 hx)
      exact g.name
  have hapart : (tabList c).Pairwise fun x y => fold x.name ≠ fold y.name := by
    unfold tabList
    rw [List.pairwise_map]
    exact hk.tapart.imp fun h he => by rw [Sdb.fold_same.2 he] at h; cases h
  have hgood : ∀ t ∈ tabList c, TabName t.name ∧ Sdb.Usual t.db := by
    intro t ht
    obtain ⟨x, hx, rfl⟩ := List.mem_map.1 ht
    obtain ⟨f, gt⟩ := hk.tabs x hx
    exact ⟨gt.name, gt.usual⟩
  have hne : ∀ x ∈ c.sers, order ≠ [] ∧ c.tabs ≠ [] := by
    intro x hx
    refine ⟨fun h => ?_, fun h => ?_⟩
    · have := ho.mem_iff.2 hx
      rw [h] at this; cases this
    · have := (hk.sers x hx).1
      rw [h] at this; cases this
  have hwrote : ∀ a : Abs, (∀ K S u, a.rows K S u = none) → (∀ n t p, ¬ a.marks n t p) → Wrote v [] a a := by
    intro a h1 h2
    exact ⟨rfl, rfl, rfl, rfl, fun K S u _ => h1 K S u, fun x hx => absurd hx (by simp), fun n t p => ⟨fun h => (h2 n t p h).elim, fun ⟨x, hx, _⟩ => absurd hx (by simp)⟩⟩
  refine ⟨⟨fun x hx => ?_, fun x hx => ?_⟩, ?_, ?_, ?_, ?_⟩
  · obtain ⟨h1, h2⟩ := hne x hx
    unfold headActs
    rw [if_neg h1, if_neg h2]
    obtain ⟨n, q1, q2⟩ := p2 (keyName x.1) (.inr (List.mem_map.2 ⟨x, ho.mem_iff.2 hx, rfl⟩))
    exact .inr (List.mem_map.2 ⟨n, q1, q2⟩)
  · obtain ⟨h1, h2⟩ := hne x hx
    unfold headActs
    rw [if_neg h1, if_neg h2]
    obtain ⟨i, y, g1, g2, g3⟩ := getN_some (hk.sers x hx).1
    have := tab_find hk.tapart (List.mem_of_getElem? g1) (Sdb.fold_same.1 g3).symm
    show (((tabList c).find? fun t => fold t.name == fold (tabOfKey x.1)).map (·.db)).or none = _
    unfold tabList
    rw [this, g2]; rfl
  · apply hwrote <;> (unfold headActs; split <;> split <;> simp [Abs.acts, Abs.act])
  · unfold headActs; split <;> split <;> simp [Abs.acts, Abs.act]
  · intro n db
    unfold headActs
    split <;> split <;> simp [Abs.acts, Abs.act, tabList]
  · intro pre x post he
    unfold headActs at he
    have hx : x ∈ (if order = [] then [] else [Sdb.Act.keys ((order.map fun e => keyName e.1).foldl pushOnly [])]) ++ if c.tabs = [] then [] else [.tabs (tabList c)] := by
      rw [he]; simp
    rcases List.mem_append.1 hx with h | h
    · split at h
      · cases h
      · simp only [List.mem_singleton] at h
        subst h
        exact hkn
    · split at h
      · cases h
      · simp only [List.mem_singleton] at h
        subst h
        exact ⟨hgood, hapart⟩

/-- A save into an empty directory: it is defined, and if the files are not too large they have the content expected. -/
theorem save_wrote {e : Env} {v : Time.Env} (hz : Zone v) {c : Cxt} (hk : Kept e v c) {order : List (Bytes × Ser)} (ho : order.Perm c.sers) {lib : Sdb.Lib}
    (ht : lib.trace = false) (L : Sdb.Restores lib) (T : Sdb.Readable lib Sdb.Usual) (K : Sdb.Tables Sdb.Usual) :
    ∃ d, save lib v c order {} = some d ∧ (Sdb.Moderate d → ∃ a0 a, Sdb.Hist lib v Sdb.Usual d a ∧ Ready c a0 ∧ (∀ n, a0.vals n = none) ∧
      (∀ n db, a0.was n db → ∃ x ∈ c.tabs, fold x.1 = n ∧ x.2.db = db) ∧ Wrote v (c.sers.filter fun x => decide (0 < times x.2)) a0 a) := by
  obtain ⟨h1, h2, h3, h4, h5⟩ := head_ready (v := v) hk ho
  have hmem : ∀ x ∈ order.flatMap fun x => List.replicate (times x.2) x, x ∈ c.sers := by
    intro x hx
    obtain ⟨y, hy, hxy⟩ := List.mem_flatMap.1 hx
    rw [(List.mem_replicate.1 hxy).2]
    exact ho.mem_iff.1 hy
  have hw : ∀ m : List (Bytes × Ser), (∀ x ∈ m, x ∈ c.sers) → Wrote v m (Abs.acts v {} (headActs c order)) (Abs.acts v {} (headActs c order ++ m.map rowAct)) := by
    intro m hm
    have := wrote_all hz hk h1 m [] _ (by simp) hm h2
    unfold Abs.acts at this ⊢
    rw [List.foldl_append]
    exact this
  have hmm : ∀ x, (x ∈ order.flatMap fun x => List.replicate (times x.2) x) ↔ x ∈ c.sers.filter fun x => decide (0 < times x.2) := by
    intro x
    rw [List.mem_filter, List.mem_flatMap]
    constructor
    · rintro ⟨y, hy, hxy⟩
      obtain ⟨g1, g2⟩ := List.mem_replicate.1 hxy
      subst g2
      exact ⟨ho.mem_iff.1 hy, by simp; omega⟩
    · rintro ⟨g1, g2⟩
      exact ⟨x, ho.mem_iff.2 g1, List.mem_replicate.2 ⟨by have := of_decide_eq_true g2; omega, rfl⟩⟩
  have hfin : Wrote v (c.sers.filter fun x => decide (0 < times x.2)) (Abs.acts v {} (headActs c order))
      (Abs.acts v {} (headActs c order ++ (order.flatMap fun x => List.replicate (times x.2) x).map rowAct)) := by
    have w := hw _ hmem
    exact ⟨w.keys, w.defs, w.was, w.vals, fun K S u hn => w.off K S u fun x hx => hn x ((hmm x).1 hx), fun x hx => w.got x ((hmm x).2 hx),
      fun n t p => (w.marks n t p).trans ⟨fun ⟨x, hx, r⟩ => ⟨x, (hmm x).1 hx, r⟩, fun ⟨x, hx, r⟩ => ⟨x, (hmm x).2 hx, r⟩⟩⟩
  by_cases hne : order = [] ∧ c.tabs = []
  · refine ⟨{}, ?_, fun _ => ⟨_, _, ?_, h1, h3, h4, hfin⟩⟩
    · unfold save saveCmds
      rw [if_neg (by simp [hne.1]), if_pos hne.2]; rfl
    · unfold headActs
      rw [if_pos hne.1, if_pos hne.2, hne.1]
      exact .new
  · obtain ⟨d, g1, g2⟩ := Sdb.C104_session_partial (P := Sdb.Usual) ht L T K (v := v) (Sdb.Hist.new)
      (as := headActs c order ++ (order.flatMap fun x => List.replicate (times x.2) x).map rowAct) (by
        intro pre x post he
        rcases List.append_eq_append_iff.1 he with ⟨as, e1, e2⟩ | ⟨bs, e1, e2⟩
        · obtain ⟨m1, m2, q1, q2, q3⟩ := List.map_eq_append_iff.1 e2
          obtain ⟨y, m3, r1, r2, r3⟩ := List.map_eq_cons_iff.1 q3
          rw [e1, ← q2, ← r2]
          refine wrote_allowed hz hk h1 (hw m1 fun z hz' => hmem z (by rw [q1]; simp [hz'])) (hmem y (by rw [q1, r1]; simp))
        · cases bs with
          | nil =>
            simp only [List.nil_append] at e2
            obtain ⟨y, m3, r1, r2, r3⟩ := List.map_eq_cons_iff.1 e2.symm
            rw [List.append_nil] at e1
            rw [← e1, ← r2]
            have := hw [] (by simp)
            rw [List.map_nil, List.append_nil] at this
            exact wrote_allowed hz hk h1 this (hmem y (by rw [r1]; simp))
          | cons z bs =>
            obtain ⟨r1, r2⟩ := List.cons.inj e2
            rw [r1]
            exact h5 pre z bs e1)
    refine ⟨d, ?_, fun hm => ⟨_, _, g2 hm, h1, h3, h4, hfin⟩⟩
    unfold save
    rw [save_cmds hk (fun x hx => ho.mem_iff.1 hx) hne]
    exact g1

end Sis.Io
