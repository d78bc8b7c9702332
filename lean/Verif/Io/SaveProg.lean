import Verif.Io.SaveAsk
import Verif.Io.StepLemmas
/- What is in memory after clients defined tables and sent rows. -/
namespace Sis.Io
open Sis
open Sis.Dyn (Db getN setN sameN sameN_refl sameN_iff getN_some getN_none getN_congr)
open Sis.Sdb (fold getN_setN KeyName TabName)
open Sis.Rec (Val)
open Sis.Fmap (Sorted Fidx)
open Sis.Time (Zone)

/-! ### Lists of names -/

theorem setN_parts {α : Type} {l : List (Bytes × α)} (h : l.Pairwise fun a b => sameN a.1 b.1 = false) (k : Bytes) (w : α) :
    ((setN l k w).1.Pairwise fun a b => sameN a.1 b.1 = false) ∧
      ∀ x ∈ (setN l k w).1, (x ∈ l ∧ fold x.1 ≠ fold k) ∨ (x.2 = w ∧ fold x.1 = fold k) := by
  induction l with
  | nil =>
    refine ⟨by simp [setN], fun x hx => ?_⟩
    simp only [setN, List.mem_singleton] at hx
    subst hx
    exact .inr ⟨rfl, rfl⟩
  | cons e l ih =>
    rw [List.pairwise_cons] at h
    obtain ⟨i1, i2⟩ := ih h.2
    unfold setN
    by_cases hs : sameN k e.1 = true
    · rw [if_pos hs]
      refine ⟨List.pairwise_cons.2 ⟨h.1, h.2⟩, fun x hx => ?_⟩
      rcases List.mem_cons.1 hx with rfl | hx
      · exact .inr ⟨rfl, (Sdb.fold_same.1 hs).symm⟩
      · refine .inl ⟨by simp [hx], fun he => ?_⟩
        have := h.1 x hx
        rw [Sdb.fold_same.2 ((Sdb.fold_same.1 hs).symm.trans he.symm)] at this
        cases this
    · rw [if_neg hs]
      refine ⟨List.pairwise_cons.2 ⟨fun x hx => ?_, i1⟩, fun x hx => ?_⟩
      · rcases i2 x hx with ⟨h1, _⟩ | ⟨_, h2⟩
        · exact h.1 x h1
        · cases hh : sameN e.1 x.1 with
          | false => rfl
          | true => exact absurd (Sdb.fold_same.2 ((Sdb.fold_same.1 hh).trans h2).symm) hs
      · rcases List.mem_cons.1 hx with rfl | hx
        · exact .inl ⟨by simp, fun he => hs (Sdb.fold_same.2 he.symm)⟩
        · rcases i2 x hx with ⟨h1, h2⟩ | h1
          · exact .inl ⟨by simp [h1], h2⟩
          · exact .inr h1

theorem setN_setN {α : Type} (l : List (Bytes × α)) (k : Bytes) (a b : α) : (setN (setN l k a).1 k b).1 = (setN l k b).1 := by
  induction l with
  | nil => simp [setN, sameN_refl]
  | cons e l ih =>
    by_cases hs : sameN k e.1 = true
    · simp [setN, hs]
    · simp [setN, hs, ih]

theorem setN_some {α : Type} {l : List (Bytes × α)} {n : Bytes} {o : α} (h : getN l n = some o) (k : Bytes) (w : α) (hk : getN l k = none) : getN (setN l k w).1 n = some o := by
  rw [getN_setN, if_neg]
  · exact h
  · intro hs
    rw [getN_congr l hs, hk] at h
    cases h

/-! ### Entries of periods -/

theorem add_idx (fs : List Fidx) (s p : Int) (h : ∀ f ∈ fs, f.moved = false) :
    (∀ f ∈ (Fmap.addIdx fs s p).1, f.moved = false) ∧ ∃ f ∈ (Fmap.addIdx fs s p).1, f.writed = true := by
  have key : ∀ (l : List Fidx) (i c : Int), (∀ f ∈ l, f.moved = false) →
      (∀ f ∈ (Fmap.addIdxLoop p l i c).1, f.moved = false) ∧ ∃ f ∈ (Fmap.addIdxLoop p l i c).1, f.writed = true := by
    intro l
    induction l with
    | nil => intro i c _; simp [Fmap.addIdxLoop]
    | cons g l ih =>
      intro i c hl
      have hg := hl g (by simp)
      have hl' : ∀ f ∈ l, f.moved = false := fun f hf => hl f (by simp [hf])
      have hsh : ∀ f ∈ Fmap.shiftIdx l, f.moved = false := by
        intro f hf
        obtain ⟨f', h1, rfl⟩ := List.mem_map.1 hf
        exact hl' f' h1
      unfold Fmap.addIdxLoop
      split
      · refine ⟨fun f hf => ?_, _, List.mem_cons_self, rfl⟩
        rcases List.mem_cons.1 hf with rfl | hf
        · rfl
        · exact hsh f hf
      · split
        · refine ⟨fun f hf => ?_, _, List.mem_cons_self, rfl⟩
          rcases List.mem_cons.1 hf with rfl | hf
          · rfl
          · rcases List.mem_cons.1 hf with rfl | hf
            · exact hg
            · exact hsh f hf
        · obtain ⟨i1, f, i2, i3⟩ := ih (i + 1) (c + g.count) hl'
          refine ⟨fun f hf => ?_, f, List.mem_cons_of_mem _ i2, i3⟩
          rcases List.mem_cons.1 hf with rfl | hf
          · exact hg
          · exact i1 f hf
  unfold Fmap.addIdx
  obtain ⟨k1, f, k2, k3⟩ := key (fs.drop (Fmap.scanFrom s fs.length)) (Fmap.scanFrom s fs.length) 0 fun f hf => h f (List.mem_of_mem_drop hf)
  refine ⟨fun f hf => ?_, f, List.mem_append_right _ k2, k3⟩
  rcases List.mem_append.1 hf with hf | hf
  · exact h f (List.mem_of_mem_take hf)
  · exact k1 f hf

theorem mindex_idx {T : Fmap.Table Bytes} {g : Fmap.Goto} : ∀ (batch : List Bytes) (u : Fmap.Unit Bytes) (tail : Nat) (s : Int), (∀ f ∈ u.fidxs, f.moved = false) →
    (∀ f ∈ (Fmap.mindexLoop T g u tail s batch).fidxs, f.moved = false) ∧
      ((∃ f ∈ u.fidxs, f.writed = true) ∨ batch ≠ [] → ∃ f ∈ (Fmap.mindexLoop T g u tail s batch).fidxs, f.writed = true)
  | [], u, _, _, h => ⟨h, fun hh => hh.elim id fun hn => absurd rfl hn⟩
  | r :: batch, u, tail, s, h => by
    obtain ⟨h1, h2⟩ := add_idx u.fidxs s (T.sign (T.ts r)) h
    unfold Fmap.mindexLoop
    obtain ⟨i1, i2⟩ := mindex_idx batch { u with recs := (Fmap.mindexOne T.ts u.recs tail (u.hint g (T.ts r)) r).1, fidxs := (Fmap.addIdx u.fidxs s (T.sign (T.ts r))).1 }
      (Fmap.mindexOne T.ts u.recs tail (u.hint g (T.ts r)) r).2 (Fmap.addIdx u.fidxs s (T.sign (T.ts r))).2 h1
    exact ⟨i1, fun _ => i2 (.inl h2)⟩

theorem update_idx {T : Fmap.Table Bytes} {g : Fmap.Goto} {u : Fmap.Unit Bytes} {batch : List Bytes} (h : ∀ f ∈ u.fidxs, f.moved = false) :
    (∀ f ∈ (Fmap.sdbUpdate T false g u batch).fidxs, f.moved = false) ∧ (u.recs = [] → (Fmap.sdbUpdate T false g u batch).fidxs = u.fidxs) ∧
      (u.recs ≠ [] → batch ≠ [] → ∃ f ∈ (Fmap.sdbUpdate T false g u batch).fidxs, f.writed = true) := by
  unfold Fmap.sdbUpdate
  by_cases h0 : u.recs = []
  · rw [if_pos (by rw [h0]; decide)]
    exact ⟨h, fun _ => rfl, fun hn => absurd h0 hn⟩
  · have : 0 < u.recs.length := List.length_pos_iff.2 h0
    rw [if_neg (by omega), if_neg (by decide)]
    obtain ⟨i1, i2⟩ := mindex_idx (T := T) (g := g) batch u (Fmap.keyOf T.ts u.recs ((u.recs.length : Int) - 1)) (-1) h
    exact ⟨i1, fun hn => absurd hn h0, fun _ hb => i2 (.inr hb)⟩

/-! ### Tables -/

theorem layout_findIdx {cols : List Col} {j : Nat} {c : Col} (hc : cols[j]? = some c) (hs : TimeStyle c.style)
    (hj : ∀ i d, cols[i]? = some d → TimeStyle d.style → j ≤ i) : (layout 0 cols).findIdx? (fun f => Dyn.isTime f.style) = some j := by
  have hst : ∀ s : Dyn.St, Dyn.isTime s = true ↔ TimeStyle s := by
    intro s; cases s <;> simp [Dyn.isTime, TimeStyle]
  obtain ⟨f, g1, _, _, g4⟩ := layout_get 0 j c hc
  obtain ⟨hl, he⟩ := List.getElem?_eq_some_iff.1 g1
  rw [List.findIdx?_eq_some_iff_getElem]
  refine ⟨hl, ?_, fun i hi => ?_⟩
  · rw [he, hst, g4]; exact hs
  · have hic : i < cols.length := by rw [← layout_length cols 0]; omega
    obtain ⟨f', q1, _, _, q4⟩ := layout_get 0 i cols[i] (List.getElem?_eq_getElem hic)
    have := (List.getElem?_eq_some_iff.1 q1).2
    rw [this, hst, q4]
    intro ht
    have := hj i _ (List.getElem?_eq_getElem hic) ht
    omega

theorem sheet_time {cols : List Col} {j : Nat} {db : Db} (hco : ColsOk cols) (ht : Tab cols j db) (hj : TimeAt cols j) {c : Col} (hc : cols[j]? = some c)
    (hs : TimeStyle c.style) : ∃ f, Sdb.timeField db = some f ∧ (layout 0 cols)[j]? = some f ∧ f.style = c.style ∧ f.len = c.len := by
  obtain ⟨f, g1, g2, _, g4⟩ := layout_get 0 j c hc
  refine ⟨f, ?_, g1, g4, g2⟩
  obtain ⟨h1, _, h3, _, _⟩ := Sdb.made_shape ht.defs
  rw [fieldsFrom_cols hco.each 0 (by have := hco.size; omega)] at h1 h3
  obtain ⟨c', hc', hcase⟩ := hj
  rw [hc] at hc'
  cases hc'
  have hfirst : ∀ i d, cols[i]? = some d → TimeStyle d.style → j ≤ i := by
    rcases hcase with ⟨_, h⟩ | ⟨_, h, _⟩
    · exact h
    · exact absurd hs (h c (List.mem_of_getElem? hc))
  rw [layout_findIdx hc hs hfirst] at h3
  unfold Sdb.timeField
  rw [h3]
  show Dyn.unit db j = some f
  unfold Dyn.unit
  rw [h1, List.getElem?_map, g1]
  rfl

/-- A table of a client is one that can be saved. -/
theorem sheet_good {e : Env} {v : Time.Env} {s : Sheet} (hs : s.Ok v) {db : Db} (ht : Tab s.cols s.j db) :
    ∃ c f, s.cols[s.j]? = some c ∧ f.style = c.style ∧ GoodTbl e v s.name ⟨db, []⟩ f := by
  obtain ⟨c, hc, -⟩ := id hs.time
  obtain ⟨h1, h2⟩ := hs.style c hc
  obtain ⟨f, f1, f2, f3, f4⟩ := sheet_time hs.cols ht hs.time hc h1
  have hlen := hs.len c (List.mem_of_getElem? hc) h1
  refine ⟨c, f, hc, f3, hs.name, hs.plain, ⟨s.cols.map Col.toDef, ht.defs, by rw [ht.size]; exact hs.size, ?_⟩, ht.index, f1, by rw [f3]; exact h1, by rw [f3]; exact h2, ?_⟩
  · intro d hd hdt
    obtain ⟨c', hc', rfl⟩ := List.mem_map.1 hd
    have h3 : TimeStyle c'.style := by
      have := hdt.2
      simp only [Col.toDef, Option.some.injEq] at this
      exact this
    have := hs.len c' hc' h3
    simp only [Col.toDef]
    omega
  · intro r hr
    rw [← f4] at hlen
    show (Dyn.getMindex db 0 r).getD 0 = _
    rw [ht.time f f2 r hr hlen]
    unfold Sdb.timeOf Dyn.slot
    simp

/-! ### What is in memory -/

/-- A key of a client. -/
def GoodKey (key : Bytes) : Prop := (46 : UInt8) ∈ key ∧ KeyName (keyName key) ∧ CStr (keyName key) ∧ (42 : UInt8) ∉ keyName key

theorem goodKey_fold {a b : Bytes} (h : fold a = fold b) (hk : GoodKey a) : GoodKey b := by
  obtain ⟨h1, h2, h3, h4⟩ := hk
  obtain ⟨p1, p2⟩ := same_parts (Sdb.fold_same.2 h)
  refine ⟨mem_of_fold h Sdb.lower_dot h1, keyName_fold p1 h2, ?_, fun hm => h4 (mem_of_fold p1.symm (fun x => (lower_facts x).2.1) hm)⟩
  intro c hc h0
  subst h0
  exact h3 0 (mem_of_fold p1.symm (fun x => lower_eq_zero) hc) rfl

/-- What is known of a series. -/
structure SerAt (e : Env) (v : Time.Env) (pre : List Do) (c : Cxt) (x : Bytes × Ser) (s : Sheet) (col : Col) (db : Db) (rows : List (List Val)) : Prop where
  sheet : s.Ok v
  atj : s.cols[s.j]? = some col
  tab : Tab s.cols s.j db
  tbl : x.2.tbl = ⟨db, []⟩
  found : getN c.tabs (tabOfKey x.1) = some ⟨db, []⟩
  key : GoodKey x.1
  recs : Recs e s.cols s.j db x.2.unit.recs rows
  sorted : Sorted (timeOf s.j) rows
  perm : rows.Perm (sent pre x.1).flatten
  ne : rows ≠ []
  usual : ∀ r ∈ rows, UsualTime col.style (timeOf s.j r)
  len : rows.length * (s.cols.map Col.len).sum < 2 ^ 31
  together : Together v col.style (rows.map (timeOf s.j))
  moved : ∀ f ∈ x.2.unit.fidxs, f.moved = false
  once : (sent pre x.1).length = 1 → x.2.unit.fidxs = []
  more : 2 ≤ (sent pre x.1).length → ∃ f ∈ x.2.unit.fidxs, f.writed = true
  least : 1 ≤ (sent pre x.1).length

/-- What is known of the database. -/
structure AtProg (e : Env) (v : Time.Env) (pre : List Do) (c : Cxt) : Prop where
  tabs : ∀ x ∈ c.tabs, ∃ s ∈ sheetsOf pre, s.Ok v ∧ x.1 = s.name ∧ ∃ db, Tab s.cols s.j db ∧ x.2 = ⟨db, []⟩
  sheets : ∀ s ∈ sheetsOf pre, s.Ok v ∧ ∃ db, Tab s.cols s.j db ∧ getN c.tabs s.name = some ⟨db, []⟩
  names : (sheetsOf pre).Pairwise fun a b => fold a.name ≠ fold b.name
  tapart : c.tabs.Pairwise fun a b => sameN a.1 b.1 = false
  sers : ∀ x ∈ c.sers, ∃ s ∈ sheetsOf pre, fold (tabOfKey x.1) = fold s.name ∧ ∃ col db rows, SerAt e v pre c x s col db rows
  sapart : c.sers.Pairwise fun a b => sameN a.1 b.1 = false
  all : ∀ key, sent pre key ≠ [] → getN c.sers key ≠ none

theorem sent_fold (pre : List Do) {a b : Bytes} (h : fold a = fold b) : sent pre a = sent pre b := by
  unfold sent
  have h' : a.map lower = b.map lower := h
  rw [h']

theorem sent_append (pre : List Do) (x : Do) (key : Bytes) : sent (pre ++ [x]) key = sent pre key ++ sent [x] key := by
  unfold sent; rw [List.filterMap_append]

theorem sheets_append (pre : List Do) (x : Do) : sheetsOf (pre ++ [x]) = sheetsOf pre ++ sheetsOf [x] := by
  unfold sheetsOf; rw [List.filterMap_append]

theorem define_at {e : Env} {v : Time.Env} {pre : List Do} {c : Cxt} (h : AtProg e v pre c) {s : Sheet} (hs : s.Ok v)
    (hn : ∀ o ∈ sheetsOf pre, o.name.map lower ≠ s.name.map lower) {c' : Cxt} {r : Reply} (hr : step e c (Do.define s).cmd = some (c', r)) :
    AtProg e v (pre ++ [.define s]) c' := by
  have hnone : getN c.tabs s.name = none := by
    rw [getN_none]
    intro x hx
    obtain ⟨o, h1, _, h2, _⟩ := h.tabs x hx
    cases hh : sameN s.name x.1 with
    | false => rfl
    | true => exact absurd ((Sdb.fold_same.1 hh).symm.trans rfl) (by rw [h2]; exact hn o h1)
  obtain ⟨db, ht, hc⟩ := create_table hs.cols hs.time c hnone
  have hr' : create c s.name (some (tableText s.cols)) = some (c', r) := hr
  rw [hc] at hr'
  cases hr'
  obtain ⟨p1, p2⟩ := setN_parts h.tapart s.name (⟨db, []⟩ : Tbl)
  have hsent : ∀ key, sent (pre ++ [.define s]) key = sent pre key := by
    intro key; rw [sent_append]; simp [sent]
  have hsh : sheetsOf (pre ++ [.define s]) = sheetsOf pre ++ [s] := sheets_append _ _
  refine ⟨?_, ?_, ?_, p1, ?_, h.sapart, ?_⟩
  · intro x hx
    rw [hsh]
    have hx : x ∈ c.tabs ++ [(s.name, (⟨db, []⟩ : Tbl))] := by rw [← Sdb.setN_new _ hnone]; exact hx
    rcases List.mem_append.1 hx with hx | hx
    · obtain ⟨o, h1, h2⟩ := h.tabs x hx
      exact ⟨o, by simp [h1], h2⟩
    · simp only [List.mem_singleton] at hx
      subst hx
      exact ⟨s, by simp, hs, rfl, db, ht, rfl⟩
  · intro o ho
    rw [hsh] at ho
    rcases List.mem_append.1 ho with ho | ho
    · obtain ⟨h1, db', h2, h3⟩ := h.sheets o ho
      exact ⟨h1, db', h2, setN_some h3 _ _ hnone⟩
    · simp only [List.mem_singleton] at ho
      subst ho
      exact ⟨hs, db, ht, by show getN (setN c.tabs o.name _).1 o.name = _; rw [getN_setN, if_pos (sameN_refl _)]⟩
  · rw [hsh, List.pairwise_append]
    exact ⟨h.names, by simp, fun a ha b hb => by simp only [List.mem_singleton] at hb; rw [hb]; exact hn a ha⟩
  · intro x hx
    obtain ⟨o, h1, h2, col, db', rows, h3⟩ := h.sers x hx
    refine ⟨o, by rw [hsh]; simp [h1], h2, col, db', rows, ?_⟩
    exact { h3 with
      found := setN_some h3.found _ _ hnone
      perm := by rw [hsent]; exact h3.perm
      once := by rw [hsent]; exact h3.once
      more := by rw [hsent]; exact h3.more
      least := by rw [hsent]; exact h3.least }
  · intro key hk
    rw [hsent] at hk
    exact h.all key hk

theorem ask_at {e : Env} {v : Time.Env} {pre : List Do} {c : Cxt} (h : AtProg e v pre c) {key : Bytes} {info : Option Bytes} {c' : Cxt} {r : Reply}
    (hr : step e c (Do.ask key info).cmd = some (c', r)) : AtProg e v (pre ++ [.ask key info]) c' := by
  have hr' : (get e c key info).map (fun r => (c, r)) = some (c', r) := hr
  obtain ⟨r', _, h2⟩ := Option.map_eq_some_iff.1 hr'
  cases h2
  have hsent : ∀ k, sent (pre ++ [.ask key info]) k = sent pre k := by
    intro k; rw [sent_append]; simp [sent]
  have hsh : sheetsOf (pre ++ [.ask key info]) = sheetsOf pre := by rw [sheets_append]; simp [sheetsOf]
  refine ⟨by rw [hsh]; exact h.tabs, by rw [hsh]; exact h.sheets, by rw [hsh]; exact h.names, h.tapart, ?_, h.sapart, fun k hk => h.all k (by rw [← hsent]; exact hk)⟩
  intro x hx
  obtain ⟨o, h1, h2, col, db', rows, h3⟩ := h.sers x hx
  refine ⟨o, by rw [hsh]; exact h1, h2, col, db', rows, ?_⟩
  exact { h3 with
    perm := by rw [hsent]; exact h3.perm
    once := by rw [hsent]; exact h3.once
    more := by rw [hsent]; exact h3.more
    least := by rw [hsent]; exact h3.least }

/-- What sending rows does. -/
theorem set_eq {e : Env} {cols : List Col} {j : Nat} {db : Db} (ht : Tab cols j db) {key : Bytes} {c : Cxt} {u : Fmap.Unit Bytes}
    (hu : getN c.sers key = some ⟨⟨db, []⟩, u⟩ ∨ (getN c.sers key = none ∧ u = ⟨[], [], 0, 0, 0⟩ ∧ ∃ t, tableName key = some t ∧ getN c.tabs t = some ⟨db, []⟩))
    (hdot : key.contains 46 = true) {rs : List (List Val)} (hne : rs ≠ []) (hrs : ∀ r ∈ rs, RowOk e.fl cols j r) (h31 : rs.length * db.size < 2 ^ 31) :
    ∃ out, out.length = rs.length * db.size ∧ Recs e cols j db (split db.size out) rs ∧
      set e c key (some (Rec.rowsText rs)) =
        some ({ c with sers := (setN c.sers key ⟨⟨db, []⟩, Fmap.sdbUpdate (table e ⟨db, []⟩) false e.goto u (split db.size out)⟩).1 }, .int 1) := by
  obtain ⟨out, h1, h2, h3⟩ := rows_set (fl := e.fl) ht hne hrs h31
  have hrecs := recs_of h3
  refine ⟨out, h2, hrecs, ?_⟩
  have hpos := size_pos ht
  have hlen : out.length ≠ 0 := by
    rw [h2]
    have : 0 < rs.length := List.length_pos_iff.2 hne
    exact Nat.ne_of_gt (Nat.mul_pos this hpos)
  have hput : ∀ w : Fmap.Unit Bytes, put e ⟨⟨db, []⟩, w⟩ out = some (some ⟨⟨db, []⟩, Fmap.sdbUpdate (table e ⟨db, []⟩) false e.goto w (split db.size out)⟩) := by
    intro w
    unfold put
    simp only
    rw [if_neg (by omega), if_neg (by rw [h2, Nat.mul_mod_left]; simp), if_neg, if_pos (by exact ht.index)]
    · rfl
    · rintro (hx | hx)
      · obtain ⟨r, hr, hn⟩ := List.any_eq_true.1 hx
        exact ht.total r (hrecs.1 r hr).length (Option.isNone_iff_eq_none.1 hn)
      · simp at hx
  obtain ⟨t, htx⟩ : ∃ t, Rec.rowsText rs = 91 :: t := ⟨_, rfl⟩
  rw [htx] at h1 ⊢
  unfold set setChars
  rw [if_pos hdot]
  dsimp only
  rw [if_neg (by decide)]
  rcases hu with hu | ⟨hu, rfl, t', ht1, ht2⟩
  · unfold dbOfKey
    simp only [hu, Option.bind_eq_bind, Option.bind_some, h1]
    unfold update
    simp only [hu]
    rw [if_neg (by simp [hlen]), hput]
    rfl
  · have hnew : newSer c key = some ({ c with sers := (setN c.sers key ⟨⟨db, []⟩, ⟨[], [], 0, 0, 0⟩⟩).1 }, ⟨⟨db, []⟩, ⟨[], [], 0, 0, 0⟩⟩) := by
      unfold newSer
      rw [ht1, Option.bind_some, ht2]
      rfl
    have hg : getN (setN c.sers key (⟨⟨db, []⟩, ⟨[], [], 0, 0, 0⟩⟩ : Ser)).1 key = some ⟨⟨db, []⟩, ⟨[], [], 0, 0, 0⟩⟩ := by
      rw [getN_setN, if_pos (sameN_refl _)]
    unfold dbOfKey
    simp only [hu, hnew, Option.bind_eq_bind, Option.bind_some, Option.map_some, h1]
    unfold update
    simp only [hg]
    rw [if_neg (by simp [hlen]), hput]
    simp only [Option.map_some, setN_setN]

theorem sheet_unique {pre : List Do} (h : (sheetsOf pre).Pairwise fun a b => fold a.name ≠ fold b.name) {a b : Sheet} (ha : a ∈ sheetsOf pre) (hb : b ∈ sheetsOf pre)
    (hn : fold a.name = fold b.name) : a = b := by
  revert h ha hb
  generalize sheetsOf pre = l
  intro h ha hb
  induction l with
  | nil => cases ha
  | cons o l ih =>
    rw [List.pairwise_cons] at h
    rcases List.mem_cons.1 ha with rfl | ha'
    · rcases List.mem_cons.1 hb with rfl | hb'
      · rfl
      · exact absurd hn (h.1 b hb')
    · rcases List.mem_cons.1 hb with rfl | hb'
      · exact absurd hn.symm (h.1 a ha')
      · exact ih h.2 ha' hb'

theorem send_at {e : Env} {v : Time.Env} {pre : List Do} {c : Cxt} (h : AtProg e v pre c) {key : Bytes} {rs : List (List Val)}
    (hf : (Do.send key rs).Fits e.fl v pre) {c' : Cxt} {r : Reply} (hr : step e c (Do.send key rs).cmd = some (c', r)) :
    AtProg e v (pre ++ [.send key rs]) c' := by
  obtain ⟨s, hs, ⟨p, t, rfl, hkn, hcs, hst, htn⟩, hne, hlen, hfirst, hrest⟩ := hf
  obtain ⟨hok, db, ht, hg⟩ := h.sheets s hs
  have hp : (46 : UInt8) ∉ p := hkn.dot
  obtain ⟨np1, np2⟩ : keyName (p ++ 46 :: t) = p ∧ tabOfKey (p ++ 46 :: t) = t := node_parts (k := p) (s := t) hp
  have hdot : (46 : UInt8) ∈ p ++ 46 :: t := by simp
  have htne : t ≠ [] := by
    intro h0
    have := hok.name.ne
    rw [h0] at htn
    exact this (List.map_eq_nil_iff.1 htn.symm)
  have hko : KeyOf s.name (p ++ 46 :: t) := ⟨p, t, rfl, fun c hc h0 => hp (h0 ▸ hc), htne, htn⟩
  obtain ⟨hcon, t', ht1, ht2⟩ := name_of_key hko
  have hgk : GoodKey (p ++ 46 :: t) := ⟨hdot, by rw [np1]; exact hkn, by rw [np1]; exact hcs, by rw [np1]; exact hst⟩
  have hgt : getN c.tabs t = some ⟨db, []⟩ := by rw [getN_congr c.tabs (sameN_iff.2 htn)]; exact hg
  generalize hkey : p ++ 46 :: t = key at *
  obtain ⟨col, hcol, -⟩ := id hok.time
  obtain ⟨hrows, htog⟩ := hrest col hcol
  -- the series before
  obtain ⟨u, rows, hu, hrecs, hsorted, hperm, husual, hmoved, hz, hnz, hfst⟩ : ∃ (u : Fmap.Unit Bytes) (rows : List (List Val)),
      (getN c.sers key = some ⟨⟨db, []⟩, u⟩ ∨ (getN c.sers key = none ∧ u = ⟨[], [], 0, 0, 0⟩ ∧ ∃ t, tableName key = some t ∧ getN c.tabs t = some ⟨db, []⟩)) ∧
      Recs e s.cols s.j db u.recs rows ∧ Sorted (timeOf s.j) rows ∧ rows.Perm (sent pre key).flatten ∧
      (∀ r ∈ rows, UsualTime col.style (timeOf s.j r)) ∧ (∀ f ∈ u.fidxs, f.moved = false) ∧ (sent pre key = [] → u.recs = [] ∧ u.fidxs = []) ∧
      (sent pre key ≠ [] → u.recs ≠ []) ∧ (rows = [] → sent pre key = []) := by
    cases hgs : getN c.sers key with
    | none =>
      have hs0 : sent pre key = [] := Decidable.byContradiction fun hn => h.all key hn hgs
      exact ⟨⟨[], [], 0, 0, 0⟩, [], .inr ⟨rfl, rfl, t', ht1, by rw [getN_congr c.tabs ht2]; exact hg⟩, ⟨nofun, rfl⟩, List.Pairwise.nil, by rw [hs0]; exact List.Perm.refl _,
        nofun, nofun, fun _ => ⟨rfl, rfl⟩, fun hn => absurd hs0 hn, fun _ => hs0⟩
    | some w =>
      obtain ⟨i, y, g1, g2, g3⟩ := getN_some hgs
      have hy := List.mem_of_getElem? g1
      obtain ⟨o, ho, hon, col', db', rows, sa⟩ := h.sers y hy
      have hfy : fold key = fold y.1 := Sdb.fold_same.1 g3
      have hos : o = s := by
        refine sheet_unique h.names ho hs ?_
        rw [← hon, ← (same_parts g3).2, np2]
        exact htn
      subst hos
      have hcc : col' = col := by have := sa.atj; rw [hcol] at this; exact (Option.some.inj this).symm
      subst hcc
      have hdb : db' = db := by
        have := sa.found
        rw [getN_congr c.tabs (Sdb.fold_same.2 (same_parts g3).2.symm), np2, hgt] at this
        exact (congrArg Tbl.db (Option.some.inj this)).symm
      subst hdb
      have hse := sent_fold pre hfy
      have hne' : y.2.unit.recs ≠ [] := by
        intro h0
        have h2 := sa.recs.2
        rw [h0] at h2
        exact sa.ne h2
      have hl := sa.least
      refine ⟨y.2.unit, rows, .inl ?_, sa.recs, sa.sorted, by rw [hse]; exact sa.perm, sa.usual, sa.moved, fun h0 => ?_, fun _ => hne', fun h0 => absurd h0 sa.ne⟩
      · rw [← g2]
        have := sa.tbl
        cases hy2 : y.2
        rw [hy2] at this
        simp only at this
        rw [this]
      · rw [← hse, h0] at hl
        simp at hl
  have hsize : db.size = (s.cols.map Col.len).sum := ht.size
  have hrl : rows.length = (sent pre key).flatten.length := hperm.length_eq
  obtain ⟨out, ho1, ho2, hset⟩ := set_eq (e := e) ht hu hcon hne (fun r hr => (hrows r hr).1) (by
    rw [hsize]
    refine Nat.lt_of_le_of_lt (Nat.mul_le_mul_right _ ?_) hlen
    rw [List.length_append]; omega)
  have hr' : set e c key (some (Rec.rowsText rs)) = some (c', r) := hr
  rw [hset] at hr'
  cases hr'
  obtain ⟨rows', q1, q2, q3, -⟩ := update_rows ht hrecs hsorted ho2 (fun h0 => hfirst (hfst h0))
  obtain ⟨i1, i2, i3⟩ := update_idx (T := table e ⟨db, []⟩) (g := e.goto) (u := u) (batch := split db.size out) hmoved
  have hbatch : split db.size out ≠ [] := by
    intro h0
    have := ho2.2
    rw [h0] at this
    exact hne this
  obtain ⟨p1, p2⟩ := setN_parts h.sapart key (⟨⟨db, []⟩, Fmap.sdbUpdate (table e ⟨db, []⟩) false e.goto u (split db.size out)⟩ : Ser)
  have hsh : sheetsOf (pre ++ [.send key rs]) = sheetsOf pre := by rw [sheets_append]; simp [sheetsOf]
  have hsame : ∀ k, fold key = fold k → sent (pre ++ [.send key rs]) k = sent pre k ++ [rs] := by
    intro k hk
    rw [sent_append]
    have hk : key.map lower = k.map lower := hk
    simp [sent, hk]
  have hother : ∀ k, fold key ≠ fold k → sent (pre ++ [.send key rs]) k = sent pre k := by
    intro k hk
    rw [sent_append]
    have hk : ¬ key.map lower = k.map lower := hk
    simp [sent, hk]
  have hpm : rows'.Perm ((sent pre key).flatten ++ rs) := q3.trans (hperm.append_right rs)
  refine ⟨by rw [hsh]; exact h.tabs, by rw [hsh]; exact h.sheets, by rw [hsh]; exact h.names, h.tapart, ?_, p1, ?_⟩
  · intro x hx
    rw [hsh]
    rcases p2 x hx with ⟨hx1, hx2⟩ | ⟨hx1, hx2⟩
    · obtain ⟨o, h1, h2, col', db', rows0, h3⟩ := h.sers x hx1
      have hse := hother x.1 (Ne.symm hx2)
      refine ⟨o, h1, h2, col', db', rows0, ?_⟩
      exact { h3 with
        perm := by rw [hse]; exact h3.perm
        once := by rw [hse]; exact h3.once
        more := by rw [hse]; exact h3.more
        least := by rw [hse]; exact h3.least }
    · have hse := hsame x.1 hx2.symm
      rw [sent_fold pre hx2] at hse
      have hxt : fold (tabOfKey x.1) = fold s.name := by
        rw [(same_parts (Sdb.fold_same.2 hx2)).2, np2]; exact htn
      refine ⟨s, hs, hxt, col, db, rows', ?_⟩
      exact {
        sheet := hok
        atj := hcol
        tab := ht
        tbl := by rw [hx1]
        found := by
          show getN c.tabs _ = _
          rw [getN_congr c.tabs (Sdb.fold_same.2 hxt)]; exact hg
        key := goodKey_fold hx2.symm hgk
        recs := by rw [hx1]; exact q1
        sorted := q2
        perm := by rw [hse, List.flatten_append]; simpa using hpm
        ne := by
          intro h0
          rw [h0] at hpm
          have := hpm.symm.eq_nil
          exact hne (List.append_eq_nil_iff.1 this).2
        usual := by
          intro r hr
          rcases List.mem_append.1 (q3.mem_iff.1 hr) with hr | hr
          · exact husual r hr
          · exact (hrows r hr).2
        len := by rw [hpm.length_eq]; exact hlen
        together := by
          have hm : ∀ z, z ∈ rows'.map (timeOf s.j) → z ∈ ((sent pre key).flatten ++ rs).map (timeOf s.j) := fun z hz => (hpm.map _).mem_iff.1 hz
          rcases htog with hg' | hg'
          · exact .inl fun z hz => hg' z (hm z hz)
          · exact .inr fun z hz z' hz' => hg' z (hm z hz) z' (hm z' hz')
        moved := by rw [hx1]; exact i1
        once := by
          rw [hse, hx1]
          intro h1
          have h0 : sent pre key = [] := by
            rw [List.length_append] at h1
            exact List.length_eq_zero_iff.1 (by simpa using h1)
          obtain ⟨z1, z2⟩ := hz h0
          show (Fmap.sdbUpdate _ _ _ _ _).fidxs = []
          rw [i2 z1, z2]
        more := by
          rw [hse, hx1]
          intro h1
          refine i3 (hnz fun h0 => ?_) hbatch
          rw [h0] at h1
          simp at h1
        least := by rw [hse, List.length_append]; simp }
  · intro k hk hn
    rw [show ({ c with sers := (setN c.sers key (⟨⟨db, []⟩, Fmap.sdbUpdate (table e ⟨db, []⟩) false e.goto u (split db.size out)⟩ : Ser)).1 } : Cxt).sers =
      (setN c.sers key (⟨⟨db, []⟩, Fmap.sdbUpdate (table e ⟨db, []⟩) false e.goto u (split db.size out)⟩ : Ser)).1 from rfl, getN_setN] at hn
    split at hn
    · cases hn
    · rename_i hsk
      refine h.all k (fun h0 => hk ?_) hn
      rw [hother k (fun hh => hsk (Sdb.fold_same.2 hh.symm)), h0]

theorem run_at {e : Env} {v : Time.Env} : ∀ (post pre : List Do) {c : Cxt}, AtProg e v pre c → Fits e.fl v (pre ++ post) → ∀ {c' : Cxt} {rs : List Reply},
    run e c (post.map Do.cmd) = some (c', rs) → AtProg e v (pre ++ post) c'
  | [], pre, c, h, _, c', rs, hr => by
    have hr : some (c, []) = some (c', rs) := hr
    cases hr
    rw [List.append_nil]; exact h
  | x :: post, pre, c, h, hf, c', rs, hr => by
    have hx := hf pre x post rfl
    rw [List.map_cons] at hr
    simp only [run, Option.bind_eq_bind] at hr
    obtain ⟨⟨c1, r1⟩, h1, hr⟩ := Option.bind_eq_some_iff.1 hr
    have h2 : AtProg e v (pre ++ [x]) c1 := by
      cases x with
      | define s => exact define_at h hx.1 hx.2 h1
      | send key rs => exact send_at h hx h1
      | ask key info => exact ask_at h h1
    obtain ⟨⟨c2, r2⟩, h3, hr⟩ := Option.bind_eq_some_iff.1 hr
    cases hr
    have := run_at post (pre ++ [x]) h2 (by rw [List.append_assoc]; exact hf) h3
    rw [List.append_assoc] at this
    exact this

theorem empty_at (e : Env) (v : Time.Env) : AtProg e v [] .empty :=
  ⟨nofun, nofun, List.Pairwise.nil, List.Pairwise.nil, nofun, List.Pairwise.nil, fun _ h => absurd rfl h⟩

theorem kept_of {e : Env} {v : Time.Env} {pre : List Do} {c : Cxt} (h : AtProg e v pre c) : Kept e v c := by
  refine ⟨fun x hx => ?_, h.tapart, fun x hx => ?_, h.sapart⟩
  · obtain ⟨s, _, hok, h1, db, ht, h2⟩ := h.tabs x hx
    obtain ⟨_, f, _, _, g⟩ := sheet_good (e := e) hok ht
    rw [h1, h2]
    exact ⟨f, g⟩
  · obtain ⟨s, _, _, col, db, rows, sa⟩ := h.sers x hx
    refine ⟨by rw [sa.tbl]; exact sa.found, fun f hf => ?_⟩
    obtain ⟨c1, f1, hc1, hst, g⟩ := sheet_good (e := e) sa.sheet sa.tab
    have hcc : c1 = col := by have := sa.atj; rw [hc1] at this; exact Option.some.inj this
    subst hcc
    have hff : f = f1 := by
      rw [sa.tbl, g.time] at hf; exact (Option.some.inj hf).symm
    subst hff
    have hts := recs_ts sa.tab sa.recs
    have hrow : ∀ r ∈ x.2.unit.recs, rowOf e.fl s.cols db r ∈ rows := by
      intro r hr; rw [sa.recs.2]; exact List.mem_map_of_mem hr
    have hrl : x.2.unit.recs.length = rows.length := by rw [sa.recs.2, List.length_map]
    have hwh : ∀ r ∈ x.2.unit.recs, r.length = db.size := fun r hr => (sa.recs.1 r hr).length
    have hstyle : timeStyle db = some f.style := timeStyle_field g.time
    refine ⟨sa.key.1, sa.key.2.1, sa.key.2.2.2, sa.key.2.2.1, ?_, ?_, ?_, ?_, ?_, ?_, sa.moved⟩
    · intro h0
      have := sa.recs.2
      rw [h0] at this
      exact sa.ne this
    · rw [sa.tbl]; exact hwh
    · rw [sa.tbl]
      refine (map_sorted _ _ _ hts).2 ?_
      rw [← sa.recs.2]; exact sa.sorted
    · rw [Sdb.flatten_length db.size _ hwh, hrl, sa.tab.size]; exact sa.len
    · intro r hr
      rw [sa.tbl, hts r hr, hst]
      exact sa.usual _ (hrow r hr)
    · rcases sa.together with ht | ht
      · refine .inl fun r hr => ?_
        rw [sa.tbl, hts r hr]
        exact ht _ (List.mem_map_of_mem (hrow r hr))
      · have hu : ∀ r ∈ x.2.unit.recs, UsualTime f.style ((table e ⟨db, []⟩).ts r) := fun r hr => by
          rw [hts r hr, hst]; exact sa.usual _ (hrow r hr)
        have hd : ∀ r ∈ x.2.unit.recs, ∀ r' ∈ x.2.unit.recs, dayAt v f.style ((table e ⟨db, []⟩).ts r) = dayAt v f.style ((table e ⟨db, []⟩).ts r') := fun r hr r' hr' => by
          rw [hts r hr, hts r' hr', hst]
          exact ht _ (List.mem_map_of_mem (hrow r hr)) _ (List.mem_map_of_mem (hrow r' hr'))
        rw [sa.tbl]
        have hday : ∀ a b : Nat, ((a : Int) + v.tz) / 86400 = ((b : Int) + v.tz) / 86400 → dayNum v a = dayNum v b := by
          intro a b hab
          unfold dayNum
          congr 1
          omega
        have hstl : TimeStyle f.style := g.style
        cases hs : f.style with
        | msec =>
          rw [hs] at hu hd hstyle
          refine .inr fun r hr r' hr' => ?_
          have := hd r hr r' hr'
          simp only [dayAt, ↓reduceIte] at this
          unfold periodNum
          rw [hstyle]
          simp only
          rw [hday _ _ this]
        | tsec =>
          rw [hs] at hu hd hstyle
          refine .inr fun r hr r' hr' => ?_
          have := hd r hr r' hr'
          simp only [dayAt, ↓reduceIte, reduceCtorEq] at this
          unfold periodNum
          rw [hstyle]
          simp only
          rw [hday _ _ this]
        | minu =>
          rw [hs] at hu hd hstyle
          exact .inl fun r hr => by have := hu r hr; simp only [UsualTime] at this; omega
        | date =>
          rw [hs] at hu hd hstyle
          exact .inl fun r hr => by have := hu r hr; simp only [UsualTime] at this; omega
        | _ => rw [hs] at hstl; simp [TimeStyle] at hstl

/-- A query of a range is one. -/
theorem ranged_of {q : Bytes × Option Bytes} (h : RangeQuery q) : Ranged q.2 := by
  obtain ⟨a, b, more, h1, h2, h3, h4, h5, h6⟩ := h
  have hm : ∀ m ∈ more.map (fun m : Bytes × Bytes => (m.1, Val.text m.2)), m.1 ≠ [] ∧ Rec.PlainText m.1 ∧ Rec.Readable m.2 := by
    intro m hm
    obtain ⟨m', hm', rfl⟩ := List.mem_map.1 hm
    obtain ⟨h7, h8⟩ := h6 m' hm'
    refine ⟨?_, ?_, h8⟩
    · rcases h7 with h7 | h7 <;> dsimp only <;> rw [h7] <;> decide +kernel
    · rcases h7 with h7 | h7 <;> dsimp only <;> rw [h7] <;> unfold Rec.PlainText <;> decide +kernel
  have hw : NoWords (more.map (fun m : Bytes × Bytes => (m.1, Val.text m.2))) := by
    intro m hm
    obtain ⟨m', hm', rfl⟩ := List.mem_map.1 hm
    rcases (h6 m' hm').1 with h7 | h7 <;> dsimp only <;> rw [h7] <;> decide +kernel
  obtain ⟨s, hs⟩ := askOf_ask (.range a b false) (more := more.map (fun m : Bytes × Bytes => (m.1, Val.text m.2))) (fun m hm' c hc h0 => absurd ((hm m hm').2.1 c hc).1 (by rw [h0]; decide)) hw (ts := fun _ => 0) (l := [])
    ⟨by omega, by omega, by omega, by omega, by simp⟩
  exact ⟨_, _, a, b, h5, load_ask _ hm, by rw [hs]; rfl, h1, h3⟩

/-- The answer after the restart. -/
theorem want_of {e : Env} {v : Time.Env} {pre : List Do} {c : Cxt} (h : AtProg e v pre c) (q : Bytes × Option Bytes) (hq : RangeQuery q) :
    want e c q = if (sent pre q.1).length = 1 then some .null else get e c q.1 q.2 := by
  unfold want
  cases hg : getN c.sers q.1 with
  | none =>
    obtain ⟨t, n, x, y, h1, h2, -⟩ := ranged_of hq
    have hge : get e c q.1 q.2 = some .null := by
      unfold get
      rw [h1]
      simp only [h2, hg]
      rfl
    simp only [hge, ite_self]
  | some s =>
    obtain ⟨i, y, g1, g2, g3⟩ := getN_some hg
    obtain ⟨o, _, _, col, db, rows, sa⟩ := h.sers y (List.mem_of_getElem? g1)
    have hse := sent_fold pre (Sdb.fold_same.1 g3)
    have hl := sa.least
    rw [← g2, hse]
    dsimp only
    by_cases h1 : (sent pre y.1).length = 1
    · rw [if_pos h1, if_neg]
      unfold times
      rw [sa.once h1]
      decide
    · rw [if_neg h1, if_pos]
      obtain ⟨f, f1, f2⟩ := sa.more (by omega)
      unfold times
      exact List.length_pos_iff.2 (List.ne_nil_of_mem (List.mem_filter.2 ⟨f1, f2⟩))

/-- The answers without a restart. -/
theorem run_gets (e : Env) : ∀ (qs : List (Bytes × Option Bytes)) (c : Cxt), run e c (qs.map fun q => .get q.1 q.2) = (Sdb.every (qs.map fun q => get e c q.1 q.2)).map fun rs => (c, rs)
  | [], c => rfl
  | q :: qs, c => by
    rw [List.map_cons, List.map_cons]
    simp only [run, step]
    cases get e c q.1 q.2 with
    | none => rfl
    | some r =>
      simp only [Option.map_some, Option.bind_eq_bind, Option.bind_some]
      rw [run_gets e qs c]
      show _ = Option.map _ ((Sdb.every (qs.map fun q => get e c q.1 q.2)).map _)
      cases Sdb.every (qs.map fun q => get e c q.1 q.2) <;> rfl

theorem run_length (e : Env) : ∀ (ms : List Cmd) (c : Cxt) {c' : Cxt} {rs : List Reply}, run e c ms = some (c', rs) → rs.length = ms.length
  | [], c, c', rs, h => by
    have h : some (c, []) = some (c', rs) := h
    cases h; rfl
  | m :: ms, c, c', rs, h => by
    simp only [run, Option.bind_eq_bind] at h
    obtain ⟨⟨c1, r1⟩, _, h⟩ := Option.bind_eq_some_iff.1 h
    obtain ⟨⟨c2, r2⟩, h3, h⟩ := Option.bind_eq_some_iff.1 h
    cases h
    simp [run_length e ms c1 h3]

end Sis.Io
