import Verif.Sno.StateLemmas
/- Lemmas on an open file of records in order: what a call does. -/
namespace Sis.Sno
open Sis Sis.Disk Sis.Sdb
open Sis.Dyn (sameN getN setN Db sameN_iff sameN_refl getN_none getN_some setN_spec getN_congr)

/-! ### Names -/

theorem foldb (a b : Bytes) : (fold a == fold b) = sameN b a := by
  rw [Bool.eq_iff_iff, beq_iff_eq, fold_same]
  exact eq_comm

theorem find_same {α : Type} {l : List (Bytes × α)} (hd : l.Pairwise fun a b => sameN a.1 b.1 = false) {e : Bytes × α} (h : e ∈ l) {s : Bytes} (hs : sameN s e.1 = true) :
    l.find? (fun x => sameN s x.1) = some e := by
  rw [← tab_self' hd h]
  congr 1
  funext x
  rw [sameN_comm, sameN_comm e.1]
  exact sameN_trans_r hs

theorem addName_eq (kd : List Bytes) (k : Bytes) : addName kd k = if (getKey kd k).isSome then kd else kd ++ [k] := by
  unfold addName
  have : kd.any (fun n => fold n == fold k) = (getKey kd k).isSome := by
    rw [Bool.eq_iff_iff, getKey_isSome, List.any_eq_true]
    simp only [foldb]
  rw [this]

theorem spell_eq {kd : List Bytes} (hd : kd.Pairwise fun a b => sameN a b = false) {k n : Bytes} {i : Nat} (h : getKey kd k = some (n, i)) : spell kd k = n := by
  obtain ⟨h1, h2, _⟩ := getKey_some h
  unfold spell
  have hf : kd.find? (fun n => fold n == fold k) = some n := by
    have := find_same (l := kd.map fun k => (k, ())) (by rw [List.pairwise_map]; exact hd) (List.mem_map.2 ⟨n, h1, rfl⟩) (s := k) h2
    rw [List.find?_map] at this
    obtain ⟨x, hx, hx2⟩ := Option.map_eq_some_iff.1 this
    simp only [Prod.mk.injEq, and_true] at hx2
    rw [← hx2, ← hx]
    congr 1
    funext x
    exact foldb x k
  rw [hf]; rfl

theorem getTab_view {sd : TDict} (hd : sd.Pairwise fun a b => sameN a.1 b.1 = false) (s : Bytes) :
    (getTab sd s = none → (tabView sd).find? (fun t => fold t.1 == fold s) = none) ∧
    ∀ s' dbs i, getTab sd s = some ((s', dbs), i) → sd[i]? = some (s', dbs) ∧ sameN s s' = true ∧
      (tabView sd).find? (fun t => fold t.1 == fold s) = some (s', (dbs.getLast?.map (·.size)).getD 0) := by
  have hv : (tabView sd).find? (fun t => fold t.1 == fold s) = (sd.find? (fun e => sameN s e.1)).map fun e => (e.1, (e.2.getLast?.map (·.size)).getD 0) := by
    unfold tabView
    rw [List.find?_map]
    congr 2
    funext x
    exact foldb _ _
  constructor
  · intro h
    rw [hv, Option.map_eq_none_iff, List.find?_eq_none]
    intro e he
    unfold getTab at h
    rw [List.find?_eq_none] at h
    obtain ⟨i, hi⟩ := List.mem_iff_getElem?.1 he
    exact h (e, i) (List.mem_zipIdx_iff_getElem?.2 hi)
  · intro s' dbs i h
    unfold getTab at h
    have h1 := List.mem_zipIdx_iff_getElem?.1 (List.mem_of_find?_eq_some h)
    have h2 := List.find?_some h
    simp only at h1 h2
    exact ⟨h1, h2, by rw [hv, find_same hd (List.mem_of_getElem? h1) h2]; rfl⟩

theorem view_diff {sd : TDict} (hd : sd.Pairwise fun a b => sameN a.1 b.1 = false) {s : Bytes} {n m : Nat} (h1 : (s, n) ∈ tabView sd) (h2 : (s, m) ∈ tabView sd) : n = m := by
  have hd' : (tabView sd).Pairwise fun a b => sameN a.1 b.1 = false := by unfold tabView; rw [List.pairwise_map]; exact hd
  have a1 := tab_self' hd' h1
  have a2 := tab_self' hd' h2
  simp only at a1 a2
  rw [a1] at a2
  simpa using a2

/-! ### Keys -/

theorem setKeys_fold {lib : Lib} {P : Db → Prop} (ks : List Bytes) : ∀ (c : Ctl), Inv lib P c → (∀ k ∈ ks, GoodKey k) →
    Inv lib P (ks.foldl setKey c) ∧ (ks.foldl setKey c).kd = ks.foldl addName c.kd ∧ More c (ks.foldl setKey c) ∧ (ks.foldl setKey c).sd = c.sd ∧
      (ks.foldl setKey c).news = c.news ∧ (ks.foldl setKey c).body = c.body ∧
      (ks.foldl setKey c).kd.length + c.newk.length = c.kd.length + (ks.foldl setKey c).newk.length := by
  induction ks with
  | nil => intro c h _; exact ⟨h, rfl, More.refl c, rfl, rfl, rfl, rfl⟩
  | cons k ks ih =>
    intro c h hk
    obtain ⟨g1, _, g3, g4, _⟩ := setKey_inv h (hk k (by simp))
    have hkd : (setKey c k).kd = addName c.kd k := by
      rw [addName_eq]; unfold setKey; split <;> rfl
    have hmore : More c (setKey c k) := by
      unfold setKey
      split
      · exact More.refl c
      · exact ⟨List.prefix_append _ _, List.prefix_refl _, ⟨[], by simp, by simp⟩, fun _ h => h, fun _ _ => rfl, Nat.le_refl _, Nat.le_refl _⟩
    have hnum : (setKey c k).kd.length + c.newk.length = c.kd.length + (setKey c k).newk.length := by
      unfold setKey
      split
      · rfl
      · simp; omega
    obtain ⟨i1, i2, i3, i4, i5, i6, i7⟩ := ih (setKey c k) g1 fun k hk' => hk k (by simp [hk'])
    rw [List.foldl_cons]
    exact ⟨i1, by rw [i2, hkd]; rfl, hmore.trans i3, i4.trans g4, i5.trans g3, i6.trans (setKey_body c k), by omega⟩

theorem pagesFrom_nil {k s : Bytes} (pgs : List (List Rec)) (h : ∀ r ∈ pgs.flatten, ¬ (r.key = k ∧ r.tab = s)) : ∀ i, pagesFrom i pgs k s = [] := by
  induction pgs with
  | nil => intro i; rfl
  | cons p ps ih =>
    intro i
    have hm : mine p k s = [] := by
      cases hm : mine p k s with
      | nil => rfl
      | cons x l =>
        have hx : x ∈ mine p k s := by rw [hm]; simp
        obtain ⟨h1, h2, h3⟩ := mine_mem hx
        exact absurd ⟨h2, h3⟩ (h x.2 (by simp [tagFrom_mem h1]))
    rw [pagesFrom, if_pos hm, List.nil_append]
    exact ih (fun r hr => h r (by simp [hr])) _

theorem CatOk.mono {kd kd' : List Bytes} {tv tv' : List (Bytes × Nat)} {page : Nat} {Q : Bytes → Bytes → List (Nat × Rec)} {e : Bytes × Catch} (h : CatOk kd tv page Q e)
    (hk : kd <+: kd') (ht : tv <+: tv') : CatOk kd' tv' page Q e :=
  ⟨h.name, hk.subset h.key, by obtain ⟨n, hn⟩ := h.tab; exact ⟨n, ht.subset hn⟩, h.none, fun hq => ⟨(h.some hq).1.mono hk ht, (h.some hq).2⟩, h.range⟩

/-- Names are added. -/
theorem St.more {lib : Lib} {P : Db → Prop} {a a' : Abs} {f : File} {c' : Ctl} {pgs : List (List Rec)} {pend : List Rec} (h : St lib P a f pgs pend) (m : More f.c c')
    (hi : Inv lib P c') (hk : c'.newk = []) (hn : c'.news = []) (hz : ∀ e ∈ tabView c'.sd, 0 < e.2) (h1 : c'.kd.length ≤ c'.body.length)
    (h2 : c'.sd.length ≤ c'.body.length) (h3 : c'.kd = a'.keys) (h4 : tabView c'.sd = a'.tabs) (h5 : a'.recs = a.recs) (h6 : a'.busy = a.busy) :
    St lib P a' { f with c := c' } pgs pend := by
  obtain ⟨x, hx⟩ := m.body
  refine ⟨h.core.more m hi hk hn hz h1 h2 ?_, h3, h4, h5.trans h.recs, ?_, h.ends, ?_, h.pages, h.msec, h.series, ?_, ?_⟩
  · intro k s _ _
    by_cases hb : k ∈ f.c.kd ∧ ∃ n, (s, n) ∈ tabView f.c.sd
    · exact .inl hb
    · refine .inr (pagesFrom_nil pgs ?_ 0)
      rintro r hr ⟨rfl, rfl⟩
      have := h.good r (by rw [h.recs]; simp only [List.mem_append]; exact .inl hr)
      exact hb ⟨this.1, _, this.2⟩
  · intro r hr
    rw [h5] at hr
    exact ⟨m.kd.subset (h.good r hr).1, m.tv.subset (h.good r hr).2⟩
  · show f.ends.length ≤ c'.body.length
    have := h.ecnt
    rw [hx, List.length_append]; omega
  · intro hc; rw [h6]; exact h.idle hc
  · intro cats hc
    obtain ⟨g1, g2⟩ := h.live cats hc
    exact ⟨h6.trans g1, g2.diff, fun e he => (g2.each e he).mono m.kd m.tv, g2.all⟩

theorem keys_ok {lib : Lib} {P : Db → Prop} {a : Abs} {f : File} {pgs : List (List Rec)} {pend : List Rec} (h : St lib P a f pgs pend) {ks : List Bytes}
    (hks : ∀ k ∈ ks, GoodKey k) (hsz : mainHead + (writeKeys lib (ks.foldl setKey f.c)).body.length < 2 ^ 64) :
    St lib P { a with keys := ks.foldl addName a.keys } { f with c := writeKeys lib (ks.foldl setKey f.c) } pgs pend := by
  obtain ⟨i1, i2, i3, i4, i5, i6, i7⟩ := setKeys_fold ks f.c h.core.inv hks
  obtain ⟨j1, _, j3, j4, j5, j6⟩ := writeKeys_inv i1 hsz
  obtain ⟨m1, m2⟩ := writeKeys_more i1 hsz
  have hsd : (writeKeys lib (ks.foldl setKey f.c)).sd = f.c.sd := j6.trans i4
  refine h.more (i3.trans m1) j1 j3 (j4.trans (i5.trans h.core.news)) (by rw [hsd]; exact h.core.size) ?_ ?_ (by rw [j5, i2, h.keys]) (by rw [hsd]; exact h.tabs) rfl rfl
  · rw [j5]
    have := h.core.knum
    rw [h.core.newk] at i7
    simp only [List.length_nil] at i7
    rw [i6] at m2
    omega
  · rw [hsd]
    have := h.core.snum
    obtain ⟨x, hx⟩ := (i3.trans m1).body
    rw [hx, List.length_append]; omega

/-! ### Tables -/

theorem setN_none {α : Type} {l : List (Bytes × α)} {k : Bytes} {v : α} (h : getN l k = none) : (setN l k v).1 = l ++ [(k, v)] := by
  induction l with
  | nil => rfl
  | cons e l ih =>
    unfold getN at h
    rw [List.find?_cons] at h
    cases hs : sameN k e.1 with
    | true => rw [hs] at h; simp at h
    | false =>
      rw [hs] at h
      unfold setN
      simp only [hs]
      have := ih h
      simpa using this

theorem setN_view {sd : TDict} {k : Bytes} {v : List Db} (h : ∀ o ∈ sd, sameN k o.1 = true → (o.2.getLast?.map (·.size)).getD 0 = (v.getLast?.map (·.size)).getD 0)
    (hg : (getN sd k).isSome = true) : tabView (setN sd k v).1 = tabView sd := by
  induction sd with
  | nil => cases hg
  | cons e l ih =>
    unfold setN
    cases hs : sameN k e.1 with
    | true =>
      have := h e (by simp) hs
      simp [tabView, this]
    | false =>
      have hg' : (getN l k).isSome = true := by
        unfold getN at hg ⊢; rw [List.find?_cons, hs] at hg; exact hg
      have := ih (fun o ho => h o (by simp [ho])) hg'
      simp [tabView] at this ⊢
      exact this

theorem addTab_view {sd : TDict} (hd : sd.Pairwise fun a b => sameN a.1 b.1 = false) (t : Tab)
    (hsz : ∀ o ∈ tabView sd, fold o.1 = fold t.name → o.2 = t.db.size) :
    tabView (addTab sd t).1 = addTable (tabView sd) t ∧ (addTab sd t).1.length ≤ sd.length + (if (addTab sd t).2 then 1 else 0) := by
  unfold addTab addTable
  have hany : (tabView sd).any (fun n => fold n.1 == fold t.name) = (getN sd t.name).isSome := by
    unfold tabView getN
    rw [Bool.eq_iff_iff, List.any_map, List.any_eq_true, Option.isSome_map, List.find?_isSome]
    constructor
    · rintro ⟨x, hx, h⟩; exact ⟨x, hx, by rw [← foldb]; exact h⟩
    · rintro ⟨x, hx, h⟩; exact ⟨x, hx, by show (fold x.1 == fold t.name) = true; rw [foldb]; exact h⟩
  rw [hany]
  cases hg : getN sd t.name with
  | none =>
    simp only [Option.isSome_none, Bool.false_eq_true, if_false, if_true]
    rw [setN_none hg]
    exact ⟨by simp [tabView], by simp⟩
  | some dbs =>
    simp only [Option.isSome_some, if_true]
    split
    · obtain ⟨i, e, e1, e2, e3⟩ := getN_some hg
      have he := List.mem_of_getElem? e1
      have hv : tabView (setN sd t.name (dbs ++ [t.db])).1 = tabView sd := by
        apply setN_view
        intro o ho hs
        have : o = e := by
          have a1 := find_same hd ho hs
          have a2 := find_same hd he (by simpa using e3)
          rw [a1] at a2
          exact Option.some.inj a2
        subst this
        have := hsz (o.1, (o.2.getLast?.map (·.size)).getD 0) (List.mem_map.2 ⟨o, he, rfl⟩) (fold_same.1 hs).symm
        simp only at this
        rw [this]
        simp
        · rw [hg]; rfl
      refine ⟨hv, ?_⟩
      have := congrArg List.length hv
      simp only [tabView, List.length_map] at this
      rw [this]; simp
    · exact ⟨rfl, by simp⟩

theorem addTable_mem {tv : List (Bytes × Nat)} {t : Tab} {o : Bytes × Nat} (h : o ∈ addTable tv t) : o ∈ tv ∨ o = (t.name, t.db.size) := by
  unfold addTable at h
  split at h
  · exact .inl h
  · simpa using h

theorem setTabs_fold {lib : Lib} {P : Db → Prop} (ts : List Tab) : ∀ (c : Ctl), Inv lib P c → (∀ t ∈ ts, GoodTab t.name ∧ P t.db) →
    (∀ t ∈ ts, ∀ n ∈ c.news, sameN n.name t.name = false) → (ts.Pairwise fun x y => fold x.name ≠ fold y.name) →
    (∀ t ∈ ts, ∀ o ∈ tabView c.sd, fold o.1 = fold t.name → o.2 = t.db.size) →
    Inv lib P (ts.foldl setTab c) ∧ tabView (ts.foldl setTab c).sd = ts.foldl addTable (tabView c.sd) ∧ More c (ts.foldl setTab c) ∧ (ts.foldl setTab c).kd = c.kd ∧
      (ts.foldl setTab c).newk = c.newk ∧ (ts.foldl setTab c).body = c.body ∧
      (ts.foldl setTab c).sd.length + c.news.length ≤ c.sd.length + (ts.foldl setTab c).news.length := by
  induction ts with
  | nil => intro c h _ _ _ _; exact ⟨h, rfl, More.refl c, rfl, rfl, rfl, Nat.le_refl _⟩
  | cons t ts ih =>
    intro c h ht hn hp hs
    obtain ⟨g1, _, g3, g4, g5, g6⟩ := setTab_inv h (ht t (by simp)).1 (ht t (by simp)).2 (hn t (by simp))
    obtain ⟨v1, v2⟩ := addTab_view h.sdiff t (hs t (by simp))
    have hp' := List.pairwise_cons.1 hp
    have hpre : tabView c.sd <+: tabView (setTab c t).sd := by
      rw [g5, v1]; unfold addTable
      split
      · exact List.prefix_refl _
      · exact List.prefix_append _ _
    have hmore : More c (setTab c t) := by
      refine ⟨by rw [g4]; exact List.prefix_refl _, hpre, ?_, ?_, ?_, ?_, ?_⟩ <;> unfold setTab <;> split
      all_goals first | exact ⟨[], by simp, by simp⟩ | exact fun _ h => h | exact fun _ _ => rfl | exact Nat.le_refl _
    have hnum : (setTab c t).sd.length + c.news.length ≤ c.sd.length + (setTab c t).news.length := by
      rw [g5]
      have hf : c.news.filter (fun n => !sameN n.name t.name) = c.news := by
        rw [List.filter_eq_self]; intro n hn'; simp [hn t (by simp) n hn']
      unfold setTab
      split
      · rename_i hnew
        rw [if_pos hnew] at v2
        simp only [hf, List.length_append, List.length_singleton]
        omega
      · rename_i hnew
        rw [if_neg hnew] at v2
        omega
    obtain ⟨i1, i2, i3, i4, i5, i6, i7⟩ := ih (setTab c t) g1 (fun t ht' => ht t (by simp [ht'])) (by
      intro x hx n hn'
      rcases g6 n hn' with hn' | rfl
      · exact hn x (by simp [hx]) n hn'
      · exact same_false (hp'.1 x hx)) hp'.2 (by
      intro x hx o ho
      rw [g5, v1] at ho
      rcases addTable_mem ho with ho | rfl
      · exact hs x (by simp [hx]) o ho
      · intro hf; exact absurd hf (hp'.1 x hx))
    rw [List.foldl_cons]
    exact ⟨i1, by rw [i2, g5, v1]; rfl, hmore.trans i3, i4.trans g4, i5.trans g3, i6.trans (setTab_body c t), by omega⟩

theorem addTables_pos (ts : List Tab) : ∀ tv : List (Bytes × Nat), (∀ e ∈ tv, 0 < e.2) → (∀ t ∈ ts, 0 < t.db.size) → ∀ e ∈ ts.foldl addTable tv, 0 < e.2 := by
  induction ts with
  | nil => intro tv h _; exact h
  | cons t ts ih =>
    intro tv h ht
    refine ih _ ?_ fun t ht' => ht t (by simp [ht'])
    intro e he
    rcases addTable_mem he with he | rfl
    · exact h e he
    · exact ht t (by simp)

theorem tabs_ok {lib : Lib} {P : Db → Prop} (T : TextOk lib P) {a : Abs} {f : File} {pgs : List (List Rec)} {pend : List Rec} (h : St lib P a f pgs pend) {ts : List Tab}
    (ht : ∀ t ∈ ts, GoodTab t.name ∧ P t.db) (hpos : ∀ t ∈ ts, 0 < t.db.size) (hp : ts.Pairwise fun x y => fold x.name ≠ fold y.name)
    (hs : ∀ t ∈ ts, ∀ o ∈ a.tabs, fold o.1 = fold t.name → o.2 = t.db.size)
    (hsz : mainHead + (writeTabs lib (ts.foldl setTab f.c)).body.length < 2 ^ 64) :
    St lib P { a with tabs := ts.foldl addTable a.tabs } { f with c := writeTabs lib (ts.foldl setTab f.c) } pgs pend := by
  rw [← h.tabs] at hs
  obtain ⟨i1, i2, i3, i4, i5, i6, i7⟩ := setTabs_fold ts f.c h.core.inv ht (by rw [h.core.news]; intro t _ n hn; cases hn) hp hs
  obtain ⟨j1, _, j3, j4, j5, j6⟩ := writeTabs_inv T i1 hsz
  obtain ⟨m1, m2⟩ := writeTabs_more T i1 hsz
  have hkd : (writeTabs lib (ts.foldl setTab f.c)).kd = f.c.kd := j5.trans i4
  have htv : tabView (writeTabs lib (ts.foldl setTab f.c)).sd = ts.foldl addTable (tabView f.c.sd) := by rw [j6, i2]
  refine h.more (i3.trans m1) j1 (j4.trans (i5.trans h.core.newk)) j3 ?_ ?_ ?_ (by rw [hkd]; exact h.keys) (by rw [htv, h.tabs]) rfl rfl
  · rw [htv]; exact addTables_pos ts _ h.core.size hpos
  · rw [hkd]
    have := h.core.knum
    obtain ⟨x, hx⟩ := (i3.trans m1).body
    rw [hx, List.length_append]; omega
  · rw [j6]
    have := h.core.snum
    rw [h.core.news] at i7
    simp only [List.length_nil] at i7
    rw [i6] at m2
    omega

end Sis.Sno
