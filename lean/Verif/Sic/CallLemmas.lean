import Verif.Sic.StateLemmas
/- Lemmas on an open file of compressed records: what a call does. -/
namespace Sis.Sic
open Sis Sis.Disk Sis.Sdb
open Sis.Sno (Rec More EndOk inv_body addName spell Act foldb find_same addName_eq spell_eq getTab_view setN_none tabView setKeys_fold writeKeys_more writeTabs_more)
open Sis.Dyn (sameN getN setN Db getN_some)

/-! ### Tables -/

theorem view_sdOf (ts : List (Bytes × Db)) : tabView (sdOf ts) = ts.map fun t => (t.1, t.2.size) := by
  unfold tabView sdOf
  rw [List.map_map]
  rfl

theorem sameDb_refl (db : Db) : sameDb db db = true := by simp [sameDb]

theorem getN_sdOf {ts : List (Bytes × Db)} {s : Bytes} {dbs : List Db} (h : getN (sdOf ts) s = some dbs) : ∃ e ∈ ts, dbs = [e.2] ∧ sameN s e.1 = true := by
  obtain ⟨i, e, e1, e2, e3⟩ := getN_some h
  obtain ⟨x, hx, rfl⟩ := List.mem_map.1 (List.mem_of_getElem? e1)
  exact ⟨x, hx, e2.symm, by simpa using e3⟩

theorem any_sdOf (ts : List (Bytes × Db)) (s : Bytes) : ts.any (fun n => fold n.1 == fold s) = (getN (sdOf ts) s).isSome := by
  unfold getN sdOf
  rw [Bool.eq_iff_iff, List.any_eq_true, Option.isSome_map, List.find?_isSome]
  constructor
  · rintro ⟨x, hx, h⟩; exact ⟨_, List.mem_map.2 ⟨x, hx, rfl⟩, by rw [← foldb]; exact h⟩
  · rintro ⟨y, hy, h⟩
    obtain ⟨x, hx, rfl⟩ := List.mem_map.1 hy
    exact ⟨x, hx, by show (fold x.1 == fold s) = true; rw [foldb]; exact h⟩

theorem addTab_sdOf {ts : List (Bytes × Db)} {t : Tab} (h : ∀ o ∈ ts, fold o.1 = fold t.name → o.2 = t.db) : (addTab (sdOf ts) t).1 = sdOf (addTable ts t) := by
  unfold addTab addTable
  rw [any_sdOf]
  cases hg : getN (sdOf ts) t.name with
  | none =>
    simp only [Option.isSome_none, Bool.false_eq_true, if_false]
    rw [setN_none hg]
    simp [sdOf]
  | some dbs =>
    obtain ⟨e, he, hd, hs⟩ := getN_sdOf hg
    have := h e he (fold_same.1 hs).symm
    have hnew : isNew dbs t.db = false := by
      rw [hd, this]
      simp [isNew, sameDb_refl]
    simp [hnew]

theorem addTable_mem {ts : List (Bytes × Db)} {t : Tab} {o : Bytes × Db} (h : o ∈ addTable ts t) : o ∈ ts ∨ o = (t.name, t.db) := by
  unfold addTable at h
  split at h
  · exact .inl h
  · simpa using h

theorem addTables_mem (l : List Tab) : ∀ {ts : List (Bytes × Db)} {x : Bytes × Db}, x ∈ l.foldl addTable ts → x ∈ ts ∨ ∃ t ∈ l, x = (t.name, t.db) := by
  induction l with
  | nil => intro ks x h; exact .inl h
  | cons t l ih =>
    intro ks x h
    rcases ih h with h | ⟨t', h, h'⟩
    · rcases addTable_mem h with h | h
      · exact .inl h
      · exact .inr ⟨t, by simp, h⟩
    · exact .inr ⟨t', by simp [h], h'⟩

theorem addTables_pre (l : List Tab) : ∀ ts : List (Bytes × Db), ts <+: l.foldl addTable ts := by
  induction l with
  | nil => intro ts; exact List.prefix_refl _
  | cons t l ih =>
    intro ts
    refine List.IsPrefix.trans ?_ (ih (addTable ts t))
    unfold addTable
    split
    · exact List.prefix_refl _
    · exact List.prefix_append _ _

theorem setTab_sd (c : Ctl) (t : Tab) : (setTab c t).sd = (addTab c.sd t).1 := by
  unfold setTab
  split
  · rfl
  · rename_i h
    unfold addTab at h ⊢
    split
    · rename_i hg; rw [hg] at h; exact absurd rfl h
    · rename_i dbs hg
      rw [hg] at h
      simp only at h ⊢
      split
      · rename_i hn; rw [if_pos hn] at h; exact absurd rfl h
      · rfl

theorem setTabs_sd (l : List Tab) : ∀ (c : Ctl) (ts : List (Bytes × Db)), c.sd = sdOf ts → (∀ t ∈ l, ∀ o ∈ ts, fold o.1 = fold t.name → o.2 = t.db) →
    (l.Pairwise fun x y => fold x.name ≠ fold y.name) → (l.foldl setTab c).sd = sdOf (l.foldl addTable ts) := by
  induction l with
  | nil => intro c ts h _ _; exact h
  | cons t l ih =>
    intro c ts h hs hp
    obtain ⟨hp1, hp2⟩ := List.pairwise_cons.1 hp
    refine ih (setTab c t) (addTable ts t) ?_ ?_ hp2
    · rw [setTab_sd, h, addTab_sdOf (hs t (by simp))]
    · intro x hx o ho
      rcases addTable_mem ho with ho | rfl
      · exact hs x (by simp [hx]) o ho
      · intro hf; exact absurd hf (hp1 x hx)

theorem Base.tabsOk {lib : Lib} {P : Db → Prop} (T : TextOk lib P) {keys : List Bytes} {tabs : List (Bytes × Db)} {f : File} {bs : List (UInt8 × Bytes)} (h : Base lib P keys tabs f bs)
    {l : List Tab} (ht : ∀ t ∈ l, GoodTab t.name ∧ P t.db ∧ Zip.Plain t.db ∧ Short t.db) (hp : l.Pairwise fun x y => fold x.name ≠ fold y.name)
    (hs : ∀ t ∈ l, ∀ o ∈ tabs, fold o.1 = fold t.name → o.2 = t.db) (hsz : mainHead + (writeTabs lib (l.foldl setTab f.c)).body.length < 2 ^ 64) :
    ∃ nb, Base lib P keys (l.foldl addTable tabs) { f with c := writeTabs lib (l.foldl setTab f.c) } (bs ++ nb) ∧ sics nb = [] := by
  obtain ⟨i1, i2, i3, i4, i5, i6, i7⟩ := Sno.setTabs_fold l f.c h.inv (fun t hx => ⟨(ht t hx).1, (ht t hx).2.1⟩) (by rw [h.news]; intro t _ n hn; cases hn) hp (by
    intro t hx o ho hf
    rw [h.tabs, view_sdOf] at ho
    obtain ⟨y, hy, rfl⟩ := List.mem_map.1 ho
    rw [hs t hx y hy hf])
  obtain ⟨j1, _, j3, j4, j5, j6⟩ := writeTabs_inv T i1 hsz
  obtain ⟨m1, m2⟩ := writeTabs_more T i1 hsz
  refine h.more (i3.trans m1) j1 (j4.trans (i5.trans h.newk)) j3 ?_ ?_ (by rw [j5, i4]; exact h.keys) (by rw [j6]; exact setTabs_sd l f.c tabs h.tabs hs hp) ?_
  · rw [j5, i4]
    have := h.knum
    obtain ⟨x, hx⟩ := (i3.trans m1).body
    rw [hx, List.length_append]; omega
  · rw [j6]
    have := h.snum
    rw [h.news] at i7
    simp only [List.length_nil] at i7
    rw [i6] at m2
    omega
  · intro t hx
    rcases addTables_mem l hx with hx | ⟨y, hy, rfl⟩
    · exact h.plain t hx
    · exact (ht y hy).2.2

/-! ### Keys -/

theorem Base.keysOk {lib : Lib} {P : Db → Prop} {keys : List Bytes} {tabs : List (Bytes × Db)} {f : File} {bs : List (UInt8 × Bytes)} (h : Base lib P keys tabs f bs)
    {l : List Bytes} (hl : ∀ k ∈ l, GoodKey k) (hsz : mainHead + (writeKeys lib (l.foldl setKey f.c)).body.length < 2 ^ 64) :
    ∃ nb, Base lib P (l.foldl addName keys) tabs { f with c := writeKeys lib (l.foldl setKey f.c) } (bs ++ nb) ∧ sics nb = [] := by
  obtain ⟨i1, i2, i3, i4, i5, i6, i7⟩ := setKeys_fold l f.c h.inv hl
  obtain ⟨j1, _, j3, j4, j5, j6⟩ := writeKeys_inv i1 hsz
  obtain ⟨m1, m2⟩ := writeKeys_more i1 hsz
  refine h.more (i3.trans m1) j1 j3 (j4.trans (i5.trans h.news)) ?_ ?_ (by rw [j5, i2, h.keys]) (by rw [j6, i4]; exact h.tabs) h.plain
  · rw [j5]
    have := h.knum
    rw [h.newk] at i7
    simp only [List.length_nil] at i7
    rw [i6] at m2
    omega
  · rw [j6, i4]
    have := h.snum
    obtain ⟨x, hx⟩ := (i3.trans m1).body
    rw [hx, List.length_append]; omega

theorem addNames_pre (l : List Bytes) : ∀ ks : List Bytes, ks <+: l.foldl addName ks := by
  induction l with
  | nil => intro ts; exact List.prefix_refl _
  | cons t l ih =>
    intro ts
    refine List.IsPrefix.trans ?_ (ih (addName ts t))
    unfold addName
    split
    · exact List.prefix_refl _
    · exact List.prefix_append _ _

/-! ### Names -/

theorem prefix_get {α : Type} {as bs : List α} (h : as <+: bs) {i : Nat} {x : α} (hx : as[i]? = some x) : bs[i]? = some x := by
  obtain ⟨c, rfl⟩ := h
  rw [List.getElem?_append_left (List.getElem?_eq_some_iff.1 hx).1, hx]

theorem named_mono {keys keys' : List Bytes} {tabs tabs' : List (Bytes × Db)} (hk : keys <+: keys') (ht : tabs <+: tabs') {rs : List Zip.Rec}
    (hr : ∀ x ∈ rs, x.1 < keys.length ∧ x.2.1 < tabs.length) : rs.map (named keys' tabs') = rs.map (named keys tabs) := by
  apply List.map_congr_left
  intro x hx
  obtain ⟨h1, h2⟩ := hr x hx
  unfold named
  rw [prefix_get hk (List.getElem?_eq_getElem h1), prefix_get ht (List.getElem?_eq_getElem h2), List.getElem?_eq_getElem h1, List.getElem?_eq_getElem h2]

theorem St.none {lib : Lib} {P : Db → Prop} {a : Abs} {f : File} {bs : List (UInt8 × Bytes)} {rs : List Zip.Rec} (h : St lib P a f bs rs) (hn : a.now = none) : f.z = none := by
  cases hz : f.z with
  | none => rfl
  | some z =>
    obtain ⟨_, now, h1, _⟩ := h.live z hz
    rw [hn] at h1
    cases h1

theorem St.busy {lib : Lib} {P : Db → Prop} {a : Abs} {f : File} {bs : List (UInt8 × Bytes)} {rs : List Zip.Rec} (h : St lib P a f bs rs) {now : List Rec} (hn : a.now = some now) :
    ∃ z, f.z = some z ∧ a.tabs ≠ [] ∧ Live (dbsOf a.tabs) a.keys.length (sics bs) rs z (lastN a.keys a.tabs now) := by
  cases hz : f.z with
  | none =>
    have := (h.idle hz).1
    rw [hn] at this
    cases this
  | some z =>
    obtain ⟨h0, now', h1, h2⟩ := h.live z hz
    rw [hn] at h1
    cases h1
    exact ⟨z, rfl, h0, h2⟩

theorem idle_keys {lib : Lib} {P : Db → Prop} {a : Abs} {f : File} {bs : List (UInt8 × Bytes)} {rs : List Zip.Rec} (h : St lib P a f bs rs) (hn : a.now = none)
    {l : List Bytes} (hl : ∀ k ∈ l, GoodKey k) (hsz : mainHead + (writeKeys lib (l.foldl setKey f.c)).body.length < 2 ^ 64) :
    ∃ bs', St lib P { a with keys := l.foldl addName a.keys } { f with c := writeKeys lib (l.foldl setKey f.c) } bs' rs := by
  obtain ⟨nb, hb, hs⟩ := h.base.keysOk hl hsz
  have hp := addNames_pre l a.keys
  have hz := h.none hn
  have hsb : sics (bs ++ nb) = sics bs := by rw [sics_append, hs, List.append_nil]
  refine ⟨bs ++ nb, hb, ?_, ?_, ?_, ?_, ?_⟩
  · show a.recs = rs.map (named (l.foldl addName a.keys) a.tabs)
    rw [named_mono hp (List.prefix_refl _) h.rng]; exact h.recs
  · intro x hx
    have hx := h.rng x hx
    have := hp.length_le
    exact ⟨by show x.1 < (l.foldl addName a.keys).length; omega, hx.2⟩
  · intro he; rw [hsb]; exact h.empty he
  · intro _
    refine ⟨hn, ?_⟩
    rw [hsb]
    have := (h.idle hz).2.mono [] hp.length_le
    rw [List.append_nil] at this
    exact this
  · intro z hz'
    have : f.z = some z := hz'
    rw [hz] at this
    cases this

theorem idle_tabs {lib : Lib} {P : Db → Prop} (T : TextOk lib P) {a : Abs} {f : File} {bs : List (UInt8 × Bytes)} {rs : List Zip.Rec} (h : St lib P a f bs rs) (hn : a.now = none)
    {l : List Tab} (ht : ∀ t ∈ l, GoodTab t.name ∧ P t.db ∧ Zip.Plain t.db ∧ Short t.db) (hp : l.Pairwise fun x y => fold x.name ≠ fold y.name)
    (hs : ∀ t ∈ l, ∀ o ∈ a.tabs, fold o.1 = fold t.name → o.2 = t.db) (hsz : mainHead + (writeTabs lib (l.foldl setTab f.c)).body.length < 2 ^ 64) :
    ∃ bs', St lib P { a with tabs := l.foldl addTable a.tabs } { f with c := writeTabs lib (l.foldl setTab f.c) } bs' rs := by
  obtain ⟨nb, hb, hsn⟩ := h.base.tabsOk T ht hp hs hsz
  have hpre := addTables_pre l a.tabs
  have hz := h.none hn
  have hsb : sics (bs ++ nb) = sics bs := by rw [sics_append, hsn, List.append_nil]
  refine ⟨bs ++ nb, hb, ?_, ?_, ?_, ?_, ?_⟩
  · show a.recs = rs.map (named a.keys (l.foldl addTable a.tabs))
    rw [named_mono (List.prefix_refl _) hpre h.rng]; exact h.recs
  · intro x hx
    have hx := h.rng x hx
    have := hpre.length_le
    exact ⟨hx.1, by show x.2.1 < (l.foldl addTable a.tabs).length; omega⟩
  · intro he
    rw [hsb]
    have he : l.foldl addTable a.tabs = [] := he
    rw [he] at hpre
    exact h.empty (List.prefix_nil.1 hpre)
  · intro _
    refine ⟨hn, ?_⟩
    rw [hsb]
    obtain ⟨ys, hy⟩ := hpre
    have := (h.idle hz).2.mono (dbsOf ys) (Nat.le_refl _)
    show Plays (dbsOf (l.foldl addTable a.tabs)) a.keys.length (sics bs) rs
    rw [← hy]
    unfold dbsOf at this ⊢
    rw [List.map_append]
    exact this
  · intro z hz'
    have : f.z = some z := hz'
    rw [hz] at this
    cases this

/-! ### Start and stop -/

theorem makeZip_ready {kd : List Bytes} {z : Zip.Z} : ∀ {ts : List (Bytes × Db)}, makeZip kd (sdOf ts) = some z →
    Zip.Ready (dbsOf ts) (max 1 kd.length) z ∧ (ts ≠ [] → z.status = 3) := by
  have key : ∀ (ts : List (Bytes × Db)) (pre : List Db) (z0 : Zip.Z), Zip.Ready pre (max 1 kd.length) z0 → (z0.status = 1 ∨ z0.status = 3) → (pre ≠ [] → z0.status = 3) →
      (sdOf ts).foldlM (fun z t => t.2.getLast?.bind fun db => (Zip.setSdb z db).map (·.2)) z0 = some z →
      Zip.Ready (pre ++ dbsOf ts) (max 1 kd.length) z ∧ (pre ++ dbsOf ts ≠ [] → z.status = 3) := by
    intro ts
    induction ts with
    | nil =>
      intro pre z0 h1 _ h2 h3
      have h3 : some z0 = some z := by simpa [sdOf] using h3
      cases h3
      simp only [dbsOf, List.map_nil, List.append_nil]
      exact ⟨h1, h2⟩
    | cons t ts ih =>
      intro pre z0 h1 h0 h2 h3
      unfold sdOf at h3
      rw [List.map_cons, List.foldlM_cons] at h3
      simp only [List.getLast?_singleton, Option.bind_some] at h3
      obtain ⟨z1, h4, h5⟩ := Option.bind_eq_some_iff.1 h3
      obtain ⟨⟨i, z2⟩, h6, h7⟩ := Option.map_eq_some_iff.1 h4
      simp only at h7
      subst h7
      have hst : z2.status = 3 := by
        unfold Zip.setSdb at h6
        split at h6
        · cases h6
          show z0.status ||| 2 = 3
          rcases h0 with h | h <;> rw [h] <;> rfl
        · cases h6
      have := ih (pre ++ [t.2]) z2 (.sdb h1 h6) (.inr hst) (fun _ => hst) h5
      rw [List.append_assoc] at this
      exact this
  intro ts h
  have hk : (if (kd.length : Int) < 1 then 1 else (kd.length : Int).toNat) = max 1 kd.length := by
    split
    · omega
    · simp; omega
  have h0 : Zip.Ready [] (max 1 kd.length) (Zip.setKey Zip.create kd.length).2 := by
    rw [← hk]; exact .key _ .create
  obtain ⟨g1, g2⟩ := key ts [] _ h0 (.inl rfl) (fun h => absurd rfl h) h
  rw [List.nil_append] at g1 g2
  refine ⟨g1, fun hne => g2 ?_⟩
  intro e
  exact hne (List.map_eq_nil_iff.1 e)

theorem start_ok {lib : Lib} {P : Db → Prop} {a : Abs} {f f' : File} {bs : List (UInt8 × Bytes)} {rs : List Zip.Rec} (h : St lib P a f bs rs) (hn : a.now = none) (ht : a.tabs ≠ [])
    (hs : start lib f = some f') : St lib P { a with now := some [] } f' bs rs := by
  have e1 : writeKeys lib f.c = f.c := by unfold writeKeys; rw [if_pos h.base.newk]
  have e2 : writeTabs lib f.c = f.c := by unfold writeTabs; rw [if_pos h.base.news]
  simp only [start, e1, e2] at hs
  obtain ⟨z0, hz0, hs⟩ := Option.bind_eq_some_iff.1 hs
  obtain ⟨⟨r, z⟩, hz, hs⟩ := Option.map_eq_some_iff.1 hs
  rw [h.base.keys, h.base.tabs] at hz0
  obtain ⟨g1, g2⟩ := makeZip_ready hz0
  have hr : r = 0 := by
    unfold Zip.start at hz
    rw [if_neg (by rw [g2 ht]; decide)] at hz
    generalize (if (sicPart : Int) < 16384 then 16384 else Int.toNat sicPart) = zs at hz
    dsimp only at hz
    split at hz
    · cases hz
    · exact (Prod.mk.inj (Option.some.inj hz)).1.symm
  subst hr
  subst hs
  refine ⟨⟨h.base.inv, h.base.newk, h.base.news, h.base.keys, h.base.tabs, h.base.plain, h.base.idx, h.base.knum, h.base.snum, h.base.kcnt, h.base.scnt, h.base.ends, h.base.ecnt,
    by show (0 : Nat) < 2 ^ 64; omega, h.base.body, h.base.blocks⟩, h.recs, h.rng, h.empty, (by intro e; cases e), ?_⟩
  intro z' hz'
  have hz' : some z = some z' := hz'
  cases hz'
  exact ⟨ht, [], rfl, Live.start (h.idle (h.none hn)).2 g1 hz (Nat.le_max_right _ _) _⟩

theorem stop_ok {lib : Lib} {P : Db → Prop} {a : Abs} {f f' : File} {bs : List (UInt8 × Bytes)} {rs : List Zip.Rec} (h : St lib P a f bs rs) (hs : stop f = some f')
    (hsz : f'.c.body.length < 2 ^ 64) : ∃ bs', St lib P { a with now := none } f' bs' rs := by
  unfold stop at hs
  obtain ⟨z, hz, hs⟩ := Option.bind_eq_some_iff.1 hs
  obtain ⟨⟨B, z'⟩, hst, hs⟩ := Option.map_eq_some_iff.1 hs
  obtain ⟨ht, now, hn, hl⟩ := h.live z hz
  subst hs
  have hb := h.base.put B hsz
  have hsb : sics (bs ++ B.map fun b => (sicHead, b)) = sics bs ++ B := by rw [sics_append, sics_all]
  refine ⟨bs ++ B.map fun b => (sicHead, b), ⟨hb.inv, hb.newk, hb.news, hb.keys, hb.tabs, hb.plain, hb.idx, hb.knum, hb.snum, hb.kcnt, hb.scnt, hb.ends, hb.ecnt,
    by show (0 : Nat) < 2 ^ 64; omega, hb.body, hb.blocks⟩, h.recs, h.rng, fun e => absurd e ht, ?_, (by intro z e; cases e)⟩
  intro _
  refine ⟨rfl, ?_⟩
  rw [hsb]
  exact hl.stop hst

end Sis.Sic
