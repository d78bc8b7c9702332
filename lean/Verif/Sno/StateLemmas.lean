import Verif.Sno.FileLemmas
/- Lemmas on an open file of records in order: what it has in memory and in the file, and how a page is written. -/
namespace Sis.Sno
open Sis Sis.Disk Sis.Sdb
open Sis.Dyn (sameN getN setN Db sameN_iff sameN_refl getN_none getN_some setN_spec getN_congr)

theorem inv_body {lib : Lib} {P : Db → Prop} {c : Ctl} (h : Inv lib P c) (x : Bytes) : Inv lib P { c with body := c.body ++ x } := by
  refine ⟨h.kind, h.diff, ?_, ?_, h.kdiff, h.knames, h.sdiff, h.snames, h.news, h.nodes, fun e he u hu => (h.units e he u hu).mono x,
    fun u hu => (h.kkind u hu).mono (within_dict h _ u hu) x, fun u hu => (h.tkind u hu).mono (within_dict h _ u hu) x, h.tabbed⟩
  · show ∃ kd, readKeys lib (c.body ++ x) [] (dictUnits c.idx signKeys) = some kd ∧ _
    rw [readKeys_append _ _ _ _ (within_dict h _)]; exact h.keys
  · show ∃ kd, readTabs lib (c.body ++ x) [] (dictUnits c.idx signTabs) = some kd ∧ _
    rw [readTabs_append _ _ _ _ (within_dict h _)]; exact h.tabs

/-! ### Blocks of names -/

/-- Names were added. -/
structure More (c c' : Ctl) : Prop where
  kd : c.kd <+: c'.kd
  tv : tabView c.sd <+: tabView c'.sd
  blocks : ∃ bs : List (UInt8 × Bytes), c'.body = c.body ++ bs.flatMap (fun b => encRec b.1 b.2) ∧
    ∀ b ∈ bs, (hidOf b.1 = hidKeys ∨ hidOf b.1 = hidTabs) ∧ b.2.length < 2 ^ 64
  sub : ∀ e ∈ data c'.idx, e ∈ data c.idx
  get : ∀ n, IsData n → getN c'.idx n = getN c.idx n
  kcnt : (dictUnits c'.idx signKeys).length + c.body.length ≤ (dictUnits c.idx signKeys).length + c'.body.length
  scnt : (dictUnits c'.idx signTabs).length + c.body.length ≤ (dictUnits c.idx signTabs).length + c'.body.length

theorem More.refl (c : Ctl) : More c c := ⟨List.prefix_refl _, List.prefix_refl _, ⟨[], by simp, by simp⟩, fun _ h => h, fun _ _ => rfl, Nat.le_refl _, Nat.le_refl _⟩

theorem More.trans {a b c : Ctl} (h : More a b) (g : More b c) : More a c := by
  obtain ⟨x, hx, hx'⟩ := h.blocks
  obtain ⟨y, hy, hy'⟩ := g.blocks
  refine ⟨h.kd.trans g.kd, h.tv.trans g.tv, ⟨x ++ y, by rw [hy, hx, List.flatMap_append, List.append_assoc], ?_⟩, fun e he => h.sub e (g.sub e he),
    fun n hn => (g.get n hn).trans (h.get n hn), ?_, ?_⟩
  · intro b hb
    rcases List.mem_append.1 hb with hb | hb
    · exact hx' b hb
    · exact hy' b hb
  · have := h.kcnt; have := g.kcnt; omega
  · have := h.scnt; have := g.scnt; omega

theorem More.body {c c' : Ctl} (h : More c c') : ∃ x, c'.body = c.body ++ x := by
  obtain ⟨x, hx, _⟩ := h.blocks
  exact ⟨_, hx⟩

theorem joinNames_len (ks : List Bytes) : ks.length ≤ (joinNames ks).length + 1 := by
  induction ks with
  | nil => simp
  | cons k ks ih =>
    cases ks with
    | nil => simp
    | cons k' ks =>
      simp only [joinNames, List.length_append, List.length_cons] at ih ⊢
      omega

theorem writeKeys_more {lib : Lib} {P : Db → Prop} {c : Ctl} (h : Inv lib P c) (hs : mainHead + (writeKeys lib c).body.length < 2 ^ 64) :
    More c (writeKeys lib c) ∧ c.body.length + c.newk.length ≤ (writeKeys lib c).body.length := by
  by_cases hn : c.newk = []
  · have : writeKeys lib c = c := by unfold writeKeys; rw [if_pos hn]
    rw [this, hn]
    exact ⟨More.refl c, by simp⟩
  · obtain ⟨d, hd⟩ : ∃ d, d = joinNames c.newk := ⟨_, rfl⟩
    obtain ⟨u, hu⟩ : ∃ u : IUnit, u = { active := 1, fidx := 0, offset := mainHead + c.body.length, size := (block lib false hidKeys d).length } := ⟨_, rfl⟩
    have heq : writeKeys lib c = { c with body := c.body ++ block lib false hidKeys d, idx := idxUpd c.idx signKeys none (fun us => us ++ [u]), newk := [] } := by
      unfold writeKeys writeWork
      rw [if_neg hn, if_pos h.kind, hu, hd]
      rfl
    rw [heq] at hs ⊢
    simp only [List.length_append] at hs
    have e : packed lib false hidKeys d = (headByte 1 0 hidKeys, d) := by simp [packed]
    have hbl := block_length lib false hidKeys d
    rw [e] at hbl
    simp only at hbl
    have hok : UnitOk (c.body ++ block lib false hidKeys d) u := by
      rw [hu]
      refine ⟨⟨by show (1 : Nat) < 256; omega, by show (0 : Nat) < 256; omega, by show (0 : Nat) < 256; omega, by show (0 : Nat) < 2 ^ 16; omega, ?_, ?_, by show (0 : Nat) < 2 ^ 64; omega, by show (0 : Nat) < 2 ^ 64; omega⟩, ?_, ?_⟩
      · show mainHead + c.body.length < 2 ^ 64; omega
      · show (block lib false hidKeys d).length < 2 ^ 64; omega
      · show mainHead ≤ mainHead + c.body.length; omega
      · show mainHead + c.body.length - mainHead + (block lib false hidKeys d).length ≤ (c.body ++ block lib false hidKeys d).length
        simp only [List.length_append]; omega
    obtain ⟨g1, g2, g3, g4⟩ := sign_upd h signKeys (.inl rfl) (block lib false hidKeys d) u hok
    refine ⟨⟨List.prefix_refl _, List.prefix_refl _, ⟨[(headByte 1 0 hidKeys, d)], ?_, ?_⟩, g1, g3, ?_, ?_⟩, ?_⟩
    · simp [block, e]
    · intro b hb
      rw [List.mem_singleton.1 hb]
      exact ⟨.inl (hidOf_head (show (0 : Nat) ≤ 1 by decide) (show hidKeys < 32 by decide)), by show d.length < 2 ^ 64; omega⟩
    · show (dictUnits (idxUpd c.idx signKeys none fun us => us ++ [u]) signKeys).length + c.body.length ≤ (dictUnits c.idx signKeys).length + (c.body ++ _).length
      rw [g4]
      simp only [List.length_append, List.length_singleton]
      omega
    · show (dictUnits (idxUpd c.idx signKeys none fun us => us ++ [u]) signTabs).length + c.body.length ≤ (dictUnits c.idx signTabs).length + (c.body ++ _).length
      rw [sign_other _ _ _ (by decide)]
      simp only [List.length_append]
      omega
    · have := joinNames_len c.newk
      show c.body.length + c.newk.length ≤ (c.body ++ block lib false hidKeys d).length
      simp only [List.length_append]
      rw [← hd] at this
      omega

theorem writeTabs_more {lib : Lib} {P : Db → Prop} (T : TextOk lib P) {c : Ctl} (h : Inv lib P c) (hs : mainHead + (writeTabs lib c).body.length < 2 ^ 64) :
    More c (writeTabs lib c) ∧ c.body.length + c.news.length ≤ (writeTabs lib c).body.length := by
  by_cases hn : c.news = []
  · have : writeTabs lib c = c := by unfold writeTabs; rw [if_pos hn]
    rw [this, hn]
    exact ⟨More.refl c, by simp⟩
  · obtain ⟨d, hd⟩ : ∃ d, d = lib.text c.news := ⟨_, rfl⟩
    obtain ⟨u, hu⟩ : ∃ u : IUnit, u = { active := 1, fidx := 0, offset := mainHead + c.body.length, size := (block lib false hidTabs d).length } := ⟨_, rfl⟩
    have heq : writeTabs lib c = { c with body := c.body ++ block lib false hidTabs d, idx := idxUpd c.idx signTabs none (fun us => us ++ [u]), news := [] } := by
      unfold writeTabs writeWork
      rw [if_neg hn, if_pos h.kind, hu, hd]
      rfl
    rw [heq] at hs ⊢
    simp only [List.length_append] at hs
    have e : packed lib false hidTabs d = (headByte 1 0 hidTabs, d) := by simp [packed]
    have hbl := block_length lib false hidTabs d
    rw [e] at hbl
    simp only at hbl
    have hok : UnitOk (c.body ++ block lib false hidTabs d) u := by
      rw [hu]
      refine ⟨⟨by show (1 : Nat) < 256; omega, by show (0 : Nat) < 256; omega, by show (0 : Nat) < 256; omega, by show (0 : Nat) < 2 ^ 16; omega, ?_, ?_, by show (0 : Nat) < 2 ^ 64; omega, by show (0 : Nat) < 2 ^ 64; omega⟩, ?_, ?_⟩
      · show mainHead + c.body.length < 2 ^ 64; omega
      · show (block lib false hidTabs d).length < 2 ^ 64; omega
      · show mainHead ≤ mainHead + c.body.length; omega
      · show mainHead + c.body.length - mainHead + (block lib false hidTabs d).length ≤ (c.body ++ block lib false hidTabs d).length
        simp only [List.length_append]; omega
    obtain ⟨g1, g2, g3, g4⟩ := sign_upd h signTabs (.inr rfl) (block lib false hidTabs d) u hok
    refine ⟨⟨List.prefix_refl _, List.prefix_refl _, ⟨[(headByte 1 0 hidTabs, d)], ?_, ?_⟩, g1, g3, ?_, ?_⟩, ?_⟩
    · simp [block, e]
    · intro b hb
      rw [List.mem_singleton.1 hb]
      exact ⟨.inr (hidOf_head (show (0 : Nat) ≤ 1 by decide) (show hidTabs < 32 by decide)), by show d.length < 2 ^ 64; omega⟩
    · show (dictUnits (idxUpd c.idx signTabs none fun us => us ++ [u]) signKeys).length + c.body.length ≤ (dictUnits c.idx signKeys).length + (c.body ++ _).length
      rw [sign_other _ _ _ (by decide)]
      simp only [List.length_append]
      omega
    · show (dictUnits (idxUpd c.idx signTabs none fun us => us ++ [u]) signTabs).length + c.body.length ≤ (dictUnits c.idx signTabs).length + (c.body ++ _).length
      rw [g4]
      simp only [List.length_append, List.length_singleton]
      omega
    · obtain ⟨_, _, t3⟩ := T.back c.news hn h.news
      show c.body.length + c.news.length ≤ (c.body ++ block lib false hidTabs d).length
      simp only [List.length_append]
      rw [← hd] at t3
      omega

/-! ### The state -/

/-- What is in the file. -/
structure Core (lib : Lib) (P : Db → Prop) (c : Ctl) (pgs : List (List Rec)) : Prop where
  inv : Inv lib P c
  newk : c.newk = []
  news : c.news = []
  units : Units lib c (pagesFrom 0 pgs)
  nodes : Nodes c
  whole : Whole lib c.body c.kd (tabView c.sd) pgs.flatten
  size : ∀ e ∈ tabView c.sd, 0 < e.2
  knum : c.kd.length ≤ c.body.length
  snum : c.sd.length ≤ c.body.length
  kcnt : (dictUnits c.idx signKeys).length ≤ c.body.length
  scnt : (dictUnits c.idx signTabs).length ≤ c.body.length
  pnum : pgs.length ≤ c.body.length + 1

/-- What is in memory. -/
structure Live (kd : List Bytes) (tv : List (Bytes × Nat)) (page : Nat) (pend : List Rec) (cats : List (Bytes × Catch)) : Prop where
  diff : cats.Pairwise fun a b => sameN a.1 b.1 = false
  each : ∀ e ∈ cats, CatOk kd tv page (mine pend) e
  all : ∀ r ∈ pend, ∃ e ∈ cats, e.2.kname = r.key ∧ e.2.sname = r.tab

structure St (lib : Lib) (P : Db → Prop) (a : Abs) (f : File) (pgs : List (List Rec)) (pend : List Rec) : Prop where
  core : Core lib P f.c pgs
  keys : f.c.kd = a.keys
  tabs : tabView f.c.sd = a.tabs
  recs : a.recs = pgs.flatten ++ pend
  good : ∀ r ∈ a.recs, r.key ∈ f.c.kd ∧ (r.tab, r.data.length) ∈ tabView f.c.sd
  ends : ∀ u ∈ f.ends, EndOk u
  ecnt : f.ends.length ≤ f.c.body.length
  pages : f.pages = pgs.length
  msec : f.msec < 2 ^ 64
  series : f.series = pend.length
  idle : f.cats = none → a.busy = false ∧ pend = []
  live : ∀ cats, f.cats = some cats → a.busy = true ∧ Live f.c.kd (tabView f.c.sd) f.pages pend cats

theorem playBlocks_skip {lib : Lib} {c : Ctl} {quit : List Rec → Bool} (bs : List (UInt8 × Bytes)) (h : ∀ b ∈ bs, hidOf b.1 ≠ hidSno ∧ hidOf b.1 ≠ hidEnd) :
    ∀ rc hd more, playBlocks lib c quit rc hd (bs ++ more) = playBlocks lib c quit rc hd more := by
  induction bs with
  | nil => intro rc hd more; rfl
  | cons b bs ih =>
    intro rc hd more
    have hb := h b (by simp)
    cases hh : hd.2 with
    | true => rw [playBlocks_stop _ _ _ _ _ hh, playBlocks_stop _ _ _ _ _ hh]
    | false =>
      have ih' := ih (fun b hb => h b (by simp [hb])) rc hd more
      rw [List.cons_append, playBlocks, hh]
      simp only [Bool.false_eq_true, if_false, hb.1, hb.2]
      cases unzip lib b.1 b.2 <;> exact ih'

/-- Names are added to a file. -/
theorem Core.more {lib : Lib} {P : Db → Prop} {c c' : Ctl} {pgs : List (List Rec)} (h : Core lib P c pgs) (m : More c c') (hi : Inv lib P c') (hk : c'.newk = [])
    (hn : c'.news = []) (hz : ∀ e ∈ tabView c'.sd, 0 < e.2) (h1 : c'.kd.length ≤ c'.body.length) (h2 : c'.sd.length ≤ c'.body.length)
    (hnew : ∀ k s, k ∈ c'.kd → (∃ n, (s, n) ∈ tabView c'.sd) → (k ∈ c.kd ∧ ∃ n, (s, n) ∈ tabView c.sd) ∨ pagesFrom 0 pgs k s = []) : Core lib P c' pgs := by
  obtain ⟨bs, hb, hbs⟩ := m.blocks
  refine ⟨hi, hk, hn, ?_, ?_, ?_, hz, h1, h2, ?_, ?_, ?_⟩
  · intro k s hks hss
    unfold unitsOf dictUnits
    rw [m.get _ (isData_node k s)]
    have hold : k ∈ c.kd ∧ (∃ n, (s, n) ∈ tabView c.sd) → List.Forall₂ (fun u pq => u.stop = pq.1 ∧ UnitHas lib c'.body c'.kd (tabView c'.sd) u k s pq.2)
        (unitsOf c.idx k s) (pagesFrom 0 pgs k s) := by
      intro ⟨h3, h4⟩
      rw [hb]
      exact (h.units k s h3 h4).imp fun u pq g => ⟨g.1, g.2.mono _ m.kd m.tv⟩
    by_cases hboth : k ∈ c.kd ∧ (∃ n, (s, n) ∈ tabView c.sd)
    · exact hold hboth
    · rcases hnew k s hks hss with h3 | h3
      · exact hold h3
      · rw [h3]
        have hg : getN c.idx (nodeName k (some s)) = none := by
          cases hg : getN c.idx (nodeName k (some s)) with
          | none => rfl
          | some nd =>
            exfalso
            obtain ⟨i, e, e1, e2, e3⟩ := getN_some hg
            have he := List.mem_of_getElem? e1
            have hd : e ∈ data c.idx := List.mem_filter.2 ⟨he, by
              have hdn := isData_node k s
              have e3' : sameN (nodeName k (some s)) e.1 = true := by simpa using e3
              rw [← sameN_trans_r e3', ← sameN_trans_r e3', hdn.1, hdn.2]; rfl⟩
            obtain ⟨⟨k', s', hnm⟩, _⟩ := h.nodes e hd
            rw [hnm.name] at e3
            have hkk : k' ∈ c'.kd := m.kd.subset hnm.key
            obtain ⟨dbs, hdb⟩ := hnm.tab s' rfl
            obtain ⟨n', hn'⟩ := mem_tabView hdb
            have hss' := m.tv.subset hn'
            obtain ⟨n, hn⟩ := hss
            have e3' : sameN (nodeName k (some s)) (nodeName k' (some s')) = true := by simpa using e3
            obtain ⟨g1, g2⟩ := node_eq hi hks hkk (tabView_mem hn) (tabView_mem hss') e3'
            exact hboth ⟨by rw [g1]; exact hnm.key, n', by rw [g2]; exact hn'⟩
        rw [hg]
        exact .nil
  · intro e he
    obtain ⟨⟨k, s, hnm⟩, hu⟩ := h.nodes e (m.sub e he)
    refine ⟨⟨k, s, hnm.name, hnm.kname, hnm.sname, m.kd.subset hnm.key, ?_⟩, hu⟩
    intro t ht
    obtain ⟨dbs, hdb⟩ := hnm.tab t ht
    obtain ⟨n', hn'⟩ := mem_tabView hdb
    exact tabView_mem (m.tv.subset hn')
  · obtain ⟨os, o1, o2, o3⟩ := h.whole
    refine ⟨os ++ bs, by rw [hb, o1, List.flatMap_append], ?_, ?_⟩
    · intro b hb
      rcases List.mem_append.1 hb with hb | hb
      · exact o2 b hb
      · have := hbs b hb
        refine ⟨?_, ?_, this.2⟩ <;> rcases this.1 with h | h <;> rw [h] <;> decide
    · intro d h3 h4 quit hd more
      rw [List.append_assoc, o3 d (m.kd.trans h3) (m.tv.trans h4), playBlocks_skip]
      intro b hb
      have := hbs b hb
      constructor <;> rcases this.1 with h | h <;> rw [h] <;> decide
  · have := h.kcnt; have := m.kcnt; omega
  · have := h.scnt; have := m.scnt; omega
  · have := h.pnum; rw [hb, List.length_append]; omega

/-! ### A page is written -/

theorem newPages_mine {kd : List Bytes} {tv : List (Bytes × Nat)} {page : Nat} {pend : List Rec} {cats : List (Bytes × Catch)} (h : Live kd tv page pend cats) (k s : Bytes) :
    newPages page (mine pend) cats k s = if mine pend k s = [] then [] else [(page, mine pend k s)] := by
  unfold newPages
  by_cases hm : mine pend k s = []
  · rw [if_pos hm, List.map_eq_nil_iff, List.filter_eq_nil_iff]
    intro e he
    simp only [Bool.and_eq_true, beq_iff_eq, Bool.not_eq_true', not_and, and_imp]
    intro h1 h2
    have := (h.each e he).none (by rw [h1, h2]; exact hm)
    simp [this]
  · rw [if_neg hm]
    have hex : ∃ e ∈ cats, e.2.kname = k ∧ e.2.sname = s := by
      obtain ⟨x, hx⟩ := List.exists_mem_of_ne_nil _ hm
      obtain ⟨h1, h2, h3⟩ := mine_mem hx
      obtain ⟨e, he, h4, h5⟩ := h.all x.2 (tagFrom_mem h1)
      exact ⟨e, he, h4.trans h2, h5.trans h3⟩
    obtain ⟨e, he, h1, h2⟩ := hex
    have hone : cats.filter (fun e => e.2.kname == k && e.2.sname == s && !(e.2.mem == [])) = [e] := by
      obtain ⟨as, bs, hab⟩ := List.append_of_mem he
      have hd := h.diff
      rw [hab] at hd
      obtain ⟨_, hd2, hd3⟩ := List.pairwise_append.1 hd
      have hmem : e.2.mem ≠ [] := ((h.each e he).some (by rw [h1, h2]; exact hm)).1.ne
      have hname : ∀ x ∈ cats, x.2.kname = k → x.2.sname = s → sameN x.1 e.1 = true := by
        intro x hx h3 h4
        rw [(h.each x hx).name, (h.each e he).name, h1, h2, h3, h4]
        exact sameN_refl _
      rw [hab, List.filter_append, List.filter_cons, if_pos (by simp [h1, h2, hmem])]
      have ha : as.filter (fun e => e.2.kname == k && e.2.sname == s && !(e.2.mem == [])) = [] := by
        rw [List.filter_eq_nil_iff]
        intro x hx h5
        simp only [Bool.and_eq_true, beq_iff_eq] at h5
        have := hname x (by rw [hab]; simp [hx]) h5.1.1 h5.1.2
        rw [hd3 x hx e (by simp)] at this
        cases this
      have hb : bs.filter (fun e => e.2.kname == k && e.2.sname == s && !(e.2.mem == [])) = [] := by
        rw [List.filter_eq_nil_iff]
        intro x hx h5
        simp only [Bool.and_eq_true, beq_iff_eq] at h5
        have := hname x (by rw [hab]; simp [hx]) h5.1.1 h5.1.2
        rw [sameN_comm, (List.pairwise_cons.1 hd2).1 x hx] at this
        cases this
      rw [ha, hb]
      rfl
    rw [hone]
    rfl

theorem slots_all {kd : List Bytes} {tv : List (Bytes × Nat)} {page : Nat} {pend : List Rec} {cats : List (Bytes × Catch)} (h : Live kd tv page pend cats) :
    (cats.flatMap fun e => mine pend e.2.kname e.2.sname).foldl (fun rc e => setSlot rc e.1 e.2) [] = tagFrom 0 pend := by
  have := slots_filter (tagFrom 0 pend) (tagFrom_sorted pend 0) (cats.flatMap fun e => mine pend e.2.kname e.2.sname) (fun _ => false) (by
    intro e he
    obtain ⟨x, _, hx⟩ := List.mem_flatMap.1 he
    exact (mine_mem hx).1)
  rw [show (tagFrom 0 pend).filter (fun _ => false) = [] by simp] at this
  rw [this, List.filter_eq_self]
  intro e he
  simp only [Bool.false_or, List.contains_iff_mem]
  obtain ⟨x, hx, h1, h2⟩ := h.all e.2 (tagFrom_mem he)
  refine List.mem_flatMap.2 ⟨x, hx, ?_⟩
  unfold mine
  rw [List.mem_filter]
  exact ⟨he, by simp [h1, h2]⟩

theorem encStop_ne (f : File) : encStop f ≠ [] := by
  unfold encStop
  have := catSsize_pos f.msec
  intro e
  have := congrArg List.length e
  simp only [List.length_append, List.length_nil] at this
  omega

theorem flush_ok {lib : Lib} (L : ZipOk lib) {P : Db → Prop} {a : Abs} {f f' : File} {pgs : List (List Rec)} {pend : List Rec} (h : St lib P a f pgs pend)
    (hf : flush lib f = some f') (hsz : mainHead + f'.c.body.length < 2 ^ 64) : St lib P a f' (pgs ++ [pend]) [] ∧ f'.size = 0 := by
  unfold flush at hf
  obtain ⟨cats, hcats, hf⟩ := Option.map_eq_some_iff.1 hf
  obtain ⟨hbusy, hlive⟩ := h.live cats hcats
  obtain ⟨c1, hc1⟩ : ∃ c1, c1 = cats.foldl (fun c e => putCat lib c e.2) f.c := ⟨_, rfl⟩
  obtain ⟨st, hst⟩ : ∃ st, st = encStop { f with c := c1, cats := some (cats.map fun e => (e.1, clearCat e.2)), pages := f.pages + 1 } := ⟨_, rfl⟩
  obtain ⟨b, hb⟩ : ∃ b, b = block lib false hidEnd st := ⟨_, rfl⟩
  have hfc : f'.c = { c1 with body := c1.body ++ b } := by rw [← hf, hc1, hb, hst, hc1]; rfl
  have hfe : f'.ends = f.ends ++ [{ active := 1, offset := mainHead + c1.body.length, size := b.length, start := f.msec }] := by
    rw [← hf, hb, hst, hc1]; rfl
  have hfp : f'.pages = f.pages + 1 := by rw [← hf]; rfl
  have hfm : f'.msec = f.msec := by rw [← hf]; rfl
  have hfs : f'.size = 0 := by rw [← hf]
  have hfr : f'.series = 0 := by rw [← hf]
  have hfcats : f'.cats = some (cats.map fun e => (e.1, clearCat e.2)) := by rw [← hf]; rfl
  have hst0 : st ≠ [] := by rw [hst]; exact encStop_ne _
  have hlen : mainHead + (c1.body.length + b.length) < 2 ^ 64 := by
    rw [hfc] at hsz; simpa using hsz
  obtain ⟨c1', bs, g1, g2, g3, g4, g5, g6, g7, g8⟩ := putCats L f.pages (mine pend) cats f.c _ h.core.inv h.core.units h.core.nodes hlive.each (by rw [← hc1]; omega)
  rw [← hc1] at g1
  subst g1
  have hps : (fun k s => pagesFrom 0 pgs k s ++ newPages f.pages (mine pend) cats k s) = pagesFrom 0 (pgs ++ [pend]) := by
    funext k s
    rw [pagesFrom_append, newPages_mine hlive, h.pages]
    simp [pagesFrom]
  rw [hps] at g5
  have hbl := block_length lib false hidEnd st
  have hbp : packed lib false hidEnd st = (headByte 1 0 hidEnd, st) := by simp [packed]
  rw [hbp, ← hb] at hbl
  simp only at hbl
  have hbody : f'.c.body = c1.body ++ b := by rw [hfc]
  have hkd : f'.c.kd = f.c.kd := by rw [hfc]; exact g3.kd
  have hsd : f'.c.sd = f.c.sd := by rw [hfc]; exact g3.sd
  have hbig : f.c.body.length + 1 ≤ f'.c.body.length := by
    rw [hbody, g6]; simp only [List.length_append]; omega
  refine ⟨⟨⟨?_, ?_, ?_, ?_, ?_, ?_, ?_, ?_, ?_, ?_, ?_, ?_⟩, hkd.trans h.keys, by rw [hsd]; exact h.tabs, by rw [h.recs]; simp, by rw [hkd, hsd]; exact h.good, ?_, ?_, ?_, ?_, hfr, ?_, ?_⟩, hfs⟩
  · rw [hfc]; exact inv_body g2 b
  · rw [hfc]; exact g3.newk.trans h.core.newk
  · rw [hfc]; exact g3.news.trans h.core.news
  · rw [hfc]
    intro k s hk hs
    exact (g5 k s hk hs).imp fun u pq g => ⟨g.1, g.2.mono _ (List.prefix_refl _) (List.prefix_refl _)⟩
  · rw [hfc]; exact g4
  · obtain ⟨os, o1, o2, o3⟩ := h.core.whole
    refine ⟨os ++ (bs ++ [(headByte 1 0 hidEnd, st)]), ?_, ?_, ?_⟩
    · rw [hbody, g6, o1, hb]
      simp [block, hbp]
    · intro x hx
      rcases List.mem_append.1 hx with hx | hx
      · exact o2 x hx
      · rcases List.mem_append.1 hx with hx | hx
        · exact g7 x hx
        · rw [List.mem_singleton.1 hx]
          rw [hidOf_head (show (0 : Nat) ≤ 1 by decide) (show hidEnd < 32 by decide)]
          exact ⟨by decide, by decide, by show st.length < 2 ^ 64; omega⟩
    · intro d h3 h4 quit hd more
      rw [hkd] at h3
      rw [hsd] at h4
      rw [List.append_assoc, List.append_assoc, o3 d h3 h4 quit hd, List.flatten_append, deliver_append, List.flatten_singleton]
      generalize deliver quit hd pgs.flatten = hd'
      cases hh : hd'.2 with
      | true => rw [playBlocks_stop _ _ _ _ _ hh, deliver_stop _ _ hh, playBlocks_stop _ _ _ _ _ hh]
      | false =>
        rw [g8 d h3 h4 quit [] hd' _ hh, slots_all hlive]
        obtain ⟨p1, p2, p3⟩ := packed_read L false (show hidEnd < 32 by decide) hst0
        rw [hbp] at p1 p3
        simp only at p1 p3
        rw [List.singleton_append, playBlocks, hh]
        simp only [Bool.false_eq_true, if_false, p3, p1]
        rw [if_neg (by decide), if_pos trivial, tagFrom_map]
  · rw [hsd]; exact h.core.size
  · rw [hkd]; have := h.core.knum; omega
  · rw [hsd]; have := h.core.snum; omega
  · have := h.core.kcnt
    have e : dictUnits f'.c.idx signKeys = dictUnits f.c.idx signKeys := by
      rw [hfc]; exact g3.dict _ (by intro h; exact absurd h.1 (by decide))
    rw [e]; omega
  · have := h.core.scnt
    have e : dictUnits f'.c.idx signTabs = dictUnits f.c.idx signTabs := by
      rw [hfc]; exact g3.dict _ (by intro h; exact absurd h.2 (by decide))
    rw [e]; omega
  · have := h.core.pnum
    simp only [List.length_append, List.length_singleton]; omega
  · intro u hu
    rw [hfe] at hu
    rcases List.mem_append.1 hu with hu | hu
    · exact h.ends u hu
    · rw [List.mem_singleton.1 hu]
      exact ⟨by show (0 : Nat) < 2 ^ 16; omega, by show mainHead + c1.body.length < 2 ^ 64; omega, by show b.length < 2 ^ 64; omega, h.msec⟩
  · rw [hfe]; have := h.ecnt; simp only [List.length_append, List.length_singleton]; omega
  · rw [hfp, h.pages]; simp
  · rw [hfm]; exact h.msec
  · rw [hfcats]; intro e; cases e
  · intro cs hcs
    rw [hfcats] at hcs
    have hcs := (Option.some.inj hcs).symm
    refine ⟨hbusy, ?_, ?_, by intro r hr; cases hr⟩
    · rw [hcs, List.pairwise_map]
      exact hlive.diff
    · intro e he
      rw [hcs] at he
      obtain ⟨x, hx, rfl⟩ := List.mem_map.1 he
      have hx := hlive.each x hx
      have hk : (clearCat x.2).kname = x.2.kname := by unfold clearCat; split <;> rfl
      have hs : (clearCat x.2).sname = x.2.sname := by unfold clearCat; split <;> rfl
      have hm : (clearCat x.2).mem = [] := by
        unfold clearCat; split
        · assumption
        · rfl
      refine ⟨by rw [hk, hs]; exact hx.name, by rw [hk, hkd]; exact hx.key, by rw [hs, hsd]; exact hx.tab, fun _ => hm, fun hne => absurd (by simp [mine, tagFrom]) hne, ?_⟩
      simp only
      unfold clearCat
      split
      · exact hx.range
      · exact ⟨by show (0 : Nat) < 256; omega, by show (0 : Nat) < 256; omega, by show (0 : Nat) < 2 ^ 64; omega, by show (0 : Nat) < 2 ^ 64; omega⟩

end Sis.Sno
