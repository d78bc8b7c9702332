import Verif.Sdb.UnitLemmas
/- Lemmas on the functions that change an open data file. -/
namespace Sis.Sdb
open Sis Sis.Disk
open Sis.Dyn (sameN getN setN Db sameN_iff sameN_refl getN_none getN_some setN_spec getN_congr)

/-- A file that has the same data. -/
structure Ext (lib : Lib) (c c' : Ctl) : Prop where
  kind : c'.kind = c.kind
  body : ∃ x, c'.body = c.body ++ x
  view : ∀ n, IsData n → view lib c' n = view lib c n
  win : c'.win = c.win
  keys : ∀ k ∈ c.kd, k ∈ c'.kd
  tabs : ∀ e ∈ c.sd, ∃ d, (e.1, d) ∈ c'.sd

theorem Ext.refl (lib : Lib) (c : Ctl) : Ext lib c c := ⟨rfl, ⟨[], by simp⟩, fun _ _ => rfl, rfl, fun _ h => h, fun e h => ⟨e.2, h⟩⟩

theorem Ext.trans {lib : Lib} {a b c : Ctl} (h : Ext lib a b) (g : Ext lib b c) : Ext lib a c := by
  obtain ⟨x, hx⟩ := h.body
  obtain ⟨y, hy⟩ := g.body
  exact ⟨g.kind.trans h.kind, ⟨x ++ y, by rw [hy, hx, List.append_assoc]⟩, fun n hn => (g.view n hn).trans (h.view n hn), g.win.trans h.win,
    fun k hk => g.keys k (h.keys k hk), fun e he => by obtain ⟨d, hd⟩ := h.tabs e he; exact g.tabs (e.1, d) hd⟩

theorem setN_keeps {α : Type} (l : List (Bytes × α)) (k : Bytes) (v : α) {e : Bytes × α} (h : e ∈ l) : ∃ d, (e.1, d) ∈ (setN l k v).1 := by
  induction l with
  | nil => cases h
  | cons o l ih =>
    unfold setN
    rcases List.mem_cons.1 h with h | h
    · subst h
      split
      · exact ⟨v, by simp⟩
      · exact ⟨e.2, by simp⟩
    · split
      · exact ⟨e.2, by simp [h]⟩
      · obtain ⟨d, hd⟩ := ih h
        exact ⟨d, by simp [hd]⟩

theorem addTab_keeps (sd : TDict) (t : Tab) {e : Bytes × List Db} (h : e ∈ sd) : ∃ d, (e.1, d) ∈ (addTab sd t).1 := by
  unfold addTab
  split
  · exact setN_keeps _ _ _ h
  · split
    · exact setN_keeps _ _ _ h
    · exact ⟨e.2, h⟩

theorem addTab_diff (sd : TDict) (t : Tab) (h : sd.Pairwise fun a b => sameN a.1 b.1 = false) : (addTab sd t).1.Pairwise fun a b => sameN a.1 b.1 = false := by
  unfold addTab
  split
  · exact setN_diff _ _ _ h
  · split
    · exact setN_diff _ _ _ h
    · exact h

theorem addTab_mem {sd : TDict} {t : Tab} {e : Bytes × List Db} (h : e ∈ (addTab sd t).1) :
    e ∈ sd ∨ (e.1 = t.name ∧ e.2 ≠ []) ∨ (∃ o ∈ sd, o.1 = e.1 ∧ e.2 ≠ []) := by
  unfold addTab at h
  split at h
  · rcases mem_setN h with h | ⟨h, _⟩ | ⟨o, ho, _, _, h⟩
    · exact .inl h
    · exact .inr (.inl (by rw [h]; simp))
    · exact .inr (.inr ⟨o, ho, by rw [h], by rw [h]; simp⟩)
  · split at h
    · rcases mem_setN h with h | ⟨h, _⟩ | ⟨o, ho, _, _, h⟩
      · exact .inl h
      · exact .inr (.inl (by rw [h]; simp))
      · exact .inr (.inr ⟨o, ho, by rw [h], by rw [h]; simp⟩)
    · exact .inl h

theorem setKey_inv {lib : Lib} {P : Db → Prop} {c : Ctl} (h : Inv lib P c) {k : Bytes} (hk : GoodKey k) :
    Inv lib P (setKey c k) ∧ Ext lib c (setKey c k) ∧ (setKey c k).news = c.news ∧ (setKey c k).sd = c.sd ∧ (∃ n ∈ (setKey c k).kd, sameN k n = true) := by
  unfold setKey
  split
  · rename_i hs
    exact ⟨h, Ext.refl lib c, rfl, rfl, getKey_isSome.1 hs⟩
  · rename_i hs
    have hn : getKey c.kd k = none := by
      cases hg : getKey c.kd k with
      | none => rfl
      | some _ => rw [hg] at hs; simp at hs
    obtain ⟨kd, h1, h2⟩ := h.keys
    refine ⟨⟨h.kind, h.diff, ⟨kd, h1, by simp only [h2, List.append_assoc]⟩, h.tabs, ?_, ?_, h.sdiff, h.snames, h.news, ?_, h.units, h.kkind, h.tkind, h.tabbed⟩, ?_, rfl, rfl, ?_⟩
    · simp only [List.pairwise_append]
      refine ⟨h.kdiff, by simp, ?_⟩
      intro a ha b hb
      rw [List.mem_singleton.1 hb, sameN_comm]
      exact getKey_none.1 hn a ha
    · intro x hx
      rcases List.mem_append.1 hx with hx | hx
      · exact h.knames x hx
      · rw [List.mem_singleton.1 hx]; exact hk
    · intro e he
      obtain ⟨k', s', hnm⟩ := h.nodes e he
      exact ⟨k', s', hnm.name, hnm.kname, hnm.sname, by simp [hnm.key], hnm.tab⟩
    · exact ⟨rfl, ⟨[], by simp⟩, fun _ _ => rfl, rfl, fun x hx => by simp [hx], fun e he => ⟨e.2, he⟩⟩
    · exact ⟨k, by simp, sameN_refl k⟩

theorem setTab_inv {lib : Lib} {P : Db → Prop} {c : Ctl} (h : Inv lib P c) {t : Tab} (ht : GoodTab t.name) (hp : P t.db)
    (hd : ∀ n ∈ c.news, sameN n.name t.name = false) :
    Inv lib P (setTab c t) ∧ Ext lib c (setTab c t) ∧ (setTab c t).newk = c.newk ∧ (setTab c t).kd = c.kd ∧ (setTab c t).sd = (addTab c.sd t).1 ∧
      (∀ n ∈ (setTab c t).news, n ∈ c.news ∨ n = t) := by
  unfold setTab
  have hf : c.news.filter (fun n => !sameN n.name t.name) = c.news := by
    rw [List.filter_eq_self]; intro n hn; simp [hd n hn]
  split
  · obtain ⟨sd, h1, h2⟩ := h.tabs
    refine ⟨⟨h.kind, h.diff, h.keys, ⟨sd, h1, ?_⟩, h.kdiff, h.knames, addTab_diff _ _ h.sdiff, ?_, ?_, ?_, h.units, h.kkind, h.tkind, h.tabbed⟩, ?_, rfl, rfl, rfl, ?_⟩
    · simp only [hf, List.foldl_append, List.foldl_cons, List.foldl_nil]
      rw [h2]
    · intro e he
      rcases addTab_mem he with he | ⟨h1, h2⟩ | ⟨o, ho, h1, h2⟩
      · exact h.snames e he
      · exact ⟨by rw [h1]; exact ht, h2⟩
      · exact ⟨by rw [← h1]; exact (h.snames o ho).1, h2⟩
    · simp only [hf]
      intro n hn
      rcases List.mem_append.1 hn with hn | hn
      · exact h.news n hn
      · rw [List.mem_singleton.1 hn]; exact ⟨ht, hp⟩
    · intro e he
      obtain ⟨k', s', hnm⟩ := h.nodes e he
      refine ⟨k', s', hnm.name, hnm.kname, hnm.sname, hnm.key, fun x hx => ?_⟩
      obtain ⟨dbs, hdb⟩ := hnm.tab x hx
      exact addTab_keeps _ _ hdb
    · exact ⟨rfl, ⟨[], by simp⟩, fun _ _ => rfl, rfl, fun x hx => hx, fun e he => addTab_keeps _ _ he⟩
    · simp only [hf]
      intro n hn
      simpa using hn
  · rename_i hnew
    refine ⟨h, Ext.refl lib c, rfl, rfl, ?_, fun n hn => .inl hn⟩
    unfold addTab at hnew ⊢
    split
    · rename_i hg; rw [hg] at hnew; simp at hnew
    · rename_i dbs hg
      rw [hg] at hnew
      simp only at hnew
      split
      · rename_i hi; rw [if_pos hi] at hnew; simp at hnew
      · rfl

/-- What is asked of the text of tables. -/
structure TextOk (lib : Lib) (P : Db → Prop) : Prop where
  back : ∀ ts, ts ≠ [] → (∀ t ∈ ts, GoodTab t.name ∧ P t.db) → lib.parse (lib.text ts) = ts ∧ 16 ≤ (lib.text ts).length ∧ ts.length ≤ (lib.text ts).length

theorem block_length (lib : Lib) (z : Bool) (hid : Nat) (d : Bytes) : (packed lib z hid d).2.length < (block lib z hid d).length := by
  unfold block; rw [encRec_len]; omega

theorem block_plain' (lib : Lib) (hid : Nat) (d : Bytes) : block lib false hid d = encRec (headByte 1 0 hid) d := rfl

/-- The dictionary block of a file is added. -/
theorem sign_upd {lib : Lib} {P : Db → Prop} {c : Ctl} (h : Inv lib P c) (sign : Bytes) (hsg : sign = signKeys ∨ sign = signTabs) (x : Bytes) (u : IUnit)
    (hu : UnitOk (c.body ++ x) u) :
    (∀ e ∈ data (idxUpd c.idx sign none fun us => us ++ [u]), e ∈ data c.idx) ∧
      (∀ e ∈ idxUpd c.idx sign none (fun us => us ++ [u]), ∀ v ∈ e.2.units, UnitOk (c.body ++ x) v) ∧
      (∀ n, IsData n → getN (idxUpd c.idx sign none fun us => us ++ [u]) n = getN c.idx n) ∧
      dictUnits (idxUpd c.idx sign none fun us => us ++ [u]) sign = dictUnits c.idx sign ++ [u] := by
  have hname : nodeName sign none = sign := rfl
  refine ⟨?_, ?_, ?_, ?_⟩
  · intro e he
    have he1 := (List.mem_filter.1 he).1
    have he2 := (List.mem_filter.1 he).2
    have hno : sameN sign e.1 = false := by
      simp only [Bool.and_eq_true, Bool.not_eq_true'] at he2
      rcases hsg with rfl | rfl
      · exact he2.1
      · exact he2.2
    rcases mem_idxUpd he1 with h1 | ⟨h1, _⟩ | h1 | ⟨o, ho, h1, h2⟩
    · exact List.mem_filter.2 ⟨h1, he2⟩
    · rw [h1] at hno; simp [hname, sameN_refl] at hno
    · rw [h1] at hno; simp [hname, sameN_refl] at hno
    · rw [h2] at hno; rw [hname] at h1; rw [h1] at hno; cases hno
  · intro e he v hv
    rcases mem_idxUpd he with h1 | ⟨h1, _⟩ | h1 | ⟨o, ho, h1, h2⟩
    · exact (h.units e h1 v hv).mono x
    · rw [h1] at hv; simp at hv; rw [hv]; exact hu
    · rw [h1] at hv; simp at hv
    · rw [h2] at hv
      rcases List.mem_append.1 hv with hv | hv
      · exact (h.units o ho v hv).mono x
      · rw [List.mem_singleton.1 hv]; exact hu
  · intro n hn
    rw [getN_idxUpd, if_neg]
    rw [hname, sameN_comm]
    rcases hsg with rfl | rfl
    · simp [hn.1]
    · simp [hn.2]
  · rw [dictUnits_idxUpd, hname, if_pos (sameN_refl _)]

theorem sign_other (idx : Idx) (sign sign' : Bytes) (h : sameN sign' sign = false) (f : List IUnit → List IUnit) :
    dictUnits (idxUpd idx sign none f) sign' = dictUnits idx sign' := by
  rw [dictUnits_idxUpd, if_neg]
  show ¬ sameN sign' sign = true
  simp [h]

theorem within_dict {lib : Lib} {P : Db → Prop} {c : Ctl} (h : Inv lib P c) (n : Bytes) : ∀ u ∈ dictUnits c.idx n, Within c.body u := by
  intro u hu
  obtain ⟨e, he, hu⟩ := dictUnits_mem hu
  exact (h.units e he u hu).2

theorem writeKeys_inv {lib : Lib} {P : Db → Prop} {c : Ctl} (h : Inv lib P c) (hs : mainHead + (writeKeys lib c).body.length < 2 ^ 64) :
    Inv lib P (writeKeys lib c) ∧ Ext lib c (writeKeys lib c) ∧ (writeKeys lib c).newk = [] ∧ (writeKeys lib c).news = c.news ∧
      (writeKeys lib c).kd = c.kd ∧ (writeKeys lib c).sd = c.sd := by
  by_cases hn : c.newk = []
  · have : writeKeys lib c = c := by unfold writeKeys; rw [if_pos hn]
    rw [this]
    exact ⟨h, Ext.refl lib c, hn, rfl, rfl, rfl⟩
  · obtain ⟨d, hd⟩ : ∃ d, d = joinNames c.newk := ⟨_, rfl⟩
    obtain ⟨u, hu⟩ : ∃ u : IUnit, u = { active := 1, fidx := 0, offset := mainHead + c.body.length, size := (block lib false hidKeys d).length } := ⟨_, rfl⟩
    have heq : writeKeys lib c = { c with body := c.body ++ block lib false hidKeys d, idx := idxUpd c.idx signKeys none (fun us => us ++ [u]), newk := [] } := by
      unfold writeKeys writeWork
      rw [if_neg hn, if_pos h.kind, hu, hd]
      rfl
    rw [heq] at hs ⊢
    simp only [List.length_append] at hs
    have hgood : ∀ k ∈ c.newk, GoodKey k := by
      obtain ⟨kd, _, h2⟩ := h.keys
      intro k hk
      exact h.knames k (by rw [h2]; simp [hk])
    have hne : d ≠ [] := by rw [hd]; exact joinNames_ne hn hgood
    have hlen : d.length < 2 ^ 64 := by
      have := block_length lib false hidKeys d
      have e : (packed lib false hidKeys d).2 = d := by simp [packed]
      rw [e] at this
      omega
    have hok : UnitOk (c.body ++ block lib false hidKeys d) u := by
      rw [hu]
      refine ⟨⟨by show (1 : Nat) < 256; omega, by show (0 : Nat) < 256; omega, by show (0 : Nat) < 256; omega, by show (0 : Nat) < 2 ^ 16; omega, ?_, ?_, by show (0 : Nat) < 2 ^ 64; omega, by show (0 : Nat) < 2 ^ 64; omega⟩, ?_, ?_⟩
      · show mainHead + c.body.length < 2 ^ 64; omega
      · show (block lib false hidKeys d).length < 2 ^ 64; omega
      · show mainHead ≤ mainHead + c.body.length; omega
      · show mainHead + c.body.length - mainHead + (block lib false hidKeys d).length ≤ (c.body ++ block lib false hidKeys d).length
        simp only [List.length_append]; omega
    obtain ⟨g1, g2, g3, g4⟩ := sign_upd h signKeys (.inl rfl) (block lib false hidKeys d) u hok
    have hread : ∀ kd, readKeys lib (c.body ++ block lib false hidKeys d) kd [u] = some (loadKeys kd d) := by
      intro kd
      obtain ⟨b, hb1, hb2⟩ := readAt_plain lib (show hidKeys < 32 by decide) c.body [] hne hlen
      rw [List.append_nil] at hb1
      have e1 : u.offset = mainHead + c.body.length := by rw [hu]
      have e2 : u.size = (block lib false hidKeys d).length := by rw [hu]
      simp only [readKeys, e1, e2, hb1, Option.bind_some, hb2, Option.getD_some]
      rw [if_neg (by simpa using hne)]
    obtain ⟨kd, k1, k2⟩ := h.keys
    refine ⟨⟨h.kind, idxUpd_diff c.idx signKeys none (fun us => us ++ [u]) h.diff, ⟨c.kd, ?_, by simp⟩, ?_, h.kdiff, h.knames, h.sdiff, h.snames, h.news, fun e he => h.nodes e (g1 e he), g2, ?_, ?_, fun hne e he => h.tabbed hne e (g1 e he)⟩, ?_, rfl, rfl, rfl, rfl⟩
    · show readKeys lib (c.body ++ block lib false hidKeys d) [] (dictUnits (idxUpd c.idx signKeys none fun us => us ++ [u]) signKeys) = some c.kd
      rw [g4, readKeys_snoc, readKeys_append _ _ _ _ (within_dict h _), k1]
      simp only [Option.bind_some]
      rw [hread, hd, loadKeys, splitNames_join _ hgood, loadKeys_new _ _ (by rw [← k2]; exact h.kdiff), k2]
    · show ∃ sd, readTabs lib (c.body ++ block lib false hidKeys d) [] (dictUnits (idxUpd c.idx signKeys none fun us => us ++ [u]) signTabs) = some sd ∧ _
      rw [sign_other _ _ _ (by decide), readTabs_append _ _ _ _ (within_dict h _)]
      exact h.tabs
    · intro v hv
      simp only [g4] at hv
      rcases List.mem_append.1 hv with hv | hv
      · exact (h.kkind v hv).mono (within_dict h _ v hv) _
      · rw [List.mem_singleton.1 hv]
        have e1 : u.offset = mainHead + c.body.length := by rw [hu]
        have e2 : u.size = (block lib false hidKeys d).length := by rw [hu]
        have := readAt_block c.body (headByte 1 0 hidKeys) d [] hlen
        rw [List.append_nil] at this
        exact ⟨d, hne, trivial, by rw [e1, e2, block_plain']; exact this⟩
    · intro v hv
      rw [sign_other _ _ _ (by decide)] at hv
      exact (h.tkind v hv).mono (within_dict h _ v hv) _
    · refine ⟨rfl, ⟨_, rfl⟩, ?_, rfl, fun _ hk => hk, fun e he => ⟨e.2, he⟩⟩
      intro n hnd
      exact view_mono h _ n _ rfl (g3 n hnd)

theorem writeTabs_inv {lib : Lib} {P : Db → Prop} (T : TextOk lib P) {c : Ctl} (h : Inv lib P c) (hs : mainHead + (writeTabs lib c).body.length < 2 ^ 64) :
    Inv lib P (writeTabs lib c) ∧ Ext lib c (writeTabs lib c) ∧ (writeTabs lib c).news = [] ∧ (writeTabs lib c).newk = c.newk ∧
      (writeTabs lib c).kd = c.kd ∧ (writeTabs lib c).sd = c.sd := by
  by_cases hn : c.news = []
  · have : writeTabs lib c = c := by unfold writeTabs; rw [if_pos hn]
    rw [this]
    exact ⟨h, Ext.refl lib c, hn, rfl, rfl, rfl⟩
  · obtain ⟨d, hd⟩ : ∃ d, d = lib.text c.news := ⟨_, rfl⟩
    obtain ⟨u, hu⟩ : ∃ u : IUnit, u = { active := 1, fidx := 0, offset := mainHead + c.body.length, size := (block lib false hidTabs d).length } := ⟨_, rfl⟩
    have heq : writeTabs lib c = { c with body := c.body ++ block lib false hidTabs d, idx := idxUpd c.idx signTabs none (fun us => us ++ [u]), news := [] } := by
      unfold writeTabs writeWork
      rw [if_neg hn, if_pos h.kind, hu, hd]
      rfl
    rw [heq] at hs ⊢
    simp only [List.length_append] at hs
    obtain ⟨t1, t2, t3⟩ := T.back c.news hn h.news
    rw [← hd] at t1 t2
    have hne : d ≠ [] := by intro e; rw [e] at t2; simp at t2
    have hlen : d.length < 2 ^ 64 := by
      have := block_length lib false hidTabs d
      have e : (packed lib false hidTabs d).2 = d := by simp [packed]
      rw [e] at this
      omega
    have hok : UnitOk (c.body ++ block lib false hidTabs d) u := by
      rw [hu]
      refine ⟨⟨by show (1 : Nat) < 256; omega, by show (0 : Nat) < 256; omega, by show (0 : Nat) < 256; omega, by show (0 : Nat) < 2 ^ 16; omega, ?_, ?_, by show (0 : Nat) < 2 ^ 64; omega, by show (0 : Nat) < 2 ^ 64; omega⟩, ?_, ?_⟩
      · show mainHead + c.body.length < 2 ^ 64; omega
      · show (block lib false hidTabs d).length < 2 ^ 64; omega
      · show mainHead ≤ mainHead + c.body.length; omega
      · show mainHead + c.body.length - mainHead + (block lib false hidTabs d).length ≤ (c.body ++ block lib false hidTabs d).length
        simp only [List.length_append]; omega
    obtain ⟨g1, g2, g3, g4⟩ := sign_upd h signTabs (.inr rfl) (block lib false hidTabs d) u hok
    have hread : ∀ sd, readTabs lib (c.body ++ block lib false hidTabs d) sd [u] = some (loadTabs lib sd d) := by
      intro kd
      obtain ⟨b, hb1, hb2⟩ := readAt_plain lib (show hidTabs < 32 by decide) c.body [] hne hlen
      rw [List.append_nil] at hb1
      have e1 : u.offset = mainHead + c.body.length := by rw [hu]
      have e2 : u.size = (block lib false hidTabs d).length := by rw [hu]
      simp only [readTabs, e1, e2, hb1, Option.bind_some, hb2, Option.getD_some]
      rw [if_neg (by simpa using hne)]
    obtain ⟨sd, k1, k2⟩ := h.tabs
    refine ⟨⟨h.kind, idxUpd_diff c.idx signTabs none (fun us => us ++ [u]) h.diff, ?_, ⟨c.sd, ?_, by simp⟩, h.kdiff, h.knames, h.sdiff, h.snames, by simp, fun e he => h.nodes e (g1 e he), g2, ?_, ?_, fun hne e he => h.tabbed hne e (g1 e he)⟩, ?_, rfl, rfl, rfl, rfl⟩
    · show ∃ kd, readKeys lib (c.body ++ block lib false hidTabs d) [] (dictUnits (idxUpd c.idx signTabs none fun us => us ++ [u]) signKeys) = some kd ∧ _
      rw [sign_other _ _ _ (by decide), readKeys_append _ _ _ _ (within_dict h _)]
      exact h.keys
    · show readTabs lib (c.body ++ block lib false hidTabs d) [] (dictUnits (idxUpd c.idx signTabs none fun us => us ++ [u]) signTabs) = some c.sd
      rw [g4, readTabs_snoc, readTabs_append _ _ _ _ (within_dict h _), k1]
      simp only [Option.bind_some]
      rw [hread, loadTabs, if_neg (by omega), t1, k2]
    · intro v hv
      rw [sign_other _ _ _ (by decide)] at hv
      exact (h.kkind v hv).mono (within_dict h _ v hv) _
    · intro v hv
      simp only [g4] at hv
      rcases List.mem_append.1 hv with hv | hv
      · exact (h.tkind v hv).mono (within_dict h _ v hv) _
      · rw [List.mem_singleton.1 hv]
        have e1 : u.offset = mainHead + c.body.length := by rw [hu]
        have e2 : u.size = (block lib false hidTabs d).length := by rw [hu]
        have := readAt_block c.body (headByte 1 0 hidTabs) d [] hlen
        rw [List.append_nil] at this
        exact ⟨d, hne, by show (lib.parse d).length ≤ d.length; rw [t1, hd]; exact t3, by rw [e1, e2, block_plain']; exact this⟩
    · refine ⟨rfl, ⟨_, rfl⟩, ?_, rfl, fun _ hk => hk, fun e he => ⟨e.2, he⟩⟩
      intro n hnd
      exact view_mono h _ n _ rfl (g3 n hnd)

/-! ### Blocks of data -/

/-- The blocks that stay when one with the times `a` and `b` comes, as `keep` says. -/
def keepV (a b : Nat) (l : List (Nat × Nat × Option (Nat × Bytes))) : List (Nat × Nat × Option (Nat × Bytes)) :=
  if (a = 0 ∧ b = 0) ∨ a > b then [] else l.filter fun u => !mixed (dbl a) (dbl b) (dbl u.1) (dbl u.2.1)

theorem keep_map (win : IUnit) (us : List IUnit) (g : IUnit → Option (Nat × Bytes)) :
    (keep win us).map (fun u => (u.start, u.stop, g u)) = keepV win.start win.stop (us.map fun u => (u.start, u.stop, g u)) := by
  unfold keep keepV
  split
  · rfl
  · rw [List.filter_map]; rfl

/-- A block of data written. -/
theorem writeMsg_inv {lib : Lib} {P : Db → Prop} {c : Ctl} (h : Inv lib P c) {k : Bytes} {s : Option Bytes} (hk : k ∈ c.kd)
    (hs : ∀ t, s = some t → ∃ dbs, (t, dbs) ∈ c.sd) (hsn : c.kind ≠ .nots → s ≠ none) (hid ktype : Nat) (hkt : ktype < 256) (win : IUnit) (hw : win.sdict < 256) (ha : win.start < 2 ^ 64)
    (hb : win.stop < 2 ^ 64) (d : Bytes) (hsm : mainHead + (writeMsg lib c k s hid ktype win d).body.length < 2 ^ 64) :
    ∃ c', writeMsg lib c k s hid ktype win d = c' ∧ Inv lib P c' ∧ c'.kind = c.kind ∧ c'.kd = c.kd ∧ c'.newk = c.newk ∧ c'.sd = c.sd ∧
      c'.news = c.news ∧ c'.win.start = win.start ∧ c'.win.stop = win.stop ∧ c'.body = c.body ++ block lib true hid d ∧
      (∀ n, sameN n (nodeName k s) = false → view lib c' n = view lib c n) ∧
      (∀ n, sameN n (nodeName k s) = true → view lib c' n = some (keepV win.start win.stop ((view lib c n).getD []) ++
        [(win.start, win.stop, readSdb lib c'.body (mainHead + c.body.length) (block lib true hid d).length)])) := by
  obtain ⟨u, hu⟩ : ∃ u : IUnit, u = { win with ktype := ktype, fidx := 0, offset := mainHead + c.body.length, size := (block lib true hid d).length, active := (win.active + 1) % 256 } := ⟨_, rfl⟩
  obtain ⟨c1, hc1⟩ : ∃ c1 : Ctl, c1 = { c with body := c.body ++ [], idx := idxUpd c.idx k s (keep win), win := c.win } := ⟨_, rfl⟩
  obtain ⟨c2, hc2⟩ : ∃ c2 : Ctl, c2 = { c1 with body := c1.body ++ block lib true hid d, idx := idxUpd c1.idx k s (fun us => us ++ [u]), win := u } := ⟨_, rfl⟩
  have heq : writeMsg lib c k s hid ktype win d = c2 := by
    have hk1 : (c.kind != Kind.main) = true := h.kind
    simp only [writeMsg, writeWork, mergeSdb, Ctl.indexed, hk1, if_true, hc2, hc1, hu, List.append_nil]
  have hb1 : c1.body = c.body := by rw [hc1]; simp
  have hb2 : c2.body = c.body ++ block lib true hid d := by rw [hc2, ← hb1]
  rw [heq, hb2] at hsm
  simp only [List.length_append] at hsm
  have i1 : Inv lib P c1 := by
    rw [hc1]
    refine inv_upd h hk hs [] (keep win) ?_ ?_ c.win
    intro us hus v hv
    rw [List.append_nil]
    unfold keep at hv
    split at hv
    · cases hv
    · exact hus v (List.mem_filter.1 hv).1
    · exact hsn
  have hok : UnitOk (c.body ++ block lib true hid d) u := by
    rw [hu]
    refine ⟨⟨by show (win.active + 1) % 256 < 256; omega, hkt, hw, by show (0 : Nat) < 2 ^ 16; omega, ?_, ?_, ha, hb⟩, ?_, ?_⟩
    · show mainHead + c.body.length < 2 ^ 64; omega
    · show (block lib true hid d).length < 2 ^ 64; omega
    · show mainHead ≤ mainHead + c.body.length; omega
    · show mainHead + c.body.length - mainHead + (block lib true hid d).length ≤ (c.body ++ block lib true hid d).length
      simp only [List.length_append]; omega
  have i2 : Inv lib P c2 := by
    rw [hc2]
    refine inv_upd i1 (by rw [hc1]; exact hk) (by rw [hc1]; exact hs) _ (fun us => us ++ [u]) ?_ (by rw [hc1]; exact hsn) u
    intro us hus v hv
    rcases List.mem_append.1 hv with hv | hv
    · exact (hus v hv).mono _
    · rw [List.mem_singleton.1 hv, hb1]; exact hok
  have hi1 : c1.idx = idxUpd c.idx k s (keep win) := by rw [hc1]
  have hi2 : c2.idx = idxUpd c1.idx k s (fun us => us ++ [u]) := by rw [hc2]
  have hx : c2.kind = c.kind ∧ c2.kd = c.kd ∧ c2.newk = c.newk ∧ c2.sd = c.sd ∧ c2.news = c.news ∧ c2.win = u := by
    rw [hc2, hc1]; exact ⟨rfl, rfl, rfl, rfl, rfl, rfl⟩
  refine ⟨c2, heq, i2, hx.1, hx.2.1, hx.2.2.1, hx.2.2.2.1, hx.2.2.2.2.1, by rw [hx.2.2.2.2.2, hu], by rw [hx.2.2.2.2.2, hu], hb2, ?_, ?_⟩
  · intro n hn
    refine view_mono h _ n c2 hb2 ?_
    rw [hi2, getN_idxUpd, if_neg (by simp [hn]), hi1, getN_idxUpd, if_neg (by simp [hn])]
  · intro n hn
    have hv : view lib c n = view lib c (nodeName k s) := by
      unfold view; rw [getN_congr c.idx hn]
    unfold view at hv ⊢
    rw [hv, hi2, getN_idxUpd, if_pos hn, hi1, getN_idxUpd, if_pos (sameN_refl _)]
    simp only [Option.map_some, Option.getD_some, List.map_append, List.map_cons, List.map_nil]
    rw [show u.start = win.start by rw [hu], show u.stop = win.stop by rw [hu], show u.offset = mainHead + c.body.length by rw [hu],
      show u.size = (block lib true hid d).length by rw [hu]]
    congr 2
    rw [keep_map, hb2]
    congr 1
    cases hg : getN c.idx (nodeName k s) with
    | none => rfl
    | some nd =>
      simp only [Option.getD_some, Option.map_some]
      apply List.map_congr_left
      intro v hvm
      obtain ⟨i, e, h1, h2, _⟩ := getN_some hg
      have := h.units e (List.mem_of_getElem? h1) v (by rw [h2]; exact hvm)
      rw [readSdb_append _ this.2.2]

/-! ### Closing and opening -/

theorem flat_le {ps : List Bytes} {p : Bytes} (h : p ∈ ps) : p.length ≤ ps.flatten.length := by
  induction ps with
  | nil => cases h
  | cons a l ih =>
    rcases List.mem_cons.1 h with rfl | h
    · simp
    · have := ih h; rw [List.flatten_cons, List.length_append]; omega

theorem encPages_len {lib : Lib} (ns : List Node) : ∀ (mem : Bytes) (ps : List Bytes), encPages lib mem ns = some ps →
    ∀ n ∈ ns, ∃ b, encNode lib n = some b ∧ b.length ≤ ps.flatten.length := by
  have hmem : ∀ (ns : List Node) (mem : Bytes) (ps : List Bytes), encPages lib mem ns = some ps → mem.length ≤ ps.flatten.length := by
    intro ns
    induction ns with
    | nil =>
      intro mem ps h
      simp only [encPages, Option.some.injEq] at h
      rw [← h]
      split
      · rename_i hm; simp [hm]
      · simp
    | cons n ns ih =>
      intro mem ps h
      simp only [encPages] at h
      obtain ⟨b, hb, h⟩ := Option.bind_eq_some_iff.1 h
      split at h
      · obtain ⟨qs, _, rfl⟩ := Option.map_eq_some_iff.1 h
        simp
      · have := ih _ _ h
        simp at this
        simp
        omega
  induction ns with
  | nil => intro mem ps _ n hn; cases hn
  | cons n ns ih =>
    intro mem ps h x hx
    simp only [encPages] at h
    obtain ⟨b, hb, h⟩ := Option.bind_eq_some_iff.1 h
    split at h
    · obtain ⟨qs, hq, rfl⟩ := Option.map_eq_some_iff.1 h
      rcases List.mem_cons.1 hx with rfl | hx
      · exact ⟨b, hb, by simp; omega⟩
      · obtain ⟨b', h1, h2⟩ := ih _ _ hq x hx
        exact ⟨b', h1, by simp at h2 ⊢; omega⟩
    · rcases List.mem_cons.1 hx with rfl | hx
      · have := hmem ns (mem ++ b) ps (by assumption)
        exact ⟨b, hb, by simp at this ⊢; omega⟩
      · exact ih (mem ++ b) ps (by assumption) x hx

theorem flatMap_len {bs : List (UInt8 × Bytes)} {b : UInt8 × Bytes} (h : b ∈ bs) : b.2.length ≤ (bs.flatMap fun b => encRec b.1 b.2).length := by
  induction bs with
  | nil => cases h
  | cons a l ih =>
    simp only [List.flatMap_cons, List.length_append]
    rcases List.mem_cons.1 h with rfl | h
    · rw [encRec_len]; omega
    · have := ih h; omega

theorem flatMap_pages (ps : List Bytes) (h : UInt8) : ps.flatten.length ≤ ((ps.map fun p => (h, p)).flatMap fun b => encRec b.1 b.2).length := by
  induction ps with
  | nil => simp
  | cons p ps ih =>
    simp only [List.map_cons, List.flatMap_cons, List.flatten_cons, List.length_append]
    rw [encRec_len]; omega

theorem encRefs_len (us : List IUnit) : us.length ≤ (encRefs us).length := by
  have : us.length ≤ (us.flatMap encRef).length := by
    induction us with
    | nil => simp
    | cons u us ih =>
      have := catSsize_pos u.fidx
      simp only [List.length_cons, List.flatMap_cons, List.length_append, encRef]
      omega
  unfold encRefs
  simp only [List.length_append]
  omega

theorem tab_self {sd : TDict} (hd : sd.Pairwise fun a b => sameN a.1 b.1 = false) {e : Bytes × List Db} (h : e ∈ sd) :
    sd.find? (fun x => sameN e.1 x.1) = some e := by
  induction sd with
  | nil => cases h
  | cons o l ih =>
    rw [List.find?_cons]
    rcases List.mem_cons.1 h with rfl | h
    · rw [sameN_refl]
    · have := (List.pairwise_cons.1 hd).1 e h
      rw [sameN_comm] at this
      rw [this]
      exact ih (List.pairwise_cons.1 hd).2 h

/-- The index as a file and back. -/
theorem file_back {lib : Lib} (ht : lib.trace = false) {body : Bytes} {kd : List Bytes} {sd : TDict} {idx : Idx} (h : IdxOk lib body kd sd idx) :
    ∃ bs, encIdx lib idx = some bs ∧ (Readable (idxFile bs) →
      readIdx lib body (idxFile bs) = some ⟨kd, sd, dictNode idx signKeys ++ dictNode idx signTabs ++ data idx⟩) := by
  obtain ⟨bs, e1, e2, e3⟩ := idx_back ht h
  refine ⟨bs, e1, fun hf => ?_⟩
  have hlen : (bs.flatMap fun b => encRec b.1 b.2).length + 48 < 2 ^ 31 := by
    have : (idxFile bs).length = (bs.flatMap fun b => encRec b.1 b.2).length + 48 := by simp [idxFile]
    have h2 : (idxFile bs).length + 48 < 2 ^ 31 := hf.len
    omega
  unfold readIdx idxFile
  have hht : hidOf (headByte 1 0 hidTail) = 31 := by decide
  rw [readFull_smooth bs (fun b hb => ⟨(e3 b hb).1, (e3 b hb).2, by have := flatMap_len hb; omega⟩) _ hht (List.replicate 47 0) (by simp) hf.cut.prefix]
  exact e2

theorem data_back (idx : Idx) : data (dictNode idx signKeys ++ dictNode idx signTabs ++ data idx) = data idx := by
  have hz : ∀ sign, (sign = signKeys ∨ sign = signTabs) → data (dictNode idx sign) = [] := by
    intro sign hsg
    unfold dictNode
    cases getN idx sign with
    | none => rfl
    | some nd => rcases hsg with rfl | rfl <;> simp [data, show sameN signKeys signKeys = true by decide, show sameN signTabs signTabs = true by decide]
  unfold data at hz ⊢
  rw [List.filter_append, List.filter_append, hz _ (.inl rfl), hz _ (.inr rfl), List.filter_filter]
  simp

/-- The index of a file that is to be closed. -/
theorem inv_idxOk {lib : Lib} {P : Db → Prop} {c : Ctl} (h : Inv lib P c) (hk : c.newk = []) (hn : c.news = [])
    (hcnt : ∀ e ∈ data c.idx, e.2.units.length < 2 ^ 31) (hdu : ∀ sign, (sign = signKeys ∨ sign = signTabs) → (dictUnits c.idx sign).length < 2 ^ 31) :
    IdxOk lib c.body c.kd c.sd c.idx := by
  obtain ⟨kd, k1, k2⟩ := h.keys
  rw [hk, List.append_nil] at k2
  obtain ⟨sd, t1, t2⟩ := h.tabs
  rw [hn] at t2
  simp only [List.foldl_nil] at t2
  rw [← k2] at k1
  rw [← t2] at t1
  have hrange : ∀ n, ∀ u ∈ dictUnits c.idx n, InRange u := by
    intro n u hu
    obtain ⟨e, he, hu⟩ := dictUnits_mem hu
    exact (h.units e he u hu).1
  have hents : Entries c.kd c.sd (data c.idx) := by
    intro e he
    obtain ⟨k, s, hnm⟩ := h.nodes e he
    refine ⟨k, s, hnm.name, hnm.kname, hnm.sname, ?_, getKey_self h.kdiff hnm.key, ?_, hcnt e he, fun u hu => (h.units e (List.mem_filter.1 he).1 u hu).1⟩
    · have hkl := (h.knames k hnm.key).len
      rw [hnm.name]
      cases s with
      | none => simp [nodeName]; omega
      | some t =>
        obtain ⟨dbs, hdb⟩ := hnm.tab t rfl
        have := (h.snames _ hdb).1.len
        simp [nodeName]
        simp at this
        omega
    · intro t hst
      obtain ⟨dbs, hdb⟩ := hnm.tab t hst
      refine ⟨(h.snames _ hdb).1.ne, ?_⟩
      exact ⟨dbs, tab_self h.sdiff hdb⟩
  exact
    ⟨h.diff, hents, k1, t1, hdu _ (.inl rfl), hdu _ (.inr rfl), hrange _, hrange _⟩

/-- What is left of a file when it is closed and opened. -/
def reload (c : Ctl) : Ctl := { kind := c.kind, body := c.body, kd := c.kd, sd := c.sd, idx := dictNode c.idx signKeys ++ dictNode c.idx signTabs ++ data c.idx }

theorem inv_reload {lib : Lib} {P : Db → Prop} {c : Ctl} (h : Inv lib P c) (hk : c.newk = []) (hn : c.news = []) :
    Inv lib P (reload c) ∧ (∀ n, IsData n → getN (reload c).idx n = getN c.idx n) ∧ data (reload c).idx = data c.idx ∧
      ∀ sign, (sign = signKeys ∨ sign = signTabs) → dictUnits (reload c).idx sign = (dictUnits c.idx sign).map bare := by
  obtain ⟨kd, k1, k2⟩ := h.keys
  rw [hk, List.append_nil] at k2
  obtain ⟨sd, t1, t2⟩ := h.tabs
  rw [hn] at t2
  simp only [List.foldl_nil] at t2
  rw [← k2] at k1
  rw [← t2] at t1
  have hgd : ∀ n, IsData n → getN (dictNode c.idx signKeys ++ dictNode c.idx signTabs ++ data c.idx) n = getN c.idx n := by
    intro n hnd
    have hskip : ∀ (a b : Idx), (∀ e ∈ a, sameN n e.1 = false) → getN (a ++ b) n = getN b n := by
      intro a b ha
      unfold getN
      rw [List.find?_append, List.find?_eq_none.2 (by intro e he; simp [ha e he])]
      rfl
    have hin : ∀ sign, sameN n sign = false → ∀ x ∈ dictNode c.idx sign, sameN n x.1 = false := by
      intro sign hs x hx
      unfold dictNode at hx
      cases hg : getN c.idx sign with
      | none => rw [hg] at hx; simp at hx
      | some nd => rw [hg] at hx; simp at hx; rw [hx]; exact hs
    rw [List.append_assoc, hskip _ _ (hin _ (by rw [sameN_comm]; exact hnd.1)), hskip _ _ (hin _ (by rw [sameN_comm]; exact hnd.2))]
    unfold getN data
    rw [List.find?_filter]
    congr 1
    have hcg : ∀ l : List (Bytes × Node), (l.find? fun e => decide ((!sameN signKeys e.1 && !sameN signTabs e.1) = true ∧ sameN n e.1 = true)) = l.find? fun e => sameN n e.1 := by
      intro l
      congr 1
      funext e
      cases hs : sameN n e.1 with
      | false => simp
      | true =>
        have h1 := hnd.1
        have h2 := hnd.2
        rw [sameN_trans_r hs] at h1 h2
        simp [h1, h2]
    first
      | exact hcg c.idx
      | (rw [← hcg c.idx])
  have hdd := data_back c.idx
  have hdun : ∀ sign, (sign = signKeys ∨ sign = signTabs) → dictUnits (dictNode c.idx signKeys ++ dictNode c.idx signTabs ++ data c.idx) sign = (dictUnits c.idx sign).map bare := by
    intro sign hsg
    have hdat : ∀ e ∈ data c.idx, sameN sign e.1 = false := by
      intro e he
      have := (List.mem_filter.1 he).2
      simp only [Bool.and_eq_true, Bool.not_eq_true'] at this
      rcases hsg with rfl | rfl
      · exact this.1
      · exact this.2
    have hnd : getN (data c.idx) sign = none := getN_none.2 hdat
    unfold getN at hnd
    rw [Option.map_eq_none_iff] at hnd
    unfold dictUnits dictNode
    rcases hsg with rfl | rfl
    · cases h1 : getN c.idx signKeys <;> cases h2 : getN c.idx signTabs <;>
        simp [getN, hnd, show sameN signKeys signKeys = true by decide, show sameN signKeys signTabs = false by decide]
    · cases h1 : getN c.idx signKeys <;> cases h2 : getN c.idx signTabs <;>
        simp [getN, hnd, show sameN signTabs signTabs = true by decide, show sameN signTabs signKeys = false by decide]
  have hbare : ∀ u, UnitOk c.body u → UnitOk c.body (bare u) := by
    intro u hu
    exact ⟨⟨by show (0 : Nat) < 256; omega, by show (0 : Nat) < 256; omega, by show (0 : Nat) < 256; omega, hu.1.fidx, hu.1.offset, hu.1.size, by show (0 : Nat) < 2 ^ 64; omega, by show (0 : Nat) < 2 ^ 64; omega⟩, hu.2⟩
  refine ⟨?_, hgd, hdd, hdun⟩
  · unfold reload
    refine ⟨h.kind, ?_, ⟨c.kd, ?_, by simp⟩, ⟨c.sd, ?_, rfl⟩, h.kdiff, h.knames, h.sdiff, h.snames, by simp, ?_, ?_, ?_, ?_, ?_⟩
    rotate_right 3
    · simp only [hdun _ (.inl rfl)]
      intro u hu
      obtain ⟨v, hv, rfl⟩ := List.mem_map.1 hu
      exact h.kkind v hv
    · simp only [hdun _ (.inr rfl)]
      intro u hu
      obtain ⟨v, hv, rfl⟩ := List.mem_map.1 hu
      exact h.tkind v hv
    · intro hne e he
      simp only [hdd] at he
      exact h.tabbed hne e he
    · have hin : ∀ sign x, x ∈ dictNode c.idx sign → x.1 = sign := by
        intro sign x hx
        unfold dictNode at hx
        cases hg : getN c.idx sign with
        | none => rw [hg] at hx; simp at hx
        | some n => rw [hg] at hx; simp at hx; rw [hx]
      have hone : ∀ sign, (dictNode c.idx sign).Pairwise fun a b => sameN a.1 b.1 = false := by
        intro sign
        unfold dictNode
        cases getN c.idx sign <;> simp
      have hdat : ∀ x ∈ data c.idx, sameN signKeys x.1 = false ∧ sameN signTabs x.1 = false := by
        intro x hx
        simpa [data] using (List.mem_filter.1 hx).2
      show (dictNode c.idx signKeys ++ dictNode c.idx signTabs ++ data c.idx).Pairwise _
      rw [List.pairwise_append, List.pairwise_append]
      refine ⟨⟨hone _, hone _, ?_⟩, h.diff.filter _, ?_⟩
      · intro a ha b hb
        rw [hin _ _ ha, hin _ _ hb]; decide
      · intro a ha b hb
        rcases List.mem_append.1 ha with ha | ha
        · rw [hin _ _ ha]; exact (hdat b hb).1
        · rw [hin _ _ ha]; exact (hdat b hb).2
    · simp only [hdun _ (.inl rfl), readKeys_bare]; exact k1
    · simp only [hdun _ (.inr rfl), readTabs_bare]; exact t1
    · intro e he
      simp only [hdd] at he
      exact h.nodes e he
    · intro e he u hu
      rcases List.mem_append.1 he with he | he
      · have hh : ∀ sign, e ∈ dictNode c.idx sign → UnitOk c.body u := by
          intro sign he
          unfold dictNode at he
          cases hg : getN c.idx sign with
          | none => rw [hg] at he; simp at he
          | some nd =>
            rw [hg] at he
            simp at he
            rw [he] at hu
            obtain ⟨v, hv, rfl⟩ := List.mem_map.1 hu
            obtain ⟨i, o, h1, h2, _⟩ := getN_some hg
            exact hbare v (h.units o (List.mem_of_getElem? h1) v (by rw [h2]; exact hv))
        rcases List.mem_append.1 he with he | he
        · exact hh _ he
        · exact hh _ he
      · exact h.units e (List.mem_filter.1 he).1 u hu

/-- A file that is closed and opened again has what it had. -/
theorem unit_back {lib : Lib} {P : Db → Prop} (ht : lib.trace = false) {c : Ctl} (h : Inv lib P c) (hk : c.newk = []) (hn : c.news = [])
    {f : Bytes × Bytes} (hc : closeUnit lib c = some f) (hf : Readable f.2) :
    ∃ c', openUnit lib c.kind f = some c' ∧ Inv lib P c' ∧ c'.newk = [] ∧ c'.news = [] ∧ Ext lib { c with win := {} } c' ∧ c'.kd = c.kd ∧ c'.sd = c.sd ∧
      c'.body = c.body ∧ (∀ n, IsData n → getN c'.idx n = getN c.idx n) ∧ data c'.idx = data c.idx := by
  unfold closeUnit at hc
  obtain ⟨bs, hbs, hc⟩ := Option.bind_eq_some_iff.1 hc
  have hbn : bs ≠ [] := by intro e; rw [if_pos e] at hc; cases hc
  rw [if_neg hbn] at hc
  have hf1 : f = (c.body, idxFile bs) := (Option.some.inj hc).symm
  rw [hf1] at hf
  have hlen : (bs.flatMap fun b => encRec b.1 b.2).length + 48 < 2 ^ 31 := by
    have : (idxFile bs).length = (bs.flatMap fun b => encRec b.1 b.2).length + 48 := by simp [idxFile]
    have h2 : (idxFile bs).length + 48 < 2 ^ 31 := hf.len
    omega
  have hcnt : ∀ e ∈ data c.idx, e.2.units.length < 2 ^ 31 := by
    intro e he
    unfold encIdx at hbs
    obtain ⟨ps, hp, hb⟩ := Option.map_eq_some_iff.1 hbs
    obtain ⟨b, hb1, hb2⟩ := encPages_len _ _ _ hp e.2 (List.mem_map.2 ⟨e, he, rfl⟩)
    obtain ⟨k, s, hnm⟩ := h.nodes e he
    rw [encNode_eq ht (by rw [hnm.kname]; simp)] at hb1
    have := nodeBytes_units e.2
    rw [Option.some.inj hb1] at this
    have h3 := flatMap_pages ps (headByte 1 0 hidIdxMsg)
    rw [← hb] at hlen
    simp only [List.flatMap_append, List.length_append] at hlen
    omega
  have hdu : ∀ sign, (sign = signKeys ∨ sign = signTabs) → (dictUnits c.idx sign).length < 2 ^ 31 := by
    intro sign hsg
    unfold encIdx at hbs
    obtain ⟨ps, hp, hb⟩ := Option.map_eq_some_iff.1 hbs
    unfold dictUnits
    cases hg : getN c.idx sign with
    | none => simp
    | some nd =>
      simp only [Option.map_some, Option.getD_some]
      have h1 := encRefs_len nd.units
      have h2 : (encRefs nd.units).length ≤ (bs.flatMap fun b => encRec b.1 b.2).length := by
        rcases hsg with rfl | rfl
        · refine flatMap_len (b := (headByte 1 0 hidIdxKeys, encRefs nd.units)) ?_
          rw [← hb, hg]; simp
        · refine flatMap_len (b := (headByte 1 0 hidIdxTabs, encRefs nd.units)) ?_
          rw [← hb, hg]; simp
      omega
  have hiok := inv_idxOk h hk hn hcnt hdu
  obtain ⟨bs', e1, e2⟩ := file_back ht hiok
  rw [hbs] at e1
  have e1 := Option.some.inj e1
  subst e1
  have hread := e2 hf
  obtain ⟨g1, g2, g3, _⟩ := inv_reload h hk hn
  refine ⟨reload c, ?_, g1, rfl, rfl, ?_, rfl, rfl, rfl, g2, g3⟩
  · unfold openUnit
    rw [hf1, hread]
    rfl
  · refine ⟨rfl, ⟨[], by simp [reload]⟩, ?_, rfl, fun _ hk => hk, fun e he => ⟨e.2, he⟩⟩
    intro n hnd
    unfold view
    simp only [g2 n hnd]
    rfl

end Sis.Sdb
