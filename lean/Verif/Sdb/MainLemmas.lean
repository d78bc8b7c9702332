import Verif.Sdb.FileLemmas
/- Lemmas on the main file. -/
namespace Sis.Sdb
open Sis Sis.Disk
open Sis.Dyn (sameN getN setN Db sameN_iff sameN_refl getN_none getN_some setN_spec getN_congr)

theorem decMains_append (lib : Lib) (bs bs' : List (UInt8 × Bytes)) : ∀ c, decMains lib c (bs ++ bs') = (decMains lib c bs).bind fun c => decMains lib c bs' := by
  induction bs with
  | nil => intro c; rfl
  | cons b bs ih =>
    intro c
    simp only [List.cons_append, decMains]
    cases decMain lib c b with
    | none => rfl
    | some c => simp only [Option.bind_some]; exact ih c

/-- The main file between two calls. -/
structure MainInv (lib : Lib) (P : Db → Prop) (m : Ctl) : Prop where
  kind : m.kind = .main
  newk : m.newk = []
  news : m.news = []
  kdiff : m.kd.Pairwise fun a b => sameN a b = false
  knames : ∀ k ∈ m.kd, GoodKey k
  sdiff : m.sd.Pairwise fun a b => sameN a.1 b.1 = false
  snames : ∀ e ∈ m.sd, GoodTab e.1 ∧ e.2 ≠ [] ∧ ∀ db ∈ e.2, P db
  kcount : m.kd.length ≤ m.body.length
  scount : m.sd.length ≤ m.body.length
  win : m.win = {}
  idx : m.idx = []
  maps : ∀ e ∈ m.maps, e.2.active = 1 ∧ e.2.ktype < 256
  blocks : ∃ bs : List (UInt8 × Bytes), m.body = bs.flatMap (fun b => encRec b.1 b.2) ∧ (∀ b ∈ bs, hidOf b.1 ≠ 0 ∧ hidOf b.1 ≠ 31) ∧
    ∀ x, decMains lib { kind := .main, body := x } bs = some { kind := .main, body := x, kd := m.kd, sd := m.sd, maps := m.maps }

theorem main_new (lib : Lib) (P : Db → Prop) : MainInv lib P { kind := .main } :=
  ⟨rfl, rfl, rfl, by simp, by simp, by simp, by simp, by simp, by simp, rfl, rfl, by simp, [], rfl, by simp, fun _ => rfl⟩

/-- A main file that is not too large is read back. -/
theorem main_back {lib : Lib} {P : Db → Prop} {m : Ctl} (h : MainInv lib P m) (hs : Readable m.body) : openMain lib m.body = some m := by
  obtain ⟨bs, h1, h2, h3⟩ := h.blocks
  have hlen := hs.len
  unfold openMain withTail
  have hht : hidOf (headByte 1 0 hidTail) = 31 := by decide
  have hr := readFull_smooth bs (fun b hb => ⟨(h2 b hb).1, (h2 b hb).2, by have := flatMap_len hb; rw [← h1] at this; omega⟩) _ hht (List.replicate 47 0) (by simp) (by rw [← h1]; exact hs.cut)
  rw [← h1] at hr
  refine Option.bind_eq_some_iff.2 ⟨bs, hr, ?_⟩
  rw [h3]
  obtain ⟨kind, body, kd, newk, sd, news, idx, maps, win⟩ := m
  obtain ⟨g1, g2, g3, _, _, _, _, _, _, g4, g5, _, _⟩ := h
  simp only at g1 g2 g3 g4 g5
  subst g1 g2 g3 g4 g5
  rfl

theorem block_plain (lib : Lib) (hid : Nat) (d : Bytes) : block lib false hid d = encRec (headByte 1 0 hid) d := by
  simp [block, packed]

/-- What a sequence of keys does to a dictionary. -/
theorem foldl_setKey (ks : List Bytes) : ∀ c : Ctl, (c.kd.Pairwise fun a b => sameN a b = false) →
    ∃ nk, ks.foldl setKey c = { c with kd := c.kd ++ nk, newk := c.newk ++ nk } ∧ (∀ k ∈ nk, k ∈ ks) ∧ ks.foldl addKey c.kd = c.kd ++ nk ∧
      ((c.kd ++ nk).Pairwise fun a b => sameN a b = false) ∧ (∀ k ∈ ks, ∃ n ∈ c.kd ++ nk, sameN k n = true) := by
  induction ks with
  | nil => intro c hc; exact ⟨[], by simp, by simp, by simp, by simpa using hc, by simp⟩
  | cons k ks ih =>
    intro c hc
    simp only [List.foldl_cons]
    by_cases hk : (getKey c.kd k).isSome = true
    · obtain ⟨nk, h1, h2, h3, h4, h5⟩ := ih c hc
      refine ⟨nk, by rw [setKey, if_pos hk, h1], fun x hx => by simp [h2 x hx], by rw [addKey, if_pos hk, h3], h4, ?_⟩
      intro x hx
      rcases List.mem_cons.1 hx with rfl | hx
      · obtain ⟨n, hn, hs⟩ := getKey_isSome.1 hk
        exact ⟨n, by simp [hn], hs⟩
      · exact h5 x hx
    · have hn : getKey c.kd k = none := by
        cases hg : getKey c.kd k with
        | none => rfl
        | some _ => rw [hg] at hk; simp at hk
      have hc' : (c.kd ++ [k]).Pairwise fun a b => sameN a b = false := by
        rw [List.pairwise_append]
        refine ⟨hc, by simp, ?_⟩
        intro a ha b hb
        rw [List.mem_singleton.1 hb, sameN_comm]
        exact getKey_none.1 hn a ha
      obtain ⟨nk, h1, h2, h3, h4, h5⟩ := ih { c with kd := c.kd ++ [k], newk := c.newk ++ [k] } hc'
      refine ⟨k :: nk, ?_, ?_, ?_, ?_, ?_⟩
      · rw [setKey, if_neg hk, h1]; simp
      · intro x hx
        rcases List.mem_cons.1 hx with rfl | hx
        · simp
        · simp [h2 x hx]
      · rw [addKey, if_neg hk, h3]; simp
      · simpa using h4
      · intro x hx
        rcases List.mem_cons.1 hx with rfl | hx
        · exact ⟨x, by simp, sameN_refl x⟩
        · obtain ⟨n, hn, hs⟩ := h5 x hx
          exact ⟨n, by simpa using hn, hs⟩

theorem joinNames_len {ks : List Bytes} (h : ∀ k ∈ ks, GoodKey k) : ks.length ≤ (joinNames ks).length := by
  induction ks with
  | nil => simp
  | cons k ks ih =>
    have h1 : 1 ≤ k.length := by
      have := (h k (by simp)).ne
      cases k with
      | nil => exact absurd rfl this
      | cons _ _ => simp
    cases ks with
    | nil => simpa [joinNames] using h1
    | cons k' ks =>
      have := ih fun x hx => h x (by simp [hx])
      simp only [joinNames, List.length_cons, List.length_append] at this ⊢
      omega

/-- Keys are added to the main file. -/
theorem main_keys {lib : Lib} {P : Db → Prop} {m : Ctl} (h : MainInv lib P m) (ks : List Bytes) (hk : ∀ k ∈ ks, GoodKey k) :
    ∃ m', writeKeys lib (ks.foldl setKey m) = m' ∧ MainInv lib P m' ∧ m'.kd = ks.foldl addKey m.kd ∧ m'.sd = m.sd ∧ m'.maps = m.maps ∧
      (∃ nk, m'.kd = m.kd ++ nk ∧ ∀ k ∈ nk, k ∈ ks) ∧ (∀ k ∈ ks, ∃ n ∈ m'.kd, sameN k n = true) ∧ ∃ x, m'.body = m.body ++ x := by
  obtain ⟨nk, h1, h2, h3, h4, h5⟩ := foldl_setKey ks m h.kdiff
  have hgood : ∀ k ∈ nk, GoodKey k := fun k hx => hk k (h2 k hx)
  rw [h1, h.newk, List.nil_append]
  by_cases hn : nk = []
  · refine ⟨m, ?_, h, by rw [h3, hn, List.append_nil], rfl, rfl, ⟨nk, by simp [hn], h2⟩, by rw [hn, List.append_nil] at h5; exact h5, [], by simp⟩
    have := h.newk
    subst hn
    obtain ⟨kind, body, kd, newk, sd, news, idx, maps, win⟩ := m
    simp only at this
    subst this
    simp [writeKeys]
  · obtain ⟨d, hd⟩ : ∃ d, d = joinNames nk := ⟨_, rfl⟩
    have hix : ({ m with kd := m.kd ++ nk, newk := nk } : Ctl).indexed = false := by simp [Ctl.indexed, h.kind]
    have heq : writeKeys lib { m with kd := m.kd ++ nk, newk := nk } = { m with body := m.body ++ encRec (headByte 1 0 hidKeys) d, kd := m.kd ++ nk } := by
      unfold writeKeys writeWork
      rw [if_neg hn, hix, if_neg (by simp), block_plain, hd]
      simp only
      rw [← h.newk]
    rw [heq]
    obtain ⟨bs, b1, b2, b3⟩ := h.blocks
    have hhid : hidOf (headByte 1 0 hidKeys) = hidKeys := hidOf_head (by omega) (by decide)
    refine ⟨_, rfl, ⟨h.kind, h.newk, h.news, h4, ?_, h.sdiff, h.snames, ?_, ?_, h.win, h.idx, h.maps, bs ++ [(headByte 1 0 hidKeys, d)], ?_, ?_, ?_⟩, h3.symm, rfl, rfl, ⟨nk, rfl, h2⟩, h5, _, rfl⟩
    · intro k hx
      rcases List.mem_append.1 hx with hx | hx
      · exact h.knames k hx
      · exact hgood k hx
    · have := h.kcount
      have h6 := joinNames_len hgood
      rw [← hd] at h6
      have h7 := encRec_len (headByte 1 0 hidKeys) d
      simp only [List.length_append]
      omega
    · have := h.scount
      simp only [List.length_append]
      omega
    · simp only [List.flatMap_append, List.flatMap_cons, List.flatMap_nil, List.append_nil]
      rw [← b1]
    · intro b hb
      rcases List.mem_append.1 hb with hb | hb
      · exact b2 b hb
      · rw [List.mem_singleton.1 hb, hhid]; exact ⟨by decide, by decide⟩
    · intro x
      rw [decMains_append, b3]
      simp only [Option.bind_some, decMains, decMain, hhid, if_true]
      rw [hd, loadKeys, splitNames_join _ hgood, loadKeys_new _ _ h4]

theorem addTab_P {P : Db → Prop} {sd : TDict} {t : Tab} (h : ∀ e ∈ sd, GoodTab e.1 ∧ e.2 ≠ [] ∧ ∀ db ∈ e.2, P db) (ht : GoodTab t.name) (hp : P t.db) :
    ∀ e ∈ (addTab sd t).1, GoodTab e.1 ∧ e.2 ≠ [] ∧ ∀ db ∈ e.2, P db := by
  intro e he
  unfold addTab at he
  split at he
  · rcases mem_setN he with he | ⟨he, _⟩ | ⟨o, ho, _, _, he⟩
    · exact h e he
    · rw [he]; exact ⟨ht, by simp, by intro db hdb; rw [List.mem_singleton.1 hdb]; exact hp⟩
    · rw [he]; exact ⟨(h o ho).1, by simp, by intro db hdb; rw [List.mem_singleton.1 hdb]; exact hp⟩
  · rename_i dbs hg
    obtain ⟨i, o', g1, g2, _⟩ := getN_some hg
    have hin : ∀ db ∈ dbs ++ [t.db], P db := by
      intro db hdb
      rcases List.mem_append.1 hdb with hdb | hdb
      · exact (h o' (List.mem_of_getElem? g1)).2.2 db (by rw [g2]; exact hdb)
      · rw [List.mem_singleton.1 hdb]; exact hp
    split at he
    · rcases mem_setN he with he | ⟨he, _⟩ | ⟨o, ho, _, _, he⟩
      · exact h e he
      · rw [he]; exact ⟨ht, by simp, hin⟩
      · rw [he]; exact ⟨(h o ho).1, by simp, hin⟩
    · exact h e he

theorem setN_len {α : Type} (l : List (Bytes × α)) (k : Bytes) (v : α) : (setN l k v).1.length ≤ l.length + 1 := by
  induction l with
  | nil => simp [setN]
  | cons e l ih =>
    unfold setN
    split
    · simp
    · simp only [List.length_cons]; omega

theorem addTab_len (sd : TDict) (t : Tab) : (addTab sd t).1.length ≤ sd.length + 1 := by
  unfold addTab
  split
  · exact setN_len _ _ _
  · split
    · exact setN_len _ _ _
    · simp

/-- What a sequence of tables does to a dictionary. -/
theorem foldl_setTab (ts : List Tab) : ∀ c : Ctl, (ts.Pairwise fun a b => sameN a.name b.name = false) → (∀ n ∈ c.news, ∀ t ∈ ts, sameN n.name t.name = false) →
    ∃ nt, ts.foldl setTab c = { c with sd := nt.foldl (fun sd t => (addTab sd t).1) c.sd, news := c.news ++ nt } ∧ (∀ t ∈ nt, t ∈ ts) ∧
      ts.foldl (fun sd t => (addTab sd t).1) c.sd = nt.foldl (fun sd t => (addTab sd t).1) c.sd := by
  induction ts with
  | nil => intro c _ _; exact ⟨[], by simp, by simp, rfl⟩
  | cons t ts ih =>
    intro c hd hn
    simp only [List.foldl_cons]
    obtain ⟨hd1, hd2⟩ := List.pairwise_cons.1 hd
    have hf : c.news.filter (fun n => !sameN n.name t.name) = c.news := by
      rw [List.filter_eq_self]; intro n hx; simp [hn n hx t (by simp)]
    by_cases hnew : (addTab c.sd t).2 = true
    · obtain ⟨nt, h1, h2, h3⟩ := ih { c with sd := (addTab c.sd t).1, news := c.news ++ [t] } hd2 (by
        intro n hx x hxt
        rcases List.mem_append.1 hx with hx | hx
        · exact hn n hx x (by simp [hxt])
        · rw [List.mem_singleton.1 hx]; exact hd1 x hxt)
      refine ⟨t :: nt, ?_, ?_, ?_⟩
      · rw [setTab, if_pos hnew, hf, h1]; simp
      · intro x hx
        rcases List.mem_cons.1 hx with rfl | hx
        · simp
        · simp [h2 x hx]
      · simpa using h3
    · have hsame : (addTab c.sd t).1 = c.sd := by
        unfold addTab at hnew ⊢
        split
        · rename_i hg; rw [hg] at hnew; simp at hnew
        · rename_i dbs hg
          rw [hg] at hnew
          simp only at hnew
          split
          · rename_i hi; rw [if_pos hi] at hnew; simp at hnew
          · rfl
      obtain ⟨nt, h1, h2, h3⟩ := ih c hd2 (fun n hx x hxt => hn n hx x (by simp [hxt]))
      refine ⟨nt, by rw [setTab, if_neg hnew, h1], fun x hx => by simp [h2 x hx], by rw [hsame]; exact h3⟩

theorem foldl_addTab {P : Db → Prop} (ts : List Tab) (ht : ∀ t ∈ ts, GoodTab t.name ∧ P t.db) : ∀ sd : TDict,
    (sd.Pairwise fun a b => sameN a.1 b.1 = false) → (∀ e ∈ sd, GoodTab e.1 ∧ e.2 ≠ [] ∧ ∀ db ∈ e.2, P db) →
    ((ts.foldl (fun sd t => (addTab sd t).1) sd).Pairwise fun a b => sameN a.1 b.1 = false) ∧
      (∀ e ∈ ts.foldl (fun sd t => (addTab sd t).1) sd, GoodTab e.1 ∧ e.2 ≠ [] ∧ ∀ db ∈ e.2, P db) ∧
      (ts.foldl (fun sd t => (addTab sd t).1) sd).length ≤ sd.length + ts.length ∧
      ∀ e ∈ sd, ∃ d, (e.1, d) ∈ ts.foldl (fun sd t => (addTab sd t).1) sd := by
  induction ts with
  | nil => intro sd h1 h2; exact ⟨h1, h2, by simp, fun e he => ⟨e.2, he⟩⟩
  | cons t ts ih =>
    intro sd h1 h2
    obtain ⟨a, b, c, d⟩ := ih (fun t hx => ht t (by simp [hx])) (addTab sd t).1 (addTab_diff _ _ h1) (addTab_P h2 (ht t (by simp)).1 (ht t (by simp)).2)
    refine ⟨a, b, ?_, ?_⟩
    · have := addTab_len sd t
      simp only [List.foldl_cons, List.length_cons]
      omega
    · intro e he
      obtain ⟨x, hx⟩ := addTab_keeps sd t he
      exact d (e.1, x) hx

/-- Tables are added to the main file. -/
theorem main_tabs {lib : Lib} {P : Db → Prop} (T : TextOk lib P) {m : Ctl} (h : MainInv lib P m) (ts : List Tab) (ht : ∀ t ∈ ts, GoodTab t.name ∧ P t.db)
    (hd : ts.Pairwise fun a b => sameN a.name b.name = false) :
    ∃ m', writeTabs lib (ts.foldl setTab m) = m' ∧ MainInv lib P m' ∧ m'.kd = m.kd ∧ m'.sd = ts.foldl (fun sd t => (addTab sd t).1) m.sd ∧ m'.maps = m.maps ∧
      ∃ x, m'.body = m.body ++ x := by
  obtain ⟨nt, h1, h2, h3⟩ := foldl_setTab ts m hd (by rw [h.news]; simp)
  have hgood : ∀ t ∈ nt, GoodTab t.name ∧ P t.db := fun t hx => ht t (h2 t hx)
  rw [h1, h.news, List.nil_append]
  by_cases hn : nt = []
  · refine ⟨m, ?_, h, rfl, by rw [h3, hn]; rfl, rfl, [], by simp⟩
    have := h.news
    subst hn
    obtain ⟨kind, body, kd, newk, sd, news, idx, maps, win⟩ := m
    simp only at this
    subst this
    simp [writeTabs]
  · obtain ⟨sd', hsd⟩ : ∃ sd', sd' = nt.foldl (fun sd t => (addTab sd t).1) m.sd := ⟨_, rfl⟩
    rw [← hsd]
    obtain ⟨d, hdd⟩ : ∃ d, d = lib.text nt := ⟨_, rfl⟩
    have hix : ({ m with sd := sd', news := nt } : Ctl).indexed = false := by simp [Ctl.indexed, h.kind]
    have heq : writeTabs lib { m with sd := sd', news := nt } = { m with body := m.body ++ encRec (headByte 1 0 hidTabs) d, sd := sd' } := by
      unfold writeTabs writeWork
      rw [if_neg hn, hix, if_neg (by simp), block_plain, hdd]
      simp only
      rw [← h.news]
    rw [heq]
    obtain ⟨t1, t2, t3⟩ := T.back nt hn hgood
    rw [← hdd] at t1 t2 t3
    obtain ⟨bs, b1, b2, b3⟩ := h.blocks
    obtain ⟨f1, f2, f3, _⟩ := foldl_addTab nt hgood m.sd h.sdiff h.snames
    rw [← hsd] at f1 f2 f3
    have hhid : hidOf (headByte 1 0 hidTabs) = hidTabs := hidOf_head (by omega) (by decide)
    have h7 := encRec_len (headByte 1 0 hidTabs) d
    refine ⟨_, rfl, ⟨h.kind, h.newk, h.news, h.kdiff, h.knames, f1, f2, ?_, ?_, h.win, h.idx, h.maps, bs ++ [(headByte 1 0 hidTabs, d)], ?_, ?_, ?_⟩, rfl, by rw [h3, hsd], rfl, _, rfl⟩
    · have := h.kcount
      simp only [List.length_append]
      omega
    · have := h.scount
      simp only [List.length_append]
      omega
    · simp only [List.flatMap_append, List.flatMap_cons, List.flatMap_nil, List.append_nil]
      rw [← b1]
    · intro b hb
      rcases List.mem_append.1 hb with hb | hb
      · exact b2 b hb
      · rw [List.mem_singleton.1 hb, hhid]; exact ⟨by decide, by decide⟩
    · intro x
      rw [decMains_append, b3]
      simp only [Option.bind_some, decMains, decMain, hhid, show hidTabs ≠ hidKeys by decide, if_true, if_false]
      rw [loadTabs, if_neg (by omega), t1, hsd]

theorem setDay_nil (d v : Nat) : setDay [] d v = [(d, v)] := rfl

/-- A mark is added to the main file. -/
theorem main_map {lib : Lib} {P : Db → Prop} {m : Ctl} (h : MainInv lib P m) {k : Bytes} {i : Nat} (hk : m.kd[i]? = some k) (s : Option (Bytes × Nat))
    (hs : ∀ e, s = some e → ∃ dbs, m.sd[e.2]? = some (e.1, dbs)) (ktype : Nat) (hkt : ktype < 256) (day : Nat) (hday : day < 2 ^ 32)
    (hsm : m.body.length < 2 ^ 31) :
    ∃ m', writeMap lib m (k, i) s ktype day false = m' ∧ MainInv lib P m' ∧ m'.kd = m.kd ∧ m'.sd = m.sd ∧ (∃ x, m'.body = m.body ++ x) ∧
      m'.maps = (match getN m.maps (shortName k (s.map (·.1))) with
        | none => (setN m.maps (shortName k (s.map (·.1))) ⟨1, ktype, [(day, 1)]⟩).1
        | some e => match getDay e.days day with
          | none => (setN m.maps (shortName k (s.map (·.1))) { e with days := setDay e.days day 1 }).1
          | some _ => m.maps) := by
  have hil : i < 2 ^ 31 := by
    have h1 := (List.getElem?_eq_some_iff.1 hk).1
    have h2 := h.kcount
    omega
  have hix : m.indexed = false := by simp [Ctl.indexed, h.kind]
  obtain ⟨bs, b1, b2, b3⟩ := h.blocks
  have hhid : hidOf (headByte 1 0 hidMap) = hidMap := hidOf_head (by omega) (by decide)
  obtain ⟨name, hname⟩ : ∃ n, n = shortName k (s.map (·.1)) := ⟨_, rfl⟩
  have hsi2 : tabRef (s.map (·.2)) ≤ 2 ^ 31 ∧ (if 0 < tabRef (s.map (·.2)) % 2 ^ 32 ∧ tabRef (s.map (·.2)) % 2 ^ 32 ≤ 2 ^ 31 then
      (m.sd[tabRef (s.map (·.2)) % 2 ^ 32 - 1]?).map (·.1) else none) = s.map (·.1) := by
    cases s with
    | none => simp [tabRef]
    | some e =>
      obtain ⟨dbs, hd⟩ := hs e rfl
      have h1 := (List.getElem?_eq_some_iff.1 hd).1
      have h2 := h.scount
      have e1 : tabRef ((some e).map (·.2)) = e.2 + 1 := rfl
      rw [e1]
      refine ⟨by omega, ?_⟩
      rw [Nat.mod_eq_of_lt (by omega), if_pos (by omega), show e.2 + 1 - 1 = e.2 by omega, hd]
      rfl
  generalize hsi : tabRef (s.map (·.2)) = si at hsi2
  have hstep : ∀ (e : MapE) (x : Bytes) (maps : List (Bytes × MapE)), e.active = 1 → e.ktype < 256 →
      decMain lib { kind := .main, body := x, kd := m.kd, sd := m.sd, maps := maps } (headByte 1 0 hidMap, encMap i (s.map (·.2)) e day 1) =
        some { kind := .main, body := x, kd := m.kd, sd := m.sd, maps := (match getN maps name with
          | some e => (setN maps name { e with days := setDay e.days day 1 }).1
          | none => (setN maps name ⟨1, e.ktype, [(day, 1)]⟩).1) } := by
    intro e x maps ha hkt
    unfold decMain encMap
    rw [hsi]
    simp only [hhid, show hidMap ≠ hidKeys by decide, show hidMap ≠ hidTabs by decide, if_true, if_false, List.append_assoc]
    rw [ha]
    refine Option.bind_eq_some_iff.2 ⟨(i, _), C01_ssize_roundtrip i (by omega) _, ?_⟩
    refine Option.bind_eq_some_iff.2 ⟨(si, _), C01_ssize_roundtrip si (by omega) _, ?_⟩
    refine Option.bind_eq_some_iff.2 ⟨k, ?_, ?_⟩
    · dsimp only
      rw [Nat.mod_eq_of_lt (show i < 2 ^ 32 by omega), if_pos hil, hk]
    dsimp only
    rw [hsi2.2, ← hname]
    refine Option.bind_eq_some_iff.2 ⟨(1, _), getByte1 1 _ (by omega), ?_⟩
    refine Option.bind_eq_some_iff.2 ⟨(e.ktype, _), getByte1 _ _ hkt, ?_⟩
    refine Option.bind_eq_some_iff.2 ⟨(1, _), C01_ssize_roundtrip 1 (by omega) _, ?_⟩
    have hday2 : decDays (asCount 1) [] (catByte 1 1 ++ catSsize day) = some [(day, 1)] := by
      show decDays 1 [] _ = _
      unfold decDays
      refine Option.bind_eq_some_iff.2 ⟨(1, _), getByte1 1 _ (by omega), ?_⟩
      refine Option.bind_eq_some_iff.2 ⟨(day, []), ?_, ?_⟩
      · have := C01_ssize_roundtrip day (by omega) []
        rwa [List.append_nil] at this
      · dsimp only
        rw [Nat.mod_eq_of_lt hday]
        rfl
    dsimp only
    rw [hday2]
    cases getN maps name <;> rfl
  have hadd : ∀ (e : MapE) (maps : List (Bytes × MapE)), e.active = 1 → e.ktype < 256 →
      maps = (match getN m.maps name with
          | some e => (setN m.maps name { e with days := setDay e.days day 1 }).1
          | none => (setN m.maps name ⟨1, e.ktype, [(day, 1)]⟩).1) →
      MainInv lib P { m with body := m.body ++ encRec (headByte 1 0 hidMap) (encMap i (s.map (·.2)) e day 1), maps := maps } := by
    intro e maps ha hkt hm
    refine ⟨h.kind, h.newk, h.news, h.kdiff, h.knames, h.sdiff, h.snames, ?_, ?_, h.win, h.idx, ?_, bs ++ [(headByte 1 0 hidMap, encMap i (s.map (·.2)) e day 1)], ?_, ?_, ?_⟩
    · have := h.kcount
      simp only [List.length_append]
      omega
    · have := h.scount
      simp only [List.length_append]
      omega
    · intro x hx
      simp only at hx
      rw [hm] at hx
      cases hg : getN m.maps name with
      | none =>
        rw [hg] at hx
        rcases mem_setN hx with hx | ⟨hx, _⟩ | ⟨o, ho, _, _, hx⟩
        · exact h.maps x hx
        · rw [hx]; exact ⟨rfl, hkt⟩
        · rw [hx]; exact ⟨rfl, hkt⟩
      | some y =>
        rw [hg] at hx
        obtain ⟨_, z, z1, z2, _⟩ := getN_some hg
        have hz := h.maps z (List.mem_of_getElem? z1)
        rw [z2] at hz
        rcases mem_setN hx with hx | ⟨hx, _⟩ | ⟨o, ho, _, _, hx⟩
        · exact h.maps x hx
        · rw [hx]; exact hz
        · rw [hx]; exact hz
    · simp only [List.flatMap_append, List.flatMap_cons, List.flatMap_nil, List.append_nil]
      rw [← b1]
    · intro b hb
      rcases List.mem_append.1 hb with hb | hb
      · exact b2 b hb
      · rw [List.mem_singleton.1 hb, hhid]; exact ⟨by decide, by decide⟩
    · intro x
      rw [decMains_append, b3]
      simp only [Option.bind_some, decMains]
      rw [hstep e x m.maps ha hkt, hm]
      rfl
  have hwork : ∀ d, (writeWork lib m false k none hidMap m.win d).1 = { m with body := m.body ++ encRec (headByte 1 0 hidMap) d } := by
    intro d
    unfold writeWork
    rw [hix, if_neg (by simp), block_plain]
  unfold writeMap
  simp only
  rw [← hname]
  cases hg : getN m.maps name with
  | none =>
    simp only [Bool.false_eq_true, if_false]
    rw [hwork]
    refine ⟨_, rfl, hadd ⟨1, ktype, [(day, 1)]⟩ _ rfl hkt (by rw [hg]), rfl, rfl, ⟨_, rfl⟩, rfl⟩
  | some e =>
    obtain ⟨_, z, z1, z2, _⟩ := getN_some hg
    have hz := h.maps z (List.mem_of_getElem? z1)
    rw [z2] at hz
    simp only [Bool.false_eq_true, if_false]
    cases hd : getDay e.days day with
    | none =>
      simp only
      rw [hwork]
      refine ⟨_, rfl, hadd { e with days := setDay e.days day 1 } _ hz.1 hz.2 (by rw [hg]), rfl, rfl, ⟨_, rfl⟩, rfl⟩
    | some _ =>
      refine ⟨m, rfl, h, rfl, rfl, ⟨[], by simp⟩, rfl⟩

end Sis.Sdb
