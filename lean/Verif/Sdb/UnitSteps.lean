import Verif.Sdb.MainLemmas
import Verif.Sdb.Writer
/- What one write does to a data file. -/
namespace Sis.Sdb
open Sis Sis.Disk
open Sis.Dyn (sameN getN setN Db sameN_iff sameN_refl getN_none getN_some setN_spec getN_congr)

abbrev Blocks := List (Nat × Nat × Option (Nat × Bytes))

/-- A data file that is open, with dictionaries that may not be in the file yet. -/
structure Pre (lib : Lib) (P : Db → Prop) (u : Uid) (c : Ctl) : Prop where
  inv : Inv lib P c
  kind : c.kind = u.kind
  pdbs : ∀ e ∈ c.sd, ∀ db ∈ e.2, P db
  win : u = .nots → c.win.start = 0 ∧ c.win.stop = 0
  kc : c.kd.length ≤ c.body.length + c.newk.length
  sc : c.sd.length ≤ c.body.length + c.news.length

/-- The same with dictionaries that are in the file. -/
structure UOk (lib : Lib) (P : Db → Prop) (u : Uid) (c : Ctl) : Prop extends Pre lib P u c where
  newk : c.newk = []
  news : c.news = []

theorem inv_new (lib : Lib) (P : Db → Prop) {kind : Kind} (h : kind ≠ .main) : Inv lib P { kind := kind } where
  kind := by simp [Ctl.indexed, h]
  diff := by simp
  keys := ⟨[], rfl, rfl⟩
  tabs := ⟨[], rfl, rfl⟩
  kdiff := by simp
  knames := by simp
  sdiff := by simp
  snames := by simp
  news := by simp
  nodes := by intro e he; simp [data] at he
  units := by simp
  kkind := by simp [dictUnits, getN]
  tkind := by simp [dictUnits, getN]
  tabbed := by intro _ e he; simp [data] at he

theorem Uid.kind_ne (u : Uid) : u.kind ≠ .main := by cases u <;> simp [Uid.kind]

theorem uok_new (lib : Lib) (P : Db → Prop) (u : Uid) : UOk lib P u { kind := u.kind } :=
  ⟨⟨inv_new lib P u.kind_ne, rfl, by simp, fun _ => ⟨rfl, rfl⟩, by simp, by simp⟩, rfl, rfl⟩

theorem setKey_pre {lib : Lib} {P : Db → Prop} {u : Uid} {c : Ctl} (h : Pre lib P u c) {k : Bytes} (hk : GoodKey k) :
    Pre lib P u (setKey c k) ∧ Ext lib c (setKey c k) ∧ (setKey c k).news = c.news ∧ (setKey c k).sd = c.sd ∧ (∃ n ∈ (setKey c k).kd, sameN k n = true) ∧
      (setKey c k).body = c.body := by
  obtain ⟨h1, h2, h3, h4, h5⟩ := setKey_inv h.inv hk
  have hb : (setKey c k).body = c.body := by unfold setKey; split <;> rfl
  refine ⟨⟨h1, h2.kind.trans h.kind, by rw [h4]; exact h.pdbs, by rw [h2.win]; exact h.win, ?_, ?_⟩, h2, h3, h4, h5, hb⟩
  · have := h.kc
    unfold setKey
    split
    · exact this
    · simp only [List.length_append, List.length_singleton]; omega
  · rw [h4, h3, hb]; exact h.sc

theorem setKeys_pre {lib : Lib} {P : Db → Prop} {u : Uid} (ks : List Bytes) (hk : ∀ k ∈ ks, GoodKey k) : ∀ c : Ctl, Pre lib P u c →
    Pre lib P u (ks.foldl setKey c) ∧ Ext lib c (ks.foldl setKey c) ∧ (ks.foldl setKey c).news = c.news ∧ (ks.foldl setKey c).sd = c.sd ∧
      (∀ k ∈ ks, ∃ n ∈ (ks.foldl setKey c).kd, sameN k n = true) ∧ (ks.foldl setKey c).body = c.body := by
  induction ks with
  | nil => intro c h; exact ⟨h, Ext.refl lib c, rfl, rfl, by simp, rfl⟩
  | cons k ks ih =>
    intro c h
    obtain ⟨h1, h2, h3, h4, h5, h6⟩ := setKey_pre h (hk k (by simp))
    obtain ⟨g1, g2, g3, g4, g5, g6⟩ := ih (fun x hx => hk x (by simp [hx])) _ h1
    refine ⟨g1, h2.trans g2, g3.trans h3, g4.trans h4, ?_, g6.trans h6⟩
    intro x hx
    rcases List.mem_cons.1 hx with rfl | hx
    · obtain ⟨n, hn, hs⟩ := h5
      exact ⟨n, g2.keys n hn, hs⟩
    · exact g5 x hx

theorem getN_addTab (sd : TDict) (t : Tab) (n : Bytes) :
    (sameN n t.name = false → getN (addTab sd t).1 n = getN sd n) ∧
      (sameN n t.name = true → ∃ dbs l, getN (addTab sd t).1 n = some dbs ∧ dbs.getLast? = some l ∧ (l = t.db ∨ (sameDb l t.db = true ∧ getN sd n = some dbs))) := by
  constructor
  · intro h
    unfold addTab
    split
    · rw [getN_setN, if_neg (by simp [h])]
    · split
      · rw [getN_setN, if_neg (by simp [h])]
      · rfl
  · intro h
    unfold addTab
    split
    · exact ⟨[t.db], t.db, by rw [getN_setN, if_pos h], rfl, .inl rfl⟩
    · rename_i dbs hg
      split
      · exact ⟨dbs ++ [t.db], t.db, by rw [getN_setN, if_pos h], by simp, .inl rfl⟩
      · rename_i hi
        rw [← getN_congr _ h] at hg
        unfold isNew at hi
        cases hl : dbs.getLast? with
        | none => rw [hl] at hi; simp at hi
        | some l => rw [hl] at hi; exact ⟨dbs, l, hg, hl, .inr ⟨by simpa using hi, hg⟩⟩

theorem setTab_pre {lib : Lib} {P : Db → Prop} {u : Uid} {c : Ctl} (h : Pre lib P u c) {t : Tab} (ht : GoodTab t.name) (hp : P t.db)
    (hd : ∀ n ∈ c.news, sameN n.name t.name = false) :
    Pre lib P u (setTab c t) ∧ Ext lib c (setTab c t) ∧ (setTab c t).newk = c.newk ∧ (setTab c t).kd = c.kd ∧ (setTab c t).sd = (addTab c.sd t).1 ∧
      (∀ n ∈ (setTab c t).news, n ∈ c.news ∨ n = t) ∧ (setTab c t).body = c.body := by
  obtain ⟨h1, h2, h3, h4, h5, h6⟩ := setTab_inv h.inv ht hp hd
  have hb : (setTab c t).body = c.body := by unfold setTab; split <;> rfl
  have hf : c.news.filter (fun n => !sameN n.name t.name) = c.news := by
    rw [List.filter_eq_self]; intro n hn; simp [hd n hn]
  refine ⟨⟨h1, h2.kind.trans h.kind, ?_, by rw [h2.win]; exact h.win, by rw [h4, h3, hb]; exact h.kc, ?_⟩, h2, h3, h4, h5, h6, hb⟩
  · rw [h5]
    intro e he
    exact (addTab_P (P := P) (fun e he => ⟨(h.inv.snames e he).1, (h.inv.snames e he).2, h.pdbs e he⟩) ht hp e he).2.2
  · have := h.sc
    unfold setTab
    split
    · have h7 := addTab_len c.sd t
      simp only [hf, List.length_append, List.length_singleton]; omega
    · exact this

theorem writeKeys_len {lib : Lib} {P : Db → Prop} {c : Ctl} (h : Inv lib P c) : ∃ x, (writeKeys lib c).body = c.body ++ x ∧ c.newk.length ≤ x.length := by
  unfold writeKeys
  split
  · rename_i hn; exact ⟨[], by simp, by simp [hn]⟩
  · refine ⟨block lib false hidKeys (joinNames c.newk), ?_, ?_⟩
    · unfold writeWork; rw [if_pos h.kind]
    · obtain ⟨kd, _, h2⟩ := h.keys
      have h1 := joinNames_len (ks := c.newk) fun k hk => h.knames k (by rw [h2]; simp [hk])
      rw [block_plain, encRec_len]
      omega

theorem writeTabs_len {lib : Lib} {P : Db → Prop} (T : TextOk lib P) {c : Ctl} (h : Inv lib P c) :
    ∃ x, (writeTabs lib c).body = c.body ++ x ∧ c.news.length ≤ x.length := by
  unfold writeTabs
  split
  · rename_i hn; exact ⟨[], by simp, by simp [hn]⟩
  · rename_i hn
    refine ⟨block lib false hidTabs (lib.text c.news), ?_, ?_⟩
    · unfold writeWork; rw [if_pos h.kind]
    · have h1 := (T.back c.news hn h.news).2.2
      rw [block_plain, encRec_len]
      omega

/-- The dictionaries are written. -/
theorem flush_uok {lib : Lib} {P : Db → Prop} {u : Uid} {c : Ctl} (h : Pre lib P u c) (hn : c.news = [])
    (hs : (writeKeys lib c).body.length < 2 ^ 32) :
    UOk lib P u (writeKeys lib c) ∧ Ext lib c (writeKeys lib c) ∧ (writeKeys lib c).kd = c.kd ∧ (writeKeys lib c).sd = c.sd := by
  have hm : mainHead = 16 := rfl
  obtain ⟨h1, h2, h3, h4, h5, h6⟩ := writeKeys_inv h.inv (by omega)
  obtain ⟨x, hx, hl⟩ := writeKeys_len h.inv
  have a := h.kc
  have b := h.sc
  have hl1 := congrArg List.length hx
  rw [List.length_append] at hl1
  refine ⟨⟨⟨h1, h2.kind.trans h.kind, by rw [h6]; exact h.pdbs, by rw [h2.win]; exact h.win, ?_, ?_⟩, h3, h4.trans hn⟩, h2, h5, h6⟩
  · rw [h5, hl1]; omega
  · rw [h6, h4, hl1]; omega

theorem flush_both {lib : Lib} {P : Db → Prop} (T : TextOk lib P) {u : Uid} {c : Ctl} (h : Pre lib P u c)
    (hs : (writeTabs lib (writeKeys lib c)).body.length < 2 ^ 32) :
    UOk lib P u (writeTabs lib (writeKeys lib c)) ∧ Ext lib c (writeTabs lib (writeKeys lib c)) ∧ (writeTabs lib (writeKeys lib c)).kd = c.kd ∧
      (writeTabs lib (writeKeys lib c)).sd = c.sd := by
  have hm : mainHead = 16 := rfl
  obtain ⟨y, hy⟩ : ∃ y, (writeTabs lib (writeKeys lib c)).body = (writeKeys lib c).body ++ y := by
    unfold writeTabs
    split
    · exact ⟨[], by simp⟩
    · unfold writeWork; split <;> exact ⟨_, rfl⟩
  have hy1 := congrArg List.length hy
  rw [List.length_append] at hy1
  obtain ⟨h1, h2, h3, h4, h5, h6⟩ := writeKeys_inv h.inv (by omega)
  obtain ⟨g1, g2, g3, g4, g5, g6⟩ := writeTabs_inv T h1 (by omega)
  obtain ⟨x, hx, hl⟩ := writeKeys_len h.inv
  obtain ⟨z, hz, hlz⟩ := writeTabs_len T h1
  have hx1 := congrArg List.length hx
  have hz1 := congrArg List.length hz
  rw [List.length_append] at hx1 hz1
  rw [h4] at hlz
  have a := h.kc
  have b := h.sc
  have e := h2.trans g2
  refine ⟨⟨⟨g1, e.kind.trans h.kind, by rw [g6, h6]; exact h.pdbs, by rw [e.win]; exact h.win, ?_, ?_⟩, g4.trans h3, g3⟩, e, g5.trans h5, g6.trans h6⟩
  · rw [g5, h5, hz1]; omega
  · rw [g6, h6, hz1]; omega

theorem flush_tabs {lib : Lib} {P : Db → Prop} (T : TextOk lib P) {u : Uid} {c : Ctl} (h : Pre lib P u c) (hn : c.newk = [])
    (hs : (writeTabs lib c).body.length < 2 ^ 32) :
    UOk lib P u (writeTabs lib c) ∧ Ext lib c (writeTabs lib c) ∧ (writeTabs lib c).kd = c.kd ∧ (writeTabs lib c).sd = c.sd := by
  have hw : writeKeys lib c = c := by unfold writeKeys; rw [if_pos hn]
  have := flush_both T h (by rw [hw]; exact hs)
  rw [hw] at this
  exact this

/-! ### Blocks of data -/

theorem writeMsg_body (lib : Lib) (c : Ctl) (k : Bytes) (s : Option Bytes) (hid ktype : Nat) (win : IUnit) (d : Bytes) :
    ∃ x, (writeMsg lib c k s hid ktype win d).body = c.body ++ x := by
  unfold writeMsg writeWork mergeSdb
  simp only
  split <;> exact ⟨_, rfl⟩

theorem keepV_zero (l : Blocks) : keepV 0 0 l = [] := by simp [keepV]

theorem nodeName_same {k k' : Bytes} (h : sameN k k' = true) (s s' : Option Bytes) (hs : (s = none ∧ s' = none) ∨ ∃ t t', s = some t ∧ s' = some t' ∧ sameN t t' = true) :
    sameN (nodeName k s) (nodeName k' s') = true := by
  rw [sameN_iff] at h ⊢
  rcases hs with ⟨rfl, rfl⟩ | ⟨t, t', rfl, rfl, ht⟩
  · exact h
  · rw [sameN_iff] at ht
    simp [nodeName, h, ht]

/-- A block of data written, in terms of what is seen. -/
theorem msg_uok {lib : Lib} {P : Db → Prop} {u : Uid} {c : Ctl} (h : UOk lib P u c) {k : Bytes} {s : Option Bytes} (hk : k ∈ c.kd)
    (hs : ∀ t, s = some t → ∃ dbs, (t, dbs) ∈ c.sd) (hsn : u ≠ .nots → s ≠ none) (hid ktype : Nat) (hkt : ktype < 256) (win : IUnit) (hw : win.sdict < 256) (ha : win.start < 2 ^ 64)
    (hb : win.stop < 2 ^ 64) (hz : u = .nots → win.start = 0 ∧ win.stop = 0) (d : Bytes) (hsm : (writeMsg lib c k s hid ktype win d).body.length < 2 ^ 32)
    (n0 : Bytes) (hn0 : sameN n0 (nodeName k s) = true) :
    ∃ c', writeMsg lib c k s hid ktype win d = c' ∧ UOk lib P u c' ∧ c'.body = c.body ++ block lib true hid d ∧
      (∀ n, view lib c' n = if sameN n n0 then some (keepV win.start win.stop ((view lib c n).getD []) ++
        [(win.start, win.stop, readSdb lib c'.body (mainHead + c.body.length) (block lib true hid d).length)]) else view lib c n) := by
  have hm : mainHead = 16 := rfl
  obtain ⟨c', e1, e2, e3, e4, e5, e6, e7, e8, e9, e10, e11, e12⟩ := writeMsg_inv h.inv hk hs (fun hx => hsn (by rintro rfl; exact hx h.kind)) hid ktype hkt win hw ha hb d (by omega)
  refine ⟨c', e1, ⟨⟨e2, e3.trans h.kind, by rw [e6]; exact h.pdbs, by rw [e8, e9]; exact hz, ?_, ?_⟩, e5.trans h.newk, e7.trans h.news⟩, e10, ?_⟩
  · have := h.kc
    rw [h.newk] at this
    rw [e4, e10, List.length_append]
    simp at this
    omega
  · have := h.sc
    rw [h.news] at this
    rw [e6, e10, List.length_append]
    simp at this
    omega
  · intro n
    rw [sameN_trans_r hn0]
    cases hsn : sameN n (nodeName k s) with
    | false => rw [if_neg (by simp)]; exact e11 n hsn
    | true => rw [if_pos rfl]; exact e12 n hsn

/-- A single value written. -/
theorem one_uok {lib : Lib} {P : Db → Prop} (L : ZipOk lib) {c : Ctl} (h : UOk lib P .nots c) {k : Bytes} (hk : ∃ n ∈ c.kd, sameN k n = true) (d : Bytes) :
    ∃ c', writeOne lib c k d = some c' ∧ (∃ x, c'.body = c.body ++ x) ∧ (c'.body.length < 2 ^ 32 → UOk lib P .nots c' ∧
      ∀ n, view lib c' n = if sameN n k then some [(0, 0, some (hidOne, catSsize d.length ++ d))] else view lib c n) := by
  obtain ⟨⟨k', i⟩, hg⟩ := Option.isSome_iff_exists.1 (getKey_isSome.2 hk)
  obtain ⟨g1, g2, g3⟩ := getKey_some hg
  have hi := (List.getElem?_eq_some_iff.1 g3).1
  unfold writeOne
  rw [hg]
  simp only [Option.map_some]
  refine ⟨_, rfl, writeMsg_body _ _ _ _ _ _ _ _, fun hsm => ?_⟩
  have hwin := h.win rfl
  obtain ⟨c', e1, e2, e3, e4⟩ := msg_uok h g1 (s := none) (by simp) (by simp) hidOne 2 (by omega) { c.win with sdict := 0 } (by show (0 : Nat) < 256; omega)
    (by show c.win.start < 2 ^ 64; rw [hwin.1]; omega) (by show c.win.stop < 2 ^ 64; rw [hwin.2]; omega) (fun _ => hwin) (catSsize i ++ catSsize d.length ++ d) hsm k g2
  rw [e1] at hsm ⊢
  refine ⟨e2, fun n => ?_⟩
  rw [e4]
  simp only [hwin.1, hwin.2, keepV_zero, List.nil_append]
  have hc := h.kc
  have hbl := block_length lib true hidOne (catSsize i ++ catSsize d.length ++ d)
  have hl1 := congrArg List.length e3
  rw [List.length_append] at hl1
  have hr := readSdb_key L true (hid := hidOne) (.inl rfl) c.body [] i (by simp [h.newk] at hc; omega) (catSsize d.length ++ d) (by
    rw [← List.append_assoc]; omega)
  rw [List.append_nil, ← List.append_assoc, ← e3] at hr
  rw [hr]

/-- A list of values written. -/
theorem mul_uok {lib : Lib} {P : Db → Prop} (L : ZipOk lib) {c : Ctl} (h : UOk lib P .nots c) {k : Bytes} (hk : ∃ n ∈ c.kd, sameN k n = true) (l : List Bytes) :
    ∃ c', writeMul lib c k l = some c' ∧ (∃ x, c'.body = c.body ++ x) ∧ (c'.body.length < 2 ^ 32 → UOk lib P .nots c' ∧
      ∀ n, view lib c' n = if sameN n k then some [(0, 0, some (hidMul, catSsize l.length ++ l.flatMap fun d => catSsize d.length ++ d))] else view lib c n) := by
  obtain ⟨⟨k', i⟩, hg⟩ := Option.isSome_iff_exists.1 (getKey_isSome.2 hk)
  obtain ⟨g1, g2, g3⟩ := getKey_some hg
  have hi := (List.getElem?_eq_some_iff.1 g3).1
  unfold writeMul
  rw [hg]
  simp only [Option.map_some]
  refine ⟨_, rfl, writeMsg_body _ _ _ _ _ _ _ _, fun hsm => ?_⟩
  have hwin := h.win rfl
  obtain ⟨c', e1, e2, e3, e4⟩ := msg_uok h g1 (s := none) (by simp) (by simp) hidMul 3 (by omega) { c.win with sdict := 0 } (by show (0 : Nat) < 256; omega)
    (by show c.win.start < 2 ^ 64; rw [hwin.1]; omega) (by show c.win.stop < 2 ^ 64; rw [hwin.2]; omega) (fun _ => hwin)
    (catSsize i ++ catSsize l.length ++ l.flatMap fun d => catSsize d.length ++ d) hsm k g2
  rw [e1] at hsm ⊢
  refine ⟨e2, fun n => ?_⟩
  rw [e4]
  simp only [hwin.1, hwin.2, keepV_zero, List.nil_append]
  have hc := h.kc
  have hbl := block_length lib true hidMul (catSsize i ++ catSsize l.length ++ l.flatMap fun d => catSsize d.length ++ d)
  have hl1 := congrArg List.length e3
  rw [List.length_append] at hl1
  have hr := readSdb_key L true (hid := hidMul) (.inr rfl) c.body [] i (by simp [h.newk] at hc; omega) (catSsize l.length ++ l.flatMap fun d => catSsize d.length ++ d) (by
    rw [← List.append_assoc]; omega)
  rw [List.append_nil, ← List.append_assoc, ← e3] at hr
  rw [hr]

theorem getTab_of {sd : TDict} {s : Bytes} {dbs : List Db} (h : getN sd s = some dbs) :
    ∃ sn i, getTab sd s = some ((sn, dbs), i) ∧ sameN s sn = true ∧ sd[i]? = some (sn, dbs) := by
  have hz2 : ∀ (l : TDict) (j : Nat) e i, (l.zipIdx j).find? (fun e => sameN s e.1.1) = some (e, i) → l.find? (fun e => sameN s e.1) = some e := by
    intro l
    induction l with
    | nil => intro j e i h; simp at h
    | cons o l ih =>
      intro j e i h
      rw [List.zipIdx_cons, List.find?_cons] at h
      rw [List.find?_cons]
      dsimp only at h
      cases ho : sameN s o.1 with
      | true => rw [ho] at h; simp at h ⊢; exact h.1
      | false => rw [ho] at h; exact ih _ _ _ h
  unfold getN at h
  obtain ⟨e, he, rfl⟩ := Option.map_eq_some_iff.1 h
  cases hg : getTab sd s with
  | none =>
    unfold getTab at hg
    rw [List.find?_eq_none] at hg
    obtain ⟨i, hi⟩ := List.mem_iff_getElem?.1 (List.mem_of_find?_eq_some he)
    exact absurd (by simpa using List.find?_some he) (hg (e, i) (List.mem_zipIdx_iff_getElem?.2 hi))
  | some x =>
    obtain ⟨o, i⟩ := x
    unfold getTab at hg
    have := hz2 sd 0 o i hg
    rw [he] at this
    cases this
    refine ⟨e.1, i, rfl, by simpa using List.find?_some he, ?_⟩
    have := List.mem_of_find?_eq_some hg
    rw [List.mem_zipIdx_iff_getElem?] at this
    exact this

theorem getTime_lt {db : Db} {i : Nat} {d : Bytes} {t : Nat} (h : Dyn.getTime db i d = some t) : t < 2 ^ 64 := by
  unfold Dyn.getTime at h
  split at h
  · cases h; omega
  · split at h
    · cases h; omega
    · obtain ⟨f, _, h⟩ := Option.bind_eq_some_iff.1 h
      unfold Dyn.getUint at h
      split at h
      · rename_i hl
        obtain ⟨b, hb, rfl⟩ := Option.map_eq_some_iff.1 h
        have h1 : b.length = f.len := by
          unfold Dyn.elem at hb
          split at hb
          · cases hb; rw [List.length_take, List.length_drop]; omega
          · cases hb
        have h2 := leVal_lt b
        have h3 : b.length ≤ 8 := by
          unfold Dyn.intLen at hl
          simp at hl
          omega
        have h4 : 256 ^ b.length ≤ 256 ^ 8 := Nat.pow_le_pow_right (by omega) h3
        have h5 : (256 : Nat) ^ 8 = 2 ^ 64 := by decide
        omega
      · cases h; omega

/-- A block of a table written. -/
theorem tab_uok {lib : Lib} {P : Db → Prop} (L : ZipOk lib) {u : Uid} {c : Ctl} (h : UOk lib P u c) {k : Bytes} (hk : ∃ n ∈ c.kd, sameN k n = true) {s : Bytes}
    {dbs : List Db} {db : Db} (hs : getN c.sd s = some dbs) (hl : dbs.getLast? = some db) (hz : db.size ≠ 0) {hid : Nat} (hh : hid = hidSdb ∨ hid = hidNon)
    (ktype : Nat) (hkt : ktype < 256) (ts : Db → IUnit → Option IUnit) {win : IUnit} (hts : ts db c.win = some win) (ha : win.start < 2 ^ 64) (hb : win.stop < 2 ^ 64)
    (hw : u = .nots → win.start = 0 ∧ win.stop = 0) (d : Bytes) (hd : d.length % db.size = 0) :
    ∃ c', writeTab lib c k s hid ktype ts d = some c' ∧ (∃ x, c'.body = c.body ++ x) ∧ (c'.body.length < 2 ^ 32 → UOk lib P u c' ∧
      ∀ n, view lib c' n = if sameN n (nodeName k (some s)) then
        some (keepV win.start win.stop ((view lib c n).getD []) ++ [(win.start, win.stop, some (hid, d))]) else view lib c n) := by
  obtain ⟨⟨k', i⟩, hg⟩ := Option.isSome_iff_exists.1 (getKey_isSome.2 hk)
  obtain ⟨g1, g2, g3⟩ := getKey_some hg
  have hi := (List.getElem?_eq_some_iff.1 g3).1
  obtain ⟨sn, si, t1, t2, t3⟩ := getTab_of hs
  have hsi := (List.getElem?_eq_some_iff.1 t3).1
  unfold writeTab
  rw [t1]
  simp only [Option.bind_some, hl, hz, if_false, hd, ne_eq, not_true_eq_false, hg, hts, Option.map_some]
  refine ⟨_, rfl, writeMsg_body _ _ _ _ _ _ _ _, fun hsm => ?_⟩
  obtain ⟨c', e1, e2, e3, e4⟩ := msg_uok h g1 (s := some sn) (by intro t ht; cases ht; exact ⟨dbs, List.mem_of_getElem? t3⟩) (by simp) hid ktype hkt
    { win with sdict := dbs.length % 256 } (by show dbs.length % 256 < 256; omega) ha hb hw (catSsize i ++ catSsize si ++ d) hsm (nodeName k (some s))
    (nodeName_same g2 _ _ (.inr ⟨s, sn, rfl, rfl, t2⟩))
  rw [e1] at hsm ⊢
  refine ⟨e2, fun n => ?_⟩
  rw [e4]
  have hc := h.kc
  have hc2 := h.sc
  have hbl := block_length lib true hid (catSsize i ++ catSsize si ++ d)
  have hl1 := congrArg List.length e3
  rw [List.length_append] at hl1
  have hr := readSdb_tab L true hh c.body [] i si (by simp [h.newk] at hc; omega) (by simp [h.news] at hc2; omega) d (by omega)
  rw [List.append_nil, ← e3] at hr
  rw [hr]

end Sis.Sdb
