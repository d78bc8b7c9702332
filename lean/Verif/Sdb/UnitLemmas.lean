import Verif.Sdb.IndexLemmas
/- Lemmas on an open data file: what every write keeps, and what is in the file after it. -/
namespace Sis.Sdb
open Sis Sis.Disk
open Sis.Dyn (sameN getN setN Db sameN_iff sameN_refl getN_none getN_some setN_spec getN_congr)

theorem sameN_trans_l {a b c : Bytes} (h : sameN a b = true) : sameN a c = sameN b c := by
  rw [sameN_iff] at h; unfold sameN; rw [h]

theorem sameN_trans_r {a b c : Bytes} (h : sameN a b = true) : sameN c a = sameN c b := by
  rw [sameN_comm c a, sameN_comm c b]; exact sameN_trans_l h

theorem getN_setN {α : Type} (l : List (Bytes × α)) (k : Bytes) (v : α) (n : Bytes) :
    getN (setN l k v).1 n = if sameN n k then some v else getN l n := by
  induction l with
  | nil => cases h : sameN n k <;> simp [setN, getN, h]
  | cons e l ih =>
    unfold setN
    by_cases hk : sameN k e.1 = true
    · rw [if_pos hk]
      by_cases hn : sameN n k = true
      · rw [if_pos hn]
        have : sameN n e.1 = true := by rw [sameN_trans_l hn]; exact hk
        simp [getN, this]
      · have hn' : sameN n k = false := by simpa using hn
        have : sameN n e.1 = false := by rw [← sameN_trans_r hk]; exact hn'
        rw [if_neg hn]
        simp [getN, this]
    · rw [if_neg hk]
      by_cases hne : sameN n e.1 = true
      · have : sameN n k = false := by
          rw [sameN_trans_l hne, sameN_comm]; simpa using hk
        simp [getN, hne, this]
      · have hne' : sameN n e.1 = false := by simpa using hne
        have e1 : getN ((e :: (setN l k v).1)) n = getN (setN l k v).1 n := by simp [getN, hne']
        have e2 : getN (e :: l) n = getN l n := by simp [getN, hne']
        rw [e1, e2, ih]

theorem mem_setN {α : Type} {l : List (Bytes × α)} {k : Bytes} {v : α} {e : Bytes × α} (h : e ∈ (setN l k v).1) :
    e ∈ l ∨ (e = (k, v) ∧ getN l k = none) ∨ ∃ o ∈ l, sameN k o.1 = true ∧ getN l k = some o.2 ∧ e = (o.1, v) := by
  rcases setN_spec l k v with ⟨h1, h2⟩ | ⟨i, o, h1, h2, h3, h4⟩
  · rw [h2] at h
    rcases List.mem_append.1 h with h | h
    · exact .inl h
    · exact .inr (.inl ⟨by simpa using h, h1⟩)
  · rw [h4] at h
    rcases List.mem_or_eq_of_mem_set h with h | h
    · exact .inl h
    · exact .inr (.inr ⟨o, List.mem_of_getElem? h1, h2, h3, h⟩)

theorem setN_diff {α : Type} (l : List (Bytes × α)) (k : Bytes) (v : α) (h : l.Pairwise fun a b => sameN a.1 b.1 = false) :
    (setN l k v).1.Pairwise fun a b => sameN a.1 b.1 = false := by
  induction l with
  | nil => simp [setN]
  | cons e l ih =>
    unfold setN
    rw [List.pairwise_cons] at h
    by_cases hk : sameN k e.1 = true
    · rw [if_pos hk, List.pairwise_cons]
      exact h
    · rw [if_neg hk]
      refine List.pairwise_cons.2 ⟨?_, ih h.2⟩
      intro x hx
      rcases mem_setN hx with hx | ⟨hx, _⟩ | ⟨o, ho, _, _, hx⟩
      · exact h.1 x hx
      · rw [hx, sameN_comm]; simpa using hk
      · rw [hx]; exact h.1 o ho

/-! ### Nodes -/

theorem getN_idxUpd (idx : Idx) (k : Bytes) (s : Option Bytes) (f : List IUnit → List IUnit) (n : Bytes) :
    getN (idxUpd idx k s f) n = if sameN n (nodeName k s) then
      some { ((getN idx (nodeName k s)).getD ⟨some k, s, []⟩) with units := f ((getN idx (nodeName k s)).getD ⟨some k, s, []⟩).units }
      else getN idx n := by
  unfold idxUpd
  simp only [getN_setN]
  unfold idxGet
  cases hg : getN idx (nodeName k s) with
  | some nd => simp
  | none =>
    simp only [Option.getD_none]
    split
    · rfl
    · rename_i h; rw [getN_setN, if_neg h]

theorem mem_idxUpd {idx : Idx} {k : Bytes} {s : Option Bytes} {f : List IUnit → List IUnit} {e : Bytes × Node} (h : e ∈ idxUpd idx k s f) :
    e ∈ idx ∨ (e = (nodeName k s, ⟨some k, s, f []⟩) ∧ getN idx (nodeName k s) = none) ∨ (e = (nodeName k s, ⟨some k, s, []⟩)) ∨
      ∃ o ∈ idx, sameN (nodeName k s) o.1 = true ∧ e = (o.1, { o.2 with units := f o.2.units }) := by
  unfold idxUpd idxGet at h
  cases hg : getN idx (nodeName k s) with
  | some nd =>
    rw [hg] at h
    simp only at h
    rcases mem_setN h with h | ⟨_, h⟩ | ⟨o, ho, h1, h2, h3⟩
    · exact .inl h
    · rw [hg] at h; cases h
    · rw [hg] at h2
      have : nd = o.2 := Option.some.inj h2
      rw [this] at h3
      exact .inr (.inr (.inr ⟨o, ho, h1, h3⟩))
  | none =>
    rw [hg] at h
    simp only at h
    have hs : (setN idx (nodeName k s) (⟨some k, s, []⟩ : Node)).1 = idx ++ [(nodeName k s, ⟨some k, s, []⟩)] := by
      rcases setN_spec idx (nodeName k s) (⟨some k, s, []⟩ : Node) with ⟨_, h2⟩ | ⟨_, _, _, _, h3, _⟩
      · rw [h2]
      · rw [hg] at h3; cases h3
    rcases mem_setN h with h | ⟨_, h⟩ | ⟨o, ho, h1, h2, h3⟩
    · rw [hs] at h
      rcases List.mem_append.1 h with h | h
      · exact .inl h
      · exact .inr (.inr (.inl (by simpa using h)))
    · rw [getN_setN, if_pos (sameN_refl _)] at h; cases h
    · rw [hs] at ho
      rcases List.mem_append.1 ho with ho | ho
      · rw [getN_none.1 hg o ho] at h1; cases h1
      · simp at ho
        rw [ho] at h3
        exact .inr (.inl ⟨h3, rfl⟩)

theorem idxUpd_diff (idx : Idx) (k : Bytes) (s : Option Bytes) (f : List IUnit → List IUnit) (h : idx.Pairwise fun a b => sameN a.1 b.1 = false) :
    (idxUpd idx k s f).Pairwise fun a b => sameN a.1 b.1 = false := by
  unfold idxUpd idxGet
  cases getN idx (nodeName k s) with
  | some nd => exact setN_diff _ _ _ h
  | none => exact setN_diff _ _ _ (setN_diff _ _ _ h)

/-! ### Names -/

/-- A name of a key that a dictionary can hold. -/
structure GoodKey (k : Bytes) : Prop where
  ne : k ≠ []
  comma : (44 : UInt8) ∉ k
  dot : (46 : UInt8) ∉ k
  trim : trim k = k
  len : k.length ≤ 127
  keys : sameN signKeys k = false
  tabs : sameN signTabs k = false

/-- A name of a table that a dictionary can hold. -/
structure GoodTab (s : Bytes) : Prop where
  ne : s ≠ []
  len : s.length ≤ 126
  plain : ∀ c ∈ s, 32 ≤ c ∧ c ≠ 34 ∧ c ≠ 92

theorem pieces_noComma (k : Bytes) (hk : (44 : UInt8) ∉ k) : ∀ (acc rest : Bytes), pieces acc (k ++ rest) = pieces (k.reverse ++ acc) rest := by
  induction k with
  | nil => intro acc rest; rfl
  | cons c k ih =>
    intro acc rest
    simp only [List.mem_cons, not_or] at hk
    simp only [List.cons_append, pieces]
    rw [if_neg (fun h => hk.1 h.symm), ih hk.2]
    simp

theorem splitNames_join (ks : List Bytes) (h : ∀ k ∈ ks, GoodKey k) : splitNames (joinNames ks) = ks := by
  unfold splitNames
  have : pieces [] (joinNames ks) = ks := by
    induction ks with
    | nil => rfl
    | cons k ks ih =>
      have hk := h k (by simp)
      cases ks with
      | nil =>
        simp only [joinNames]
        have := pieces_noComma k hk.comma [] []
        rw [List.append_nil] at this
        rw [this]
        simp [pieces, hk.ne]
      | cons k' ks =>
        simp only [joinNames]
        rw [pieces_noComma k hk.comma]
        simp only [pieces, if_true, List.append_nil, List.reverse_reverse]
        rw [ih fun k hk => h k (by simp at hk ⊢; grind)]
  rw [this]
  have h2 : ks.map trim = ks.map id := List.map_congr_left fun k hk => (h k hk).trim
  rw [h2, List.map_id]

theorem joinNames_ne {ks : List Bytes} (h : ks ≠ []) (hg : ∀ k ∈ ks, GoodKey k) : joinNames ks ≠ [] := by
  cases ks with
  | nil => exact absurd rfl h
  | cons k ks =>
    have := (hg k (by simp)).ne
    cases ks <;> simp [joinNames, this]

theorem getKey_some {kd : List Bytes} {k n : Bytes} {i : Nat} (h : getKey kd k = some (n, i)) : n ∈ kd ∧ sameN k n = true ∧ kd[i]? = some n := by
  unfold getKey at h
  have h1 := List.mem_of_find?_eq_some h
  have h2 := List.find?_some h
  rw [List.mem_zipIdx_iff_getElem?] at h1
  exact ⟨List.mem_of_getElem? h1, h2, h1⟩

theorem getKey_none {kd : List Bytes} {k : Bytes} : getKey kd k = none ↔ ∀ n ∈ kd, sameN k n = false := by
  unfold getKey
  rw [List.find?_eq_none]
  constructor
  · intro h n hn
    obtain ⟨i, hi⟩ := List.mem_iff_getElem?.1 hn
    simpa using h (n, i) (List.mem_zipIdx_iff_getElem?.2 hi)
  · rintro h ⟨n, i⟩ hni
    rw [List.mem_zipIdx_iff_getElem?] at hni
    simp [h n (List.mem_of_getElem? hni)]

theorem getKey_isSome {kd : List Bytes} {k : Bytes} : (getKey kd k).isSome = true ↔ ∃ n ∈ kd, sameN k n = true := by
  constructor
  · intro h
    obtain ⟨⟨n, i⟩, h⟩ := Option.isSome_iff_exists.1 h
    exact ⟨n, (getKey_some h).1, (getKey_some h).2.1⟩
  · rintro ⟨n, hn, hs⟩
    cases hg : getKey kd k with
    | some _ => rfl
    | none => rw [getKey_none.1 hg n hn] at hs; cases hs

theorem getKey_self {kd : List Bytes} (hd : kd.Pairwise fun a b => sameN a b = false) {k : Bytes} (h : k ∈ kd) : ∃ i, getKey kd k = some (k, i) := by
  have := getKey_isSome.2 ⟨k, h, sameN_refl k⟩
  obtain ⟨⟨n, i⟩, hg⟩ := Option.isSome_iff_exists.1 this
  obtain ⟨hn, hs, _⟩ := getKey_some hg
  have : n = k := by
    apply Classical.byContradiction
    intro hne
    rcases List.mem_iff_getElem?.1 hn with ⟨a, ha⟩
    rcases List.mem_iff_getElem?.1 h with ⟨b, hb⟩
    have hab : a ≠ b := by rintro rfl; rw [ha] at hb; exact hne (Option.some.inj hb)
    rw [List.pairwise_iff_getElem] at hd
    obtain ⟨ha1, ha2⟩ := List.getElem?_eq_some_iff.1 ha
    obtain ⟨hb1, hb2⟩ := List.getElem?_eq_some_iff.1 hb
    rcases Nat.lt_or_gt_of_ne hab with hl | hl
    · have := hd a b ha1 hb1 hl
      rw [ha2, hb2, sameN_comm, hs] at this; cases this
    · have := hd b a hb1 ha1 hl
      rw [ha2, hb2, hs] at this; cases this
  rw [this] at hg
  exact ⟨i, hg⟩

theorem loadKeys_new (ks : List Bytes) : ∀ kd : List Bytes, (kd ++ ks).Pairwise (fun a b => sameN a b = false) → ks.foldl addKey kd = kd ++ ks := by
  induction ks with
  | nil => intro kd _; simp
  | cons k ks ih =>
    intro kd h
    have : getKey kd k = none := by
      rw [getKey_none]
      intro n hn
      rw [sameN_comm]
      exact (List.pairwise_append.1 h).2.2 n hn k (by simp)
    simp only [List.foldl_cons, addKey, this, Option.isSome_none, Bool.false_eq_true, if_false]
    rw [ih _ (by simpa using h)]
    simp

/-! ### What holds of an open data file -/

/-- The blocks of an entry: first and last time, kind and content. -/
def view (lib : Lib) (c : Ctl) (n : Bytes) : Option (List (Nat × Nat × Option (Nat × Bytes))) :=
  (getN c.idx n).map fun nd => nd.units.map fun u => (u.start, u.stop, readSdb lib c.body u.offset u.size)

def IsData (n : Bytes) : Prop := sameN signKeys n = false ∧ sameN signTabs n = false

/-- A block that is in the file and can be named in an index. -/
def UnitOk (body : Bytes) (u : IUnit) : Prop := InRange u ∧ Within body u

/-- A name of an entry made of a key and a table of the dictionaries. -/
structure Named (kd : List Bytes) (sd : TDict) (e : Bytes × Node) (k : Bytes) (s : Option Bytes) : Prop where
  name : e.1 = nodeName k s
  kname : e.2.kname = some k
  sname : e.2.sname = s
  key : k ∈ kd
  tab : ∀ t, s = some t → ∃ dbs, (t, dbs) ∈ sd

/-- A block of a dictionary in a file. -/
def DictAt (body : Bytes) (hid : Nat) (Q : Bytes → Prop) (u : IUnit) : Prop :=
  ∃ m, m ≠ [] ∧ Q m ∧ readAt body u.offset u.size = some (m.length, headByte 1 0 hid, m)

theorem DictAt.mono {body : Bytes} {hid : Nat} {Q : Bytes → Prop} {u : IUnit} (h : DictAt body hid Q u) (hw : Within body u) (x : Bytes) : DictAt (body ++ x) hid Q u := by
  obtain ⟨m, h1, h2, h3⟩ := h
  exact ⟨m, h1, h2, by rw [readAt_append x hw.2]; exact h3⟩

structure Inv (lib : Lib) (P : Db → Prop) (c : Ctl) : Prop where
  kind : c.indexed = true
  diff : c.idx.Pairwise fun a b => sameN a.1 b.1 = false
  keys : ∃ kd, readKeys lib c.body [] (dictUnits c.idx signKeys) = some kd ∧ c.kd = kd ++ c.newk
  tabs : ∃ sd, readTabs lib c.body [] (dictUnits c.idx signTabs) = some sd ∧ c.sd = c.news.foldl (fun sd t => (addTab sd t).1) sd
  kdiff : c.kd.Pairwise fun a b => sameN a b = false
  knames : ∀ k ∈ c.kd, GoodKey k
  sdiff : c.sd.Pairwise fun a b => sameN a.1 b.1 = false
  snames : ∀ e ∈ c.sd, GoodTab e.1 ∧ e.2 ≠ []
  news : ∀ t ∈ c.news, GoodTab t.name ∧ P t.db
  nodes : ∀ e ∈ data c.idx, ∃ k s, Named c.kd c.sd e k s
  units : ∀ e ∈ c.idx, ∀ u ∈ e.2.units, UnitOk c.body u
  kkind : ∀ u ∈ dictUnits c.idx signKeys, DictAt c.body hidKeys (fun _ => True) u
  tkind : ∀ u ∈ dictUnits c.idx signTabs, DictAt c.body hidTabs (fun m => (lib.parse m).length ≤ m.length) u
  tabbed : c.kind ≠ .nots → ∀ e ∈ data c.idx, e.2.sname ≠ none

theorem UnitOk.mono {body : Bytes} {u : IUnit} (h : UnitOk body u) (x : Bytes) : UnitOk (body ++ x) u :=
  ⟨h.1, h.2.1, by have := h.2.2; simp only [List.length_append]; omega⟩

theorem dictUnits_mem {idx : Idx} {n : Bytes} {u : IUnit} (h : u ∈ dictUnits idx n) : ∃ e ∈ idx, u ∈ e.2.units := by
  unfold dictUnits at h
  cases hg : getN idx n with
  | none => rw [hg] at h; simp at h
  | some nd =>
    rw [hg] at h
    obtain ⟨i, e, h1, h2, _⟩ := getN_some hg
    exact ⟨e, List.mem_of_getElem? h1, by rw [h2]; simpa using h⟩

theorem readKeys_append (lib : Lib) (body x : Bytes) (us : List IUnit) (h : ∀ u ∈ us, Within body u) :
    ∀ kd, readKeys lib (body ++ x) kd us = readKeys lib body kd us := by
  induction us with
  | nil => intro kd; rfl
  | cons u us ih =>
    intro kd
    simp only [readKeys]
    rw [readAt_append x (h u (by simp)).2]
    have := ih fun u hu => h u (by simp [hu])
    simp only [this]

theorem readTabs_append (lib : Lib) (body x : Bytes) (us : List IUnit) (h : ∀ u ∈ us, Within body u) :
    ∀ kd, readTabs lib (body ++ x) kd us = readTabs lib body kd us := by
  induction us with
  | nil => intro kd; rfl
  | cons u us ih =>
    intro kd
    simp only [readTabs]
    rw [readAt_append x (h u (by simp)).2]
    have := ih fun u hu => h u (by simp [hu])
    simp only [this]

theorem readKeys_snoc (lib : Lib) (body : Bytes) (us vs : List IUnit) : ∀ kd, readKeys lib body kd (us ++ vs) = (readKeys lib body kd us).bind fun kd => readKeys lib body kd vs := by
  induction us with
  | nil => intro kd; rfl
  | cons u us ih =>
    intro kd
    simp only [List.cons_append, readKeys]
    cases readAt body u.offset u.size with
    | none => rfl
    | some r =>
      obtain ⟨n, b, m⟩ := r
      simp only [Option.bind_some]
      split
      · exact ih kd
      · exact ih _

theorem readTabs_snoc (lib : Lib) (body : Bytes) (us vs : List IUnit) : ∀ kd, readTabs lib body kd (us ++ vs) = (readTabs lib body kd us).bind fun kd => readTabs lib body kd vs := by
  induction us with
  | nil => intro kd; rfl
  | cons u us ih =>
    intro kd
    simp only [List.cons_append, readTabs]
    cases readAt body u.offset u.size with
    | none => rfl
    | some r =>
      obtain ⟨n, b, m⟩ := r
      simp only [Option.bind_some]
      split
      · exact ih kd
      · exact ih _

theorem dictUnits_idxUpd (idx : Idx) (k : Bytes) (s : Option Bytes) (f : List IUnit → List IUnit) (n : Bytes) :
    dictUnits (idxUpd idx k s f) n = if sameN n (nodeName k s) then f (dictUnits idx (nodeName k s)) else dictUnits idx n := by
  unfold dictUnits
  rw [getN_idxUpd]
  split
  · cases getN idx (nodeName k s) <;> simp
  · rfl

theorem view_mono {lib : Lib} {P : Db → Prop} {c : Ctl} (h : Inv lib P c) (x : Bytes) (n : Bytes) (c' : Ctl) (hb : c'.body = c.body ++ x) (hi : getN c'.idx n = getN c.idx n) :
    view lib c' n = view lib c n := by
  unfold view
  rw [hi, hb]
  cases hg : getN c.idx n with
  | none => rfl
  | some nd =>
    simp only [Option.map_some, Option.some.injEq]
    apply List.map_congr_left
    intro u hu
    obtain ⟨i, e, h1, h2, _⟩ := getN_some hg
    have := h.units e (List.mem_of_getElem? h1) u (by rw [h2]; exact hu)
    rw [readSdb_append x this.2.2]

/-- An entry of data is changed and bytes are added to the file. -/
theorem inv_upd {lib : Lib} {P : Db → Prop} {c : Ctl} (h : Inv lib P c) {k : Bytes} {s : Option Bytes} (hk : k ∈ c.kd) (hs : ∀ t, s = some t → ∃ dbs, (t, dbs) ∈ c.sd)
    (x : Bytes) (f : List IUnit → List IUnit) (hf : ∀ us, (∀ u ∈ us, UnitOk c.body u) → ∀ u ∈ f us, UnitOk (c.body ++ x) u)
    (hsn : c.kind ≠ .nots → s ≠ none) (win : IUnit) :
    Inv lib P { c with body := c.body ++ x, idx := idxUpd c.idx k s f, win := win } := by
  have hgk := h.knames k hk
  have hdat : sameN signKeys (nodeName k s) = false ∧ sameN signTabs (nodeName k s) = false := by
    cases s with
    | none => exact ⟨hgk.keys, hgk.tabs⟩
    | some t =>
      have hdot : ∀ sign : Bytes, (46 : UInt8) ∉ sign.map lower → sameN sign (nodeName k (some t)) = false := by
        intro sign hsg
        cases hc : sameN sign (nodeName k (some t)) with
        | false => rfl
        | true =>
          rw [sameN_iff] at hc
          rw [hc] at hsg
          simp [nodeName] at hsg
          exact absurd (show lower 46 = 46 by decide) (fun h => hsg.2.1 h.symm)
      exact ⟨hdot _ (by decide), hdot _ (by decide)⟩
  have hku : dictUnits (idxUpd c.idx k s f) signKeys = dictUnits c.idx signKeys := by
    rw [dictUnits_idxUpd, if_neg (by simp [hdat.1])]
  have htu : dictUnits (idxUpd c.idx k s f) signTabs = dictUnits c.idx signTabs := by
    rw [dictUnits_idxUpd, if_neg (by simp [hdat.2])]
  have hw : ∀ n, ∀ u ∈ dictUnits c.idx n, Within c.body u := by
    intro n u hu
    obtain ⟨e, he, hu⟩ := dictUnits_mem hu
    exact (h.units e he u hu).2
  refine ⟨h.kind, idxUpd_diff _ _ _ _ h.diff, ?_, ?_, h.kdiff, h.knames, h.sdiff, h.snames, h.news, ?_, ?_, ?_, ?_, ?_⟩
  rotate_right 3
  · simp only [hku]; exact fun u hu => (h.kkind u hu).mono (hw _ u hu) x
  · simp only [htu]; exact fun u hu => (h.tkind u hu).mono (hw _ u hu) x
  · intro hne e he
    have he1 := (List.mem_filter.1 he).1
    have he2 := (List.mem_filter.1 he).2
    rcases mem_idxUpd he1 with h1 | ⟨h1, _⟩ | h1 | ⟨o, ho, h1, h2⟩
    · exact h.tabbed hne e (List.mem_filter.2 ⟨h1, he2⟩)
    · rw [h1]; exact hsn hne
    · rw [h1]; exact hsn hne
    · rw [h2]; exact h.tabbed hne o (List.mem_filter.2 ⟨ho, by rw [h2] at he2; exact he2⟩)
  · simp only [hku]
    rw [readKeys_append _ _ _ _ (hw _)]
    exact h.keys
  · simp only [htu]
    rw [readTabs_append _ _ _ _ (hw _)]
    exact h.tabs
  · intro e he
    have he1 := (List.mem_filter.1 he).1
    have he2 := (List.mem_filter.1 he).2
    rcases mem_idxUpd he1 with h1 | ⟨h1, _⟩ | h1 | ⟨o, ho, h1, h2⟩
    · exact h.nodes e (List.mem_filter.2 ⟨h1, he2⟩)
    · exact ⟨k, s, by rw [h1], by rw [h1], by rw [h1], hk, hs⟩
    · exact ⟨k, s, by rw [h1], by rw [h1], by rw [h1], hk, hs⟩
    · obtain ⟨k', s', hn⟩ := h.nodes o (List.mem_filter.2 ⟨ho, by rw [h2] at he2; exact he2⟩)
      exact ⟨k', s', by rw [h2]; exact hn.name, by rw [h2]; exact hn.kname, by rw [h2]; exact hn.sname, hn.key, hn.tab⟩
  · intro e he
    rcases mem_idxUpd he with h1 | ⟨h1, _⟩ | h1 | ⟨o, ho, h1, h2⟩
    · intro u hu; exact (h.units e h1 u hu).mono x
    · rw [h1]; exact hf [] (by simp)
    · rw [h1]; simp
    · rw [h2]; exact hf _ (h.units o ho)

theorem getKey_nodeName_diff {k : Bytes} {s : Option Bytes} (hk : GoodKey k) : IsData (nodeName k s) := by
  cases s with
  | none => exact ⟨hk.keys, hk.tabs⟩
  | some t =>
    have hdot : ∀ sign : Bytes, (46 : UInt8) ∉ sign.map lower → sameN sign (nodeName k (some t)) = false := by
      intro sign hsg
      cases hc : sameN sign (nodeName k (some t)) with
      | false => rfl
      | true =>
        rw [sameN_iff] at hc
        rw [hc] at hsg
        simp [nodeName] at hsg
        exact absurd (show lower 46 = 46 by decide) (fun h => hsg.2.1 h.symm)
    exact ⟨hdot _ (by decide), hdot _ (by decide)⟩

end Sis.Sdb
