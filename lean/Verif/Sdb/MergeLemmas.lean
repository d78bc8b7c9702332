import Verif.Sdb.MergeSpec
import Verif.Sdb.ReadLemmas
import Mathlib.Data.List.Forall2
/- Lemmas on the merge of the blocks of a year. -/
namespace Sis.Sdb
open Sis Sis.Disk
open Sis.Dyn (sameN getN setN Db sameN_iff sameN_refl getN_none getN_some setN_spec getN_congr)

theorem setN_new {α : Type} {l : List (Bytes × α)} {k : Bytes} (v : α) (h : getN l k = none) : (setN l k v).1 = l ++ [(k, v)] := by
  rcases setN_spec l k v with ⟨_, h2⟩ | ⟨_, _, _, _, h3, _⟩
  · rw [h2]
  · rw [h] at h3; cases h3

theorem idxUpd_new {idx : Idx} {k : Bytes} {s : Option Bytes} (f : List IUnit → List IUnit) (h : getN idx (nodeName k s) = none) :
    idxUpd idx k s f = idx ++ [(nodeName k s, ⟨some k, s, f []⟩)] := by
  unfold idxUpd idxGet
  rw [h]
  simp only
  rw [setN_new _ h]
  have hno := getN_none.1 h
  clear h
  induction idx with
  | nil => simp [setN, sameN_refl]
  | cons e l ih =>
    have := hno e (by simp)
    simp only [List.cons_append, setN, this, Bool.false_eq_true, if_false]
    rw [ih fun e he => hno e (by simp [he])]

theorem readUnit_of {lib : Lib} {body : Bytes} {u : IUnit} {h : Nat} {m : Bytes} (hr : readSdb lib body u.offset u.size = some (h, m)) :
    ∃ z, readUnit lib body u = some (h, z, m) := by
  have hr' := hr
  unfold readSdb at hr
  obtain ⟨⟨n, b, x⟩, h1, _⟩ := Option.bind_eq_some_iff.1 hr
  exact ⟨zipOf b == 1, by unfold readUnit; rw [h1, Option.bind_some, hr']; rfl⟩

theorem readUnit_dict {lib : Lib} {body : Bytes} {u : IUnit} {hid : Nat} {m : Bytes} (hh : hid = hidKeys ∨ hid = hidTabs) (hm : m ≠ [])
    (hr : readAt body u.offset u.size = some (m.length, headByte 1 0 hid, m)) : readUnit lib body u = some (hid, false, m) := by
  have hid' : hidOf (headByte 1 0 hid) = hid := by rcases hh with rfl | rfl <;> decide
  have hz : zipOf (headByte 1 0 hid) = 0 := by rcases hh with rfl | rfl <;> decide
  unfold readUnit readSdb
  rw [hr]
  simp only [Option.bind_some, unzip, hz, hid', if_true]
  rw [if_neg (by simpa using hm), if_neg hm]
  simp only
  rw [if_neg (by rcases hh with rfl | rfl <;> decide), if_neg (by rcases hh with rfl | rfl <;> decide)]
  rfl

/-- Blocks of records in the index of a file. -/
def ReadsAs (lib : Lib) (body : Bytes) (us : List IUnit) (l : List (Nat × Nat × Bytes)) : Prop :=
  us.map (fun u => (u.start, u.stop, readSdb lib body u.offset u.size)) = l.map fun b => (b.1, b.2.1, some (hidSdb, b.2.2))

theorem mergeUnits_more {lib : Lib} {src : Ctl} {n : Node} (us : List IUnit) : ∀ (l : List (Nat × Nat × Bytes)) (k : Nat) (t : Ctl) (p : Part), ReadsAs lib src.body us l → 0 < k → p.hid = hidSdb →
    ∃ z, mergeUnits lib src n k t p us = some (t, ⟨p.mem ++ allBytes l, hidSdb, z, us.getLast?.getD p.win⟩) := by
  induction us with
  | nil =>
    intro l k t p h _ hp
    have : l = [] := by cases l with
      | nil => rfl
      | cons => simp [ReadsAs] at h
    subst this
    exact ⟨p.zip, by simp [mergeUnits, allBytes, ← hp]⟩
  | cons u us ih =>
    intro l k t p h hk hp
    cases l with
    | nil => simp [ReadsAs] at h
    | cons b l =>
      simp only [ReadsAs, List.map_cons, List.cons.injEq, Prod.mk.injEq] at h
      obtain ⟨⟨_, _, hr⟩, h2⟩ := h
      obtain ⟨z, hz⟩ := readUnit_of hr
      obtain ⟨z', g⟩ := ih l (k + 1) t ⟨p.mem ++ b.2.2, hidSdb, z, u⟩ h2 (by omega) rfl
      refine ⟨z', ?_⟩
      rw [mergeUnits, hz, Option.bind_some]
      dsimp only
      rw [if_neg (by decide), if_neg (by decide), if_pos (.inl rfl), if_neg (by omega), g]
      have e : us.getLast?.getD u = (u :: us).getLast?.getD p.win := by simp [List.getLast?_cons]
      simp only [allBytes, List.flatMap_cons, List.append_assoc, e]

theorem getTab_self {sd : TDict} (hd : sd.Pairwise fun a b => sameN a.1 b.1 = false) {t : Bytes} {dbs : List Db} (h : (t, dbs) ∈ sd) : ∃ j, getTab sd t = some ((t, dbs), j) ∧ j < sd.length := by
  have hg : getN sd t = some dbs := by
    unfold getN; rw [tab_self hd h]; rfl
  obtain ⟨sn, i, h1, h2, h3⟩ := getTab_of hg
  have hm := List.mem_of_getElem? h3
  have : sn = t := by
    have e1 := tab_self hd h
    have e2 := tab_self hd hm
    have e3 : (fun x : Bytes × List Db => sameN (sn, dbs).1 x.1) = fun x => sameN (t, dbs).1 x.1 := by
      funext x; exact (sameN_trans_l h2).symm
    rw [e3, e1] at e2
    exact (congrArg Prod.fst (Option.some.inj e2)).symm
  subst this
  exact ⟨i, h1, (List.getElem?_eq_some_iff.1 h3).1⟩

theorem getKey_self_lt {kd : List Bytes} (hd : kd.Pairwise fun a b => sameN a b = false) {k : Bytes} (h : k ∈ kd) : ∃ i, getKey kd k = some (k, i) ∧ i < kd.length := by
  obtain ⟨i, hi⟩ := getKey_self hd h
  exact ⟨i, hi, (List.getElem?_eq_some_iff.1 (getKey_some hi).2.2).1⟩

/-- The blocks of an entry with records. -/
theorem mergeUnits_rows {lib : Lib} {src : Ctl} {n : Node} {k s : Bytes} {i j : Nat} {dbs : List Db} (hk : n.kname = some k) (hs : n.sname = some s) (hgk : getKey src.kd k = some (k, i))
    (hgs : getTab src.sd s = some ((s, dbs), j)) {us : List IUnit} {l : List (Nat × Nat × Bytes)} (h : ReadsAs lib src.body us l) (hl : l ≠ []) (t : Ctl) :
    ∃ z w, us.getLast? = some w ∧ mergeUnits lib src n 0 t {} us = some (t, ⟨catSsize i ++ catSsize j ++ allBytes l, hidSdb, z, w⟩) := by
  cases us with
  | nil =>
    cases l with
    | nil => exact absurd rfl hl
    | cons => simp [ReadsAs] at h
  | cons u us =>
    cases l with
    | nil => exact absurd rfl hl
    | cons b l =>
      simp only [ReadsAs, List.map_cons, List.cons.injEq, Prod.mk.injEq] at h
      obtain ⟨⟨_, _, hr⟩, h2⟩ := h
      obtain ⟨z, hz⟩ := readUnit_of hr
      obtain ⟨z', g⟩ := mergeUnits_more (n := n) us l 1 t ⟨catSsize i ++ catSsize j ++ b.2.2, hidSdb, z, u⟩ h2 (by omega) rfl
      refine ⟨z', us.getLast?.getD u, ?_, ?_⟩
      · cases us with
        | nil => rfl
        | cons _ _ => simp [List.getLast?_cons]
      · rw [mergeUnits, hz, Option.bind_some]
        dsimp only
        rw [if_neg (by decide), if_neg (by decide), if_pos (.inl rfl), if_pos rfl, hk, hs]
        simp only [Option.bind_some, hgk, hgs, List.nil_append]
        simp only [List.append_assoc] at g ⊢
        rw [show (0 : Nat) + 1 = 1 from rfl, g]
        simp [allBytes]

/-- The entry of the new index for an entry of the old one. -/
def Moved (lib : Lib) (src : Ctl) (body : Bytes) (e e' : Bytes × Node) : Prop :=
  (∃ u' w l, UnitOk body u' ∧ e.2.kname = e'.2.kname ∧ e.2.sname = e'.2.sname ∧ e'.1 = e.1 ∧ IsData e.1 ∧ e'.2.units = [u'] ∧ ReadsAs lib src.body e.2.units l ∧ l.getLast? = some w ∧
    u'.start = w.1 ∧ u'.stop = w.2.1 ∧ readSdb lib body u'.offset u'.size = some (hidSdb, allBytes l)) ∨
  (∃ sign hid u u' m, ((sign = signKeys ∧ hid = hidKeys) ∨ (sign = signTabs ∧ hid = hidTabs)) ∧ UnitOk body u' ∧ sameN sign e.1 = true ∧ e'.1 = sign ∧ e.2.units = [u] ∧
    e'.2.units = [u'] ∧ m ≠ [] ∧ readAt src.body u.offset u.size = some (m.length, headByte 1 0 hid, m) ∧ readAt body u'.offset u'.size = some (m.length, headByte 1 0 hid, m) ∧
    m.length + 2 ≤ body.length)

theorem Moved.mono {lib : Lib} {src : Ctl} {body : Bytes} {e e' : Bytes × Node} (h : Moved lib src body e e') (x : Bytes) : Moved lib src (body ++ x) e e' := by
  rcases h with ⟨u', w, l, h1, h2, h3, h4, h5, h6, h7, h8, h9, h10, h11⟩ | ⟨sign, hid, u, u', m, h1, h2, h3, h4, h5, h6, h7, h8, h9, h10⟩
  · exact .inl ⟨u', w, l, h1.mono x, h2, h3, h4, h5, h6, h7, h8, h9, h10, by rw [readSdb_append x h1.2.2]; exact h11⟩
  · exact .inr ⟨sign, hid, u, u', m, h1, h2.mono x, h3, h4, h5, h6, h7, h8, by rw [readAt_append x h2.2.2]; exact h9, by simp only [List.length_append]; omega⟩

theorem Moved.name {lib : Lib} {src : Ctl} {body : Bytes} {e e' : Bytes × Node} (h : Moved lib src body e e') : sameN e.1 e'.1 = true := by
  rcases h with ⟨u', w, l, h1, h2, h3, h4, h5, h6, h7, h8, h9, h10, h11⟩ | ⟨sign, hid, u, u', m, h1, h2, h3, h4, h5, h6, h7, h8, h9, h10⟩
  · rw [h4]; exact sameN_refl _
  · rw [h4, sameN_comm]; exact h3

/-- What an entry of the old index has to be. -/
def Mergeable (lib : Lib) (src : Ctl) (e : Bytes × Node) : Prop :=
  (IsData e.1 ∧ ∃ k s i j dbs l, e.1 = nodeName k (some s) ∧ e.2.kname = some k ∧ e.2.sname = some s ∧ getKey src.kd k = some (k, i) ∧ i < 2 ^ 64 ∧ getTab src.sd s = some ((s, dbs), j) ∧ j < 2 ^ 64 ∧
    ReadsAs lib src.body e.2.units l ∧ l ≠ [] ∧ ∀ u ∈ e.2.units, InRange u) ∨
  (∃ sign hid, ((sign = signKeys ∧ hid = hidKeys) ∨ (sign = signTabs ∧ hid = hidTabs)) ∧ sameN sign e.1 = true ∧ (e.2.units = [] ∨
    ∃ u m, e.2.units = [u] ∧ InRange u ∧ m ≠ [] ∧ readAt src.body u.offset u.size = some (m.length, headByte 1 0 hid, m)))

def full (e : Bytes × Node) : Bool := !e.2.units.isEmpty

theorem readAs_ne {lib : Lib} {body : Bytes} {us : List IUnit} {l : List (Nat × Nat × Bytes)} (h : ReadsAs lib body us l) (hl : l ≠ []) : us ≠ [] := by
  rintro rfl
  cases l with
  | nil => exact hl rfl
  | cons => simp [ReadsAs] at h

theorem readAs_last {lib : Lib} {body : Bytes} {us : List IUnit} {l : List (Nat × Nat × Bytes)} (h : ReadsAs lib body us l) {w : IUnit} (hw : us.getLast? = some w) :
    ∃ z, l.getLast? = some z ∧ w.start = z.1 ∧ w.stop = z.2.1 := by
  unfold ReadsAs at h
  have := congrArg List.getLast? h
  rw [List.getLast?_map, List.getLast?_map, hw] at this
  simp only [Option.map_some] at this
  obtain ⟨z, h1, h2⟩ := Option.map_eq_some_iff.1 this.symm
  simp only [Prod.mk.injEq] at h2
  exact ⟨z, h1, h2.1.symm, h2.2.1.symm⟩

/-- An entry that can be written to an index. -/
def Enc (e : Bytes × Node) : Prop := sameN signKeys e.1 = true ∨ sameN signTabs e.1 = true ∨ e.2.kname ≠ none

theorem mergeNode_step {lib : Lib} (L : ZipOk lib) {src t : Ctl} {e : Bytes × Node} (h : Mergeable lib src e) (hnew : ∀ x ∈ t.idx, sameN e.1 x.1 = false) :
    ∃ t', mergeNode lib src t e = some t' ∧ (∃ x, t'.body = t.body ++ x) ∧ t' = { t with body := t'.body, idx := t'.idx } ∧
      ((full e = false ∧ t' = t) ∨ (full e = true ∧ ∃ e', t'.idx = t.idx ++ [e'] ∧ sameN e.1 e'.1 = true ∧ Enc e' ∧ (t'.body.length < 2 ^ 32 → Moved lib src t'.body e e'))) := by
  have hm : mainHead = 16 := rfl
  rcases h with ⟨hd, k, s, i, j, dbs, l, h1, h2, h3, h4, h5, h6, h7, h8, h9, h10⟩ | ⟨sign, hid, h1, h2, h3⟩
  · obtain ⟨z, w, g1, g2⟩ := mergeUnits_rows h2 h3 h4 h6 h8 h9 t
    obtain ⟨q, hq, hq1, hq2⟩ := readAs_last h8 g1
    have hne : ¬ (catSsize i ++ catSsize j ++ allBytes l = []) := by
      intro hx
      have := congrArg List.length hx
      have := catSsize_pos i
      simp only [List.length_append, List.length_nil] at *
      omega
    have hg : getN t.idx (nodeName k (some s)) = none := getN_none.2 (by rw [← h1]; exact hnew)
    obtain ⟨b, hb⟩ : ∃ b, b = block lib z hidSdb (catSsize i ++ catSsize j ++ allBytes l) := ⟨_, rfl⟩
    obtain ⟨u', hu'⟩ : ∃ u' : IUnit, u' = { w with fidx := 0, offset := mainHead + t.body.length, size := b.length } := ⟨_, rfl⟩
    have hrun : mergeNode lib src t e = some { t with body := t.body ++ b, idx := t.idx ++ [(nodeName k (some s), ⟨some k, some s, [u']⟩)] } := by
      unfold mergeNode
      rw [g2, Option.bind_some]
      simp only
      rw [if_neg hne, h2]
      simp only [Option.map_some, putBlock, h3, idxUpd_new _ hg, List.nil_append, hb, hu']
    refine ⟨_, hrun, ⟨b, rfl⟩, rfl, .inr ⟨by
      unfold full
      have := readAs_ne h8 h9
      simpa using this, _, rfl, by rw [h1]; exact sameN_refl _, .inr (.inr (by simp)), fun hsm => .inl ⟨u', q, l, ?_, h2, h3, h1.symm, hd, rfl, h8, hq, by rw [hu']; exact hq1, by rw [hu']; exact hq2, ?_⟩⟩⟩
    · simp only [List.length_append] at hsm
      have hw := h10 w (List.mem_of_getLast? g1)
      rw [hu']
      refine ⟨⟨hw.active, hw.ktype, hw.sdict, by show (0 : Nat) < 2 ^ 16; omega, ?_, ?_, hw.start, hw.stop⟩, ?_, ?_⟩
      · show mainHead + t.body.length < 2 ^ 64; omega
      · show b.length < 2 ^ 64; omega
      · show mainHead ≤ mainHead + t.body.length; omega
      · show mainHead + t.body.length - mainHead + b.length ≤ (t.body ++ b).length
        simp only [List.length_append]; omega
    · simp only [List.length_append] at hsm
      rw [hu']
      have hbl := block_length lib z hidSdb (catSsize i ++ catSsize j ++ allBytes l)
      rw [← hb] at hbl
      have := readSdb_tab L z (.inl rfl) t.body [] i j h5 h7 (allBytes l) (by omega)
      rw [List.append_nil, ← hb] at this
      exact this
  · rcases h3 with h3 | ⟨u, m, h3, h4, h5, h6⟩
    · refine ⟨t, ?_, ⟨[], by simp⟩, rfl, .inl ⟨by simp [full, h3], rfl⟩⟩
      unfold mergeNode
      rw [h3]
      rfl
    · have hru := readUnit_dict (lib := lib) (by rcases h1 with ⟨_, h⟩ | ⟨_, h⟩ <;> simp [h]) h5 h6
      have hg : getN t.idx sign = none := getN_none.2 fun x hx => by
        rw [sameN_trans_l h2]; exact hnew x hx
      obtain ⟨b, hb⟩ : ∃ b, b = block lib false hid m := ⟨_, rfl⟩
      obtain ⟨u', hu'⟩ : ∃ u' : IUnit, u' = { u with fidx := 0, offset := mainHead + t.body.length, size := b.length } := ⟨_, rfl⟩
      have hrun : mergeNode lib src t e = some { t with body := t.body ++ b, idx := t.idx ++ [(sign, ⟨none, none, [u']⟩)] } := by
        unfold mergeNode
        rw [h3]
        simp only [mergeUnits, hru, Option.bind_some]
        rcases h1 with ⟨rfl, rfl⟩ | ⟨rfl, rfl⟩
        · rw [if_pos rfl]
          simp only [Option.bind_some, if_true, putDict, putBlock, setN_new _ hg, List.nil_append, hb, hu']
        · rw [if_neg (by decide), if_pos rfl]
          simp only [Option.bind_some, if_true, putDict, putBlock, setN_new _ hg, List.nil_append, hb, hu']
      have hbl : b.length = 1 + (catSsize m.length).length + m.length := by rw [hb, block_plain', encRec_len]
      have hcs := catSsize_pos m.length
      refine ⟨_, hrun, ⟨b, rfl⟩, rfl, .inr ⟨by simp [full, h3], _, rfl, by rw [sameN_comm]; exact h2, by rcases h1 with ⟨rfl, _⟩ | ⟨rfl, _⟩ <;> simp [Enc, sameN_refl], fun hsm => .inr ⟨sign, hid, u, u', m, h1, ?_, h2, rfl, h3, rfl, h5, h6, ?_, ?_⟩⟩⟩
      · simp only [List.length_append] at hsm
        rw [hu']
        refine ⟨⟨h4.active, h4.ktype, h4.sdict, by show (0 : Nat) < 2 ^ 16; omega, ?_, ?_, h4.start, h4.stop⟩, ?_, ?_⟩
        · show mainHead + t.body.length < 2 ^ 64; omega
        · show b.length < 2 ^ 64; omega
        · show mainHead ≤ mainHead + t.body.length; omega
        · show mainHead + t.body.length - mainHead + b.length ≤ (t.body ++ b).length
          simp only [List.length_append]; omega
      · simp only [List.length_append] at hsm
        rw [hu']
        have := readAt_block t.body (headByte 1 0 hid) m [] (by omega)
        rw [List.append_nil] at this
        rw [hb, block_plain']
        exact this
      · simp only [List.length_append]; omega

theorem mergeNodes {lib : Lib} (L : ZipOk lib) {src : Ctl} (es : Idx) : ∀ (pre : Idx) (t : Ctl), (∀ e ∈ es, Mergeable lib src e) → (pre ++ es).Pairwise (fun a b => sameN a.1 b.1 = false) →
    (t.body.length < 2 ^ 32 → List.Forall₂ (Moved lib src t.body) (pre.filter full) t.idx) →
    (∀ x ∈ t.idx, Enc x ∧ ∃ e ∈ pre, sameN e.1 x.1 = true) → ((∃ e ∈ pre, full e = true) → t.idx ≠ []) →
    ∃ t', es.foldlM (mergeNode lib src) t = some t' ∧ (∃ x, t'.body = t.body ++ x) ∧ t' = { t with body := t'.body, idx := t'.idx } ∧
      (t'.body.length < 2 ^ 32 → List.Forall₂ (Moved lib src t'.body) ((pre ++ es).filter full) t'.idx) ∧ (∀ x ∈ t'.idx, Enc x) ∧ ((∃ e ∈ pre ++ es, full e = true) → t'.idx ≠ []) := by
  induction es with
  | nil => intro pre t _ _ hf hx hy; exact ⟨t, rfl, ⟨[], by simp⟩, rfl, by simpa using hf, fun x h => (hx x h).1, by simpa using hy⟩
  | cons e es ih =>
    intro pre t he hd hf hx hy
    have hnew : ∀ x ∈ t.idx, sameN e.1 x.1 = false := by
      intro x h
      obtain ⟨_, y, hy, hyx⟩ := hx x h
      have := (List.pairwise_append.1 hd).2.2 y hy e (by simp)
      rw [sameN_comm, ← sameN_trans_l hyx, this]
    obtain ⟨t1, h1, ⟨x1, h2⟩, h3, h4⟩ := mergeNode_step L (he e (by simp)) hnew
    have hd' : ((pre ++ [e]) ++ es).Pairwise (fun a b => sameN a.1 b.1 = false) := by rw [List.append_assoc]; exact hd
    have key : (t1.body.length < 2 ^ 32 → List.Forall₂ (Moved lib src t1.body) ((pre ++ [e]).filter full) t1.idx) ∧ (∀ x ∈ t1.idx, Enc x ∧ ∃ y ∈ pre ++ [e], sameN y.1 x.1 = true) ∧
        ((∃ x ∈ pre ++ [e], full x = true) → t1.idx ≠ []) := by
      rcases h4 with ⟨g1, g2⟩ | ⟨g1, e', g2, g3, g5, g4⟩
      · subst g2
        refine ⟨fun hs => ?_, fun x h => ?_, ?_⟩
        · rw [List.filter_append, show [e].filter full = [] by simp [g1], List.append_nil]; exact hf hs
        · obtain ⟨hz, y, hy, hyx⟩ := hx x h
          exact ⟨hz, y, by simp [hy], hyx⟩
        · rintro ⟨x, h, hfx⟩
          rcases List.mem_append.1 h with h | h
          · exact hy ⟨x, h, hfx⟩
          · rw [List.mem_singleton] at h; rw [h, g1] at hfx; cases hfx
      · refine ⟨fun hs => ?_, fun x h => ?_, fun _ => by rw [g2]; simp⟩
        · rw [List.filter_append, show [e].filter full = [e] by simp [g1], g2]
          refine List.rel_append ((hf ?_).imp fun a b h => ?_) (.cons (g4 hs) .nil)
          · rw [h2, List.length_append] at hs; omega
          · rw [h2]; exact h.mono x1
        · rw [g2, List.mem_append, List.mem_singleton] at h
          rcases h with h | rfl
          · obtain ⟨hz, y, hy, hyx⟩ := hx x h
            exact ⟨hz, y, by simp [hy], hyx⟩
          · exact ⟨g5, e, by simp, g3⟩
    obtain ⟨t2, k1, ⟨x2, k2⟩, k3, k4, k5, k6⟩ := ih (pre ++ [e]) t1 (fun e h => he e (by simp [h])) hd' key.1 key.2.1 key.2.2
    refine ⟨t2, ?_, ⟨x1 ++ x2, by rw [k2, h2, List.append_assoc]⟩, by rw [k3, h3], fun hs => ?_, k5, fun h => k6 (by rwa [List.append_assoc])⟩
    · rw [List.foldlM_cons, h1]; exact k1
    · have := k4 hs; rwa [List.append_assoc] at this

/-! ### The whole index -/

theorem getN_mem {α : Type} {l : List (Bytes × α)} (hd : l.Pairwise fun a b => sameN a.1 b.1 = false) {e : Bytes × α} (h : e ∈ l) {n : Bytes} (hn : sameN n e.1 = true) : getN l n = some e.2 := by
  unfold getN
  have : l.find? (fun x => sameN n x.1) = some e := by
    have e3 : (fun x : Bytes × α => sameN n x.1) = fun x => sameN e.1 x.1 := by
      funext x; exact sameN_trans_l hn
    rw [e3]
    clear e3 hn
    induction l with
    | nil => cases h
    | cons o l ih =>
      rw [List.find?_cons]
      rcases List.mem_cons.1 h with rfl | h
      · rw [sameN_refl]
      · have := (List.pairwise_cons.1 hd).1 e h
        rw [sameN_comm] at this
        rw [this]
        exact ih (List.pairwise_cons.1 hd).2 h
  rw [this]; rfl

theorem forall2_getN {R : Bytes × Node → Bytes × Node → Prop} (hR : ∀ a b, R a b → sameN a.1 b.1 = true) {l l' : Idx} (h : List.Forall₂ R l l') (n : Bytes) :
    (getN l n = none ∧ getN l' n = none) ∨ ∃ e ∈ l, ∃ e' ∈ l', R e e' ∧ sameN n e.1 = true ∧ getN l n = some e.2 ∧ getN l' n = some e'.2 := by
  induction h with
  | nil => exact .inl ⟨rfl, rfl⟩
  | cons hab _ ih =>
    rename_i a b l l' _
    by_cases hn : sameN n a.1 = true
    · have hb : sameN n b.1 = true := by rw [← sameN_trans_r (hR _ _ hab)]; exact hn
      exact .inr ⟨a, by simp, b, by simp, hab, hn, by simp [getN, hn], by simp [getN, hb]⟩
    · have hb : ¬ sameN n b.1 = true := by rw [← sameN_trans_r (hR _ _ hab)]; exact hn
      have e1 : getN (a :: l) n = getN l n := by simp [getN, hn]
      have e2 : getN (b :: l') n = getN l' n := by simp [getN, hb]
      rw [e1, e2]
      rcases ih with h | ⟨e, h1, e', h2, h3⟩
      · exact .inl h
      · exact .inr ⟨e, by simp [h1], e', by simp [h2], h3⟩

theorem forall2_mem {R : Bytes × Node → Bytes × Node → Prop} {l l' : Idx} (h : List.Forall₂ R l l') {e' : Bytes × Node} (he : e' ∈ l') : ∃ e ∈ l, R e e' := by
  induction h with
  | nil => cases he
  | cons hab _ ih =>
    rcases List.mem_cons.1 he with rfl | he
    · exact ⟨_, by simp, hab⟩
    · obtain ⟨e, h1, h2⟩ := ih he
      exact ⟨e, by simp [h1], h2⟩

theorem forall2_diff {R : Bytes × Node → Bytes × Node → Prop} (hR : ∀ a b, R a b → sameN a.1 b.1 = true) {l l' : Idx} (h : List.Forall₂ R l l') (hd : l.Pairwise fun a b => sameN a.1 b.1 = false) :
    l'.Pairwise fun a b => sameN a.1 b.1 = false := by
  induction h with
  | nil => simp
  | cons hab ht ih =>
    rename_i a b l l' 
    rw [List.pairwise_cons] at hd ⊢
    refine ⟨fun x hx => ?_, ih hd.2⟩
    obtain ⟨e, he, hex⟩ := forall2_mem ht hx
    rw [← sameN_trans_l (hR _ _ hab), ← sameN_trans_r (hR _ _ hex)]
    exact hd.1 e he

theorem moved_dict {lib : Lib} {c t : Ctl} (hd : c.idx.Pairwise fun a b => sameN a.1 b.1 = false) (h : List.Forall₂ (Moved lib c t.body) (c.idx.filter full) t.idx) {sign : Bytes} {hid : Nat}
    (hs : (sign = signKeys ∧ hid = hidKeys) ∨ (sign = signTabs ∧ hid = hidTabs)) :
    (dictUnits c.idx sign = [] ∧ dictUnits t.idx sign = []) ∨ ∃ u u' m, dictUnits c.idx sign = [u] ∧ dictUnits t.idx sign = [u'] ∧ m ≠ [] ∧
      readAt c.body u.offset u.size = some (m.length, headByte 1 0 hid, m) ∧ readAt t.body u'.offset u'.size = some (m.length, headByte 1 0 hid, m) ∧ m.length + 2 ≤ t.body.length := by
  rcases forall2_getN (fun _ _ h => h.name) h sign with ⟨h1, h2⟩ | ⟨e, he, e', he', hm, hse, h1, h2⟩
  · left
    refine ⟨?_, by unfold dictUnits; rw [h2]; rfl⟩
    unfold dictUnits
    cases hg : getN c.idx sign with
    | none => rfl
    | some nd =>
      obtain ⟨i, e, k1, k2, k3⟩ := getN_some hg
      have hmem := List.mem_of_getElem? k1
      cases hf : full e with
      | true =>
        have := getN_none.1 h1 e (List.mem_filter.2 ⟨hmem, hf⟩)
        rw [k3] at this; exact absurd this (by simp)
      | false =>
        rw [← k2]
        simpa [full] using hf
  · right
    have hmem := (List.mem_filter.1 he).1
    rcases hm with ⟨u', w, l, _, _, _, _, h5, _⟩ | ⟨sign', hid', u, u', m, g1, g2, g3, g4, g5, g6, g7, g8, g9, g10⟩
    · rcases hs with ⟨rfl, _⟩ | ⟨rfl, _⟩
      · rw [h5.1] at hse; cases hse
      · rw [h5.2] at hse; cases hse
    · have : hid' = hid := by
        rcases hs with ⟨rfl, rfl⟩ | ⟨rfl, rfl⟩ <;> rcases g1 with ⟨rfl, rfl⟩ | ⟨rfl, rfl⟩
        · rfl
        · have := sameN_trans_r (c := signTabs) hse; rw [g3] at this; revert this; decide
        · have := sameN_trans_r (c := signKeys) hse; rw [g3] at this; revert this; decide
        · rfl
      subst this
      refine ⟨u, u', m, ?_, ?_, g7, g8, g9, g10⟩
      · unfold dictUnits; rw [getN_mem hd hmem hse]; exact g5
      · unfold dictUnits; rw [h2]; exact g6

theorem pieces_len (d : Bytes) : ∀ acc : Bytes, (pieces acc d).length ≤ d.length + 1 := by
  induction d with
  | nil => intro acc; simp only [pieces]; split <;> simp
  | cons c d ih =>
    intro acc
    simp only [pieces]
    split
    · have := ih []; simp only [List.length_cons]; omega
    · have := ih (c :: acc); simp only [List.length_cons]; omega

theorem addKeys_len (ks : List Bytes) : ∀ kd : List Bytes, (ks.foldl addKey kd).length ≤ kd.length + ks.length := by
  induction ks with
  | nil => simp
  | cons k ks ih =>
    intro kd
    have := ih (addKey kd k)
    have h2 : (addKey kd k).length ≤ kd.length + 1 := by unfold addKey; split <;> simp
    simp only [List.foldl_cons, List.length_cons]
    omega

theorem addTabs_len (ts : List Tab) : ∀ sd : TDict, (ts.foldl (fun sd t => (addTab sd t).1) sd).length ≤ sd.length + ts.length := by
  induction ts with
  | nil => simp
  | cons t ts ih =>
    intro sd
    have := ih (addTab sd t).1
    have h2 := addTab_len sd t
    simp only [List.foldl_cons, List.length_cons]
    omega

/-- Blocks of a file as one. -/
def oneV (l : Blocks) : Blocks :=
  match l.getLast? with
  | none => []
  | some z => [(z.1, z.2.1, some (hidSdb, l.flatMap fun b => (b.2.2.map (·.2)).getD []))]

theorem oneV_rows (y : Nat) (l : List (Nat × Nat × Bytes)) : oneV (rowBlocks (.year y) l) = rowBlocks (.year y) (asOne l) := by
  unfold oneV asOne rowBlocks
  rw [List.getLast?_map]
  cases l.getLast? with
  | none => rfl
  | some z => simp [allBytes, List.flatMap_map]

theorem kind_nots {u : Uid} (h : u ≠ .nots) : u.kind ≠ .nots := by
  cases u <;> first | exact absurd rfl h | simp [Uid.kind]

theorem mergeable {lib : Lib} {P : Db → Prop} {u : Uid} {c : Ctl} (h : UOk lib P u c) (hu : u ≠ .nots) (hb : c.body.length < 2 ^ 32) (hdat : ∀ e ∈ data c.idx, ∃ l, l ≠ [] ∧ ReadsAs lib c.body e.2.units l)
    (hk : (dictUnits c.idx signKeys).length ≤ 1) (hs : (dictUnits c.idx signTabs).length ≤ 1) : ∀ e ∈ c.idx, Mergeable lib c e := by
  intro e he
  have hdict : ∀ sign hid Q, ((sign = signKeys ∧ hid = hidKeys) ∨ (sign = signTabs ∧ hid = hidTabs)) → sameN sign e.1 = true → (dictUnits c.idx sign).length ≤ 1 →
      (∀ u ∈ dictUnits c.idx sign, DictAt c.body hid Q u) → Mergeable lib c e := by
    intro sign hid Q h1 h2 h3 h4
    have hg : dictUnits c.idx sign = e.2.units := by unfold dictUnits; rw [getN_mem h.inv.diff he h2]; rfl
    rw [hg] at h3 h4
    refine .inr ⟨sign, hid, h1, h2, ?_⟩
    cases hu : e.2.units with
    | nil => exact .inl rfl
    | cons x xs =>
      cases xs with
      | nil =>
        obtain ⟨m, m1, _, m2⟩ := h4 x (by simp [hu])
        exact .inr ⟨x, m, rfl, (h.inv.units e he x (by simp [hu])).1, m1, m2⟩
      | cons => rw [hu] at h3; simp at h3
  cases h1 : sameN signKeys e.1 with
  | true => exact hdict signKeys hidKeys _ (.inl ⟨rfl, rfl⟩) h1 hk h.inv.kkind
  | false =>
    cases h2 : sameN signTabs e.1 with
    | true => exact hdict signTabs hidTabs _ (.inr ⟨rfl, rfl⟩) h2 hs h.inv.tkind
    | false =>
      have hd : e ∈ data c.idx := List.mem_filter.2 ⟨he, by simp [h1, h2]⟩
      obtain ⟨k, s, hn⟩ := h.inv.nodes e hd
      have hkn : c.kind ≠ .nots := by rw [h.kind]; exact kind_nots hu
      have hsn := h.inv.tabbed hkn e hd
      rw [hn.sname] at hsn
      cases s with
      | none => exact absurd rfl hsn
      | some s =>
        obtain ⟨dbs, hdb⟩ := hn.tab s rfl
        obtain ⟨i, i1, i2⟩ := getKey_self_lt h.inv.kdiff hn.key
        obtain ⟨j, j1, j2⟩ := getTab_self h.inv.sdiff hdb
        obtain ⟨l, l1, l2⟩ := hdat e hd
        have hkc := h.kc
        have hsc := h.sc
        rw [h.newk] at hkc
        rw [h.news] at hsc
        simp only [List.length_nil] at hkc hsc
        exact .inl ⟨⟨h1, h2⟩, k, s, i, j, dbs, l, hn.name, hn.kname, hn.sname, i1, by omega, j1, by omega, l2, l1, fun u hu => (h.inv.units e he u hu).1⟩

theorem readKeys_one {lib : Lib} {body : Bytes} {kd : List Bytes} {u : IUnit} {m : Bytes} (hm : m ≠ []) (h : readAt body u.offset u.size = some (m.length, headByte 1 0 hidKeys, m)) :
    readKeys lib body kd [u] = some (loadKeys kd m) := by
  have hz : zipOf (headByte 1 0 hidKeys) = 0 := by decide
  simp only [readKeys, h, Option.bind_some, unzip, hz, if_true]
  rw [if_neg (by simpa using hm), if_neg hm]
  rfl

theorem readTabs_one {lib : Lib} {body : Bytes} {sd : TDict} {u : IUnit} {m : Bytes} (hm : m ≠ []) (h : readAt body u.offset u.size = some (m.length, headByte 1 0 hidTabs, m)) :
    readTabs lib body sd [u] = some (loadTabs lib sd m) := by
  have hz : zipOf (headByte 1 0 hidTabs) = 0 := by decide
  simp only [readTabs, h, Option.bind_some, unzip, hz, if_true]
  rw [if_neg (by simpa using hm), if_neg hm]
  rfl

theorem encPages_some {lib : Lib} (htr : lib.trace = false) (ns : List Node) : ∀ mem : Bytes, (∀ n ∈ ns, n.kname ≠ none) → ∃ ps, encPages lib mem ns = some ps ∧ (mem ≠ [] ∨ ns ≠ [] → ps ≠ []) := by
  induction ns with
  | nil => intro mem _; exact ⟨_, rfl, by rintro (h | h) <;> simp_all⟩
  | cons n ns ih =>
    intro mem h
    have hn := encNode_eq htr (h n (by simp))
    have hne : mem ++ nodeBytes n ≠ [] := by
      intro hx
      have := congrArg List.length hx
      have h2 := catSsize_pos (n.kname.getD []).length
      simp only [nodeBytes, List.length_append, List.length_nil] at *
      omega
    obtain ⟨ps, p1, p2⟩ := ih [] fun n hn => h n (by simp [hn])
    obtain ⟨qs, q1, q2⟩ := ih (mem ++ nodeBytes n) fun n hn => h n (by simp [hn])
    by_cases hp : idxPage < (mem ++ nodeBytes n).length
    · exact ⟨(mem ++ nodeBytes n) :: ps, by rw [encPages, hn, Option.bind_some, if_pos hp, p1]; rfl, by simp⟩
    · exact ⟨qs, by rw [encPages, hn, Option.bind_some, if_neg hp, q1], fun _ => q2 (.inl hne)⟩

theorem close_some {lib : Lib} (htr : lib.trace = false) {t : Ctl} (h : ∀ x ∈ t.idx, Enc x) (hne : t.idx ≠ []) : ∃ g, closeUnit lib t = some g := by
  obtain ⟨ps, p1, p2⟩ := encPages_some htr ((data t.idx).map (·.2)) [] (by
    intro n hn
    obtain ⟨e, he, rfl⟩ := List.mem_map.1 hn
    obtain ⟨e1, e2⟩ := List.mem_filter.1 he
    rcases h e e1 with h | h | h
    · simp [h] at e2
    · simp [h] at e2
    · exact h)
  unfold closeUnit encIdx
  have p1' : encPages lib [] ((t.idx.filter fun e => !sameN signKeys e.1 && !sameN signTabs e.1).map (·.2)) = some ps := p1
  simp only [p1', Option.map_some, Option.bind_some]
  rw [if_neg]
  · exact ⟨_, rfl⟩
  · cases h1 : getN t.idx signKeys with
    | some _ => simp
    | none =>
      cases h2 : getN t.idx signTabs with
      | some _ => simp
      | none =>
        simp only [List.nil_append, List.map_eq_nil_iff]
        refine p2 (.inr ?_)
        obtain ⟨e, he⟩ := List.exists_mem_of_ne_nil _ hne
        have : e ∈ data t.idx := List.mem_filter.2 ⟨he, by simp [getN_none.1 h1 e he, getN_none.1 h2 e he]⟩
        intro hx
        rw [List.map_eq_nil_iff] at hx
        rw [hx] at this
        cases this

/-- The new file has the dictionaries of the old one and every entry as one block. -/
theorem merged {lib : Lib} {P : Db → Prop} (L : ZipOk lib) {u : Uid} {c : Ctl} (h : UOk lib P u c) (hu : u ≠ .nots) (hb : c.body.length < 2 ^ 32)
    (hdat : ∀ e ∈ data c.idx, ∃ l, l ≠ [] ∧ ReadsAs lib c.body e.2.units l) (hk : (dictUnits c.idx signKeys).length ≤ 1) (hs : (dictUnits c.idx signTabs).length ≤ 1) :
    ∃ t, c.idx.foldlM (mergeNode lib c) { kind := u.kind } = some t ∧ (data c.idx ≠ [] → lib.trace = false → ∃ g, closeUnit lib t = some g) ∧ (t.body.length < 2 ^ 32 → UOk lib P u { t with kd := c.kd, sd := c.sd } ∧
      ∀ n, IsData n → view lib { t with kd := c.kd, sd := c.sd } n = (view lib c n).map oneV) := by
  obtain ⟨t, h1, h2, h3, h4, h5, h6⟩ := mergeNodes L c.idx [] { kind := u.kind } (mergeable h hu hb hdat hk hs) h.inv.diff (fun _ => .nil) (by simp) (by simp)
  refine ⟨t, h1, fun hne htr => ?_, fun hsz => ?_⟩
  · refine close_some htr h5 (h6 ?_)
    obtain ⟨e, he⟩ := List.exists_mem_of_ne_nil _ hne
    obtain ⟨l, l1, l2⟩ := hdat e he
    refine ⟨e, (List.mem_filter.1 he).1, ?_⟩
    have := readAs_ne l2 l1
    simpa [full] using this
  have hF := h4 hsz
  rw [List.nil_append] at hF
  have hdf := forall2_diff (fun _ _ h => h.name) hF (h.inv.diff.filter _)
  have hkd := moved_dict h.inv.diff hF (.inl ⟨rfl, rfl⟩)
  have htd := moved_dict h.inv.diff hF (.inr ⟨rfl, rfl⟩)
  obtain ⟨kd, k1, k2⟩ := h.inv.keys
  obtain ⟨sd, s1, s2⟩ := h.inv.tabs
  rw [h.newk, List.append_nil] at k2
  rw [h.news, List.foldl_nil] at s2
  rw [h3]
  have hdata : ∀ e' ∈ data t.idx, ∃ e ∈ data c.idx, Moved lib c t.body e e' ∧ e'.1 = e.1 ∧ e.2.kname = e'.2.kname ∧ e.2.sname = e'.2.sname := by
    intro e' he'
    obtain ⟨m1, m2⟩ := List.mem_filter.1 he'
    obtain ⟨e, g1, g2⟩ := forall2_mem hF m1
    rcases g2 with ⟨u', w, l, q1, q2, q3, q4, q5, q6⟩ | ⟨sign, hid, u, u', m, q1, q2, q3, q4, q5⟩
    · exact ⟨e, List.mem_filter.2 ⟨(List.mem_filter.1 g1).1, by simp [q5.1, q5.2]⟩, .inl ⟨u', w, l, q1, q2, q3, q4, q5, q6⟩, q4, q2, q3⟩
    · rw [q4] at m2
      exfalso
      rcases q1 with ⟨rfl, _⟩ | ⟨rfl, _⟩ <;> revert m2 <;> decide
  refine ⟨⟨⟨?_, rfl, h.pdbs, fun _ => ⟨rfl, rfl⟩, ?_, ?_⟩, rfl, rfl⟩, ?_⟩
  · exact
    { kind := by have := u.kind_ne; simp [Ctl.indexed, this]
      diff := hdf
      keys := by
        refine ⟨kd, ?_, by simp [k2]⟩
        rcases hkd with ⟨e1, e2⟩ | ⟨x, x', m, e1, e2, e3, e4, e5, _⟩
        · show readKeys lib t.body [] (dictUnits t.idx signKeys) = some kd
          rw [e2]; rw [e1] at k1; exact k1
        · show readKeys lib t.body [] (dictUnits t.idx signKeys) = some kd
          rw [e2, readKeys_one e3 e5]; rw [e1, readKeys_one e3 e4] at k1; exact k1
      tabs := by
        refine ⟨sd, ?_, by simp [s2]⟩
        rcases htd with ⟨e1, e2⟩ | ⟨x, x', m, e1, e2, e3, e4, e5, _⟩
        · show readTabs lib t.body [] (dictUnits t.idx signTabs) = some sd
          rw [e2]; rw [e1] at s1; exact s1
        · show readTabs lib t.body [] (dictUnits t.idx signTabs) = some sd
          rw [e2, readTabs_one e3 e5]; rw [e1, readTabs_one e3 e4] at s1; exact s1
      kdiff := h.inv.kdiff
      knames := h.inv.knames
      sdiff := h.inv.sdiff
      snames := h.inv.snames
      news := by intro _ hx; cases hx
      nodes := by
        intro e' he'
        obtain ⟨e, g1, _, g3, g4, g5⟩ := hdata e' he'
        obtain ⟨k, s, hn⟩ := h.inv.nodes e g1
        exact ⟨k, s, g3.trans hn.name, g4.symm.trans hn.kname, g5.symm.trans hn.sname, hn.key, hn.tab⟩
      units := by
        intro e' he' x hx
        obtain ⟨e, _, g2⟩ := forall2_mem hF he'
        rcases g2 with ⟨u', w, l, q1, q2, q3, q4, q5, q6, _⟩ | ⟨sign, hid, u, u', m, q1, q2, q3, q4, q5, q6, _⟩
        · rw [q6, List.mem_singleton] at hx; subst hx; exact q1
        · rw [q6, List.mem_singleton] at hx; subst hx; exact q2
      kkind := by
        intro x hx
        have hx : x ∈ dictUnits t.idx signKeys := hx
        rcases hkd with ⟨e1, e2⟩ | ⟨x, x', m, e1, e2, e3, e4, e5, _⟩
        · rw [e2] at hx; cases hx
        · rw [e2, List.mem_singleton] at hx; subst hx; exact ⟨m, e3, trivial, e5⟩
      tkind := by
        intro x hx
        have hx : x ∈ dictUnits t.idx signTabs := hx
        rcases htd with ⟨e1, e2⟩ | ⟨x, x', m, e1, e2, e3, e4, e5, _⟩
        · rw [e2] at hx; cases hx
        · rw [e2, List.mem_singleton] at hx; subst hx
          obtain ⟨m', m1, m2, m3⟩ := h.inv.tkind x (by simp [e1])
          rw [e4] at m3
          have : m = m' := congrArg (fun x => x.2.2) (Option.some.inj m3)
          subst this
          exact ⟨m, e3, m2, e5⟩
      tabbed := by
        intro _ e' he'
        obtain ⟨e, g1, _, g3, g4, g5⟩ := hdata e' he'
        rw [← g5]
        refine h.inv.tabbed ?_ e g1
        rw [h.kind]; exact kind_nots hu }
  · show c.kd.length ≤ t.body.length + _
    rcases hkd with ⟨e1, e2⟩ | ⟨x, x', m, e1, e2, e3, e4, e5, e6⟩
    · rw [e1] at k1; cases k1; rw [k2]; simp
    · rw [e1, readKeys_one e3 e4] at k1
      rw [k2, ← Option.some.inj k1]
      have h1 := addKeys_len (splitNames m) []
      have h2 := pieces_len m []
      simp only [splitNames, List.length_map, List.length_nil] at h1
      unfold loadKeys
      unfold splitNames
      simp only [List.length_nil]
      omega
  · show c.sd.length ≤ t.body.length + _
    rcases htd with ⟨e1, e2⟩ | ⟨x, x', m, e1, e2, e3, e4, e5, e6⟩
    · rw [e1] at s1; cases s1; rw [s2]; simp
    · rw [e1, readTabs_one e3 e4] at s1
      rw [s2, ← Option.some.inj s1]
      have h1 := addTabs_len (lib.parse m) []
      obtain ⟨m', m1, m2, m3⟩ := h.inv.tkind x (by simp [e1])
      rw [e4] at m3
      have : m = m' := congrArg (fun x => x.2.2) (Option.some.inj m3)
      subst this
      simp only [List.length_nil] at h1
      unfold loadTabs
      split
      · simp
      · simp only [List.length_nil]
        omega
  · intro n hn
    unfold view
    show (getN t.idx n).map _ = _
    rcases forall2_getN (fun _ _ h => h.name) hF n with ⟨h1, h2⟩ | ⟨e, he, e', he', hm, hse, h1, h2⟩
    · rw [h2]
      cases hg : getN c.idx n with
      | none => rfl
      | some nd =>
        obtain ⟨i, e, k1, k2, k3⟩ := getN_some hg
        have hmem := List.mem_of_getElem? k1
        have hde : e ∈ data c.idx := List.mem_filter.2 ⟨hmem, by
          have := hn
          simp only [IsData] at this
          rw [sameN_trans_r k3] at this
          rw [sameN_trans_r (c := signTabs) k3] at this
          simp [this.1, this.2]⟩
        obtain ⟨l, l1, l2⟩ := hdat e hde
        have hf : full e = true := by
          have := readAs_ne l2 l1
          simpa [full] using this
        have := getN_none.1 h1 e (List.mem_filter.2 ⟨hmem, hf⟩)
        rw [k3] at this; exact absurd this (by simp)
    · have hg := getN_mem h.inv.diff (List.mem_filter.1 he).1 hse
      rw [h2, hg]
      rcases hm with ⟨u', w, l, q1, q2, q3, q4, q5, q6, q7, q8, q9, q10, q11⟩ | ⟨sign, hid, u, u', m, q1, q2, q3, q4, q5⟩
      · simp only [Option.map_some, q6, List.map_cons, List.map_nil, q9, q10, q11]
        unfold ReadsAs at q7
        rw [q7]
        have : rowBlocks (.year 0) l = l.map fun b => (b.1, b.2.1, some (hidSdb, b.2.2)) := rfl
        rw [← this, oneV_rows]
        simp [asOne, q8, rowBlocks]
      · exfalso
        have h9 := sameN_trans_r (c := sign) hse
        rw [q3] at h9
        rcases q1 with ⟨rfl, _⟩ | ⟨rfl, _⟩
        · rw [hn.1] at h9; cases h9
        · rw [hn.2] at h9; cases h9

end Sis.Sdb
