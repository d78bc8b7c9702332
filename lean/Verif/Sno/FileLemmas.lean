import Mathlib.Data.List.Forall2
import Verif.Sno.IndexLemmas
import Verif.Sdb.Refine
/- Lemmas on an open file of records in order: the blocks in the file and the nodes of the index. -/
namespace Sis.Sno
open Sis Sis.Disk Sis.Sdb
open Sis.Dyn (sameN getN setN Db sameN_iff sameN_refl getN_none getN_some setN_spec getN_congr)

/-! ### Blocks of records -/

/-- The block an index names has these records. -/
structure UnitHas (lib : Lib) (body : Bytes) (kd : List Bytes) (tv : List (Bytes × Nat)) (u : IUnit) (k s : Bytes) (q : List (Nat × Rec)) : Prop where
  within : u.offset - mainHead + u.size ≤ body.length
  read : ∃ n b z m, readAt body u.offset u.size = some (n, b, z) ∧ n ≠ 0 ∧ unzip lib b z = some m ∧ hidOf b = hidSno ∧ Content kd tv m k s q

theorem UnitHas.mono {lib : Lib} {body : Bytes} {kd kd' : List Bytes} {tv tv' : List (Bytes × Nat)} {u : IUnit} {k s : Bytes} {q : List (Nat × Rec)}
    (h : UnitHas lib body kd tv u k s q) (x : Bytes) (hk : kd <+: kd') (ht : tv <+: tv') : UnitHas lib (body ++ x) kd' tv' u k s q := by
  obtain ⟨h1, n, b, z, m, h2, h3, h4, h5, h6⟩ := h
  exact ⟨by simp only [List.length_append]; omega, n, b, z, m, by rw [readAt_append x h1]; exact h2, h3, h4, h5, h6.mono hk ht⟩

/-- The pages with records of a key and a table. -/
def pagesFrom : Nat → List (List Rec) → Bytes → Bytes → List (Nat × List (Nat × Rec))
  | _, [], _, _ => []
  | i, p :: ps, k, s => (if mine p k s = [] then [] else [(i, mine p k s)]) ++ pagesFrom (i + 1) ps k s

theorem pagesFrom_append (k s : Bytes) (as bs : List (List Rec)) : ∀ i, pagesFrom i (as ++ bs) k s = pagesFrom i as k s ++ pagesFrom (i + as.length) bs k s := by
  induction as with
  | nil => intro i; rfl
  | cons a as ih => intro i; simp only [List.cons_append, pagesFrom, ih, List.length_cons, List.append_assoc]; congr 3; omega

theorem pagesFrom_range (k s : Bytes) (as : List (List Rec)) : ∀ i, ∀ e ∈ pagesFrom i as k s, i ≤ e.1 ∧ e.1 < i + as.length ∧ e.2 ≠ [] := by
  induction as with
  | nil => intro i e he; cases he
  | cons a as ih =>
    intro i e he
    simp only [pagesFrom] at he
    rcases List.mem_append.1 he with he | he
    · split at he
      · cases he
      · rename_i hm; rw [List.mem_singleton.1 he]; exact ⟨Nat.le_refl _, by simp, hm⟩
    · have := ih _ e he; simp only [List.length_cons]; exact ⟨by omega, by omega, this.2.2⟩

theorem pagesFrom_length (k s : Bytes) (as : List (List Rec)) : ∀ i, (pagesFrom i as k s).length ≤ as.length := by
  induction as with
  | nil => intro i; simp [pagesFrom]
  | cons a as ih =>
    intro i
    have := ih (i + 1)
    simp only [pagesFrom, List.length_append, List.length_cons]
    split <;> simp <;> omega

def unitsOf (idx : Idx) (k s : Bytes) : List IUnit := dictUnits idx (nodeName k (some s))

/-- The blocks of a node are the pages with records of its key and table. -/
def Units (lib : Lib) (c : Ctl) (L : Bytes → Bytes → List (Nat × List (Nat × Rec))) : Prop :=
  ∀ k s, k ∈ c.kd → (∃ n, (s, n) ∈ tabView c.sd) →
    List.Forall₂ (fun u pq => u.stop = pq.1 ∧ UnitHas lib c.body c.kd (tabView c.sd) u k s pq.2) (unitsOf c.idx k s) (L k s)

/-- The nodes of a file of records. -/
def Nodes (c : Ctl) : Prop := ∀ e ∈ data c.idx, (∃ k s, Named c.kd c.sd e k (some s)) ∧ e.2.units ≠ []

/-- The blocks of the file, played from the first to the last, give these records. -/
def Whole (lib : Lib) (body : Bytes) (kd : List Bytes) (tv : List (Bytes × Nat)) (rs : List Rec) : Prop :=
  ∃ bs : List (UInt8 × Bytes), body = bs.flatMap (fun b => encRec b.1 b.2) ∧ (∀ b ∈ bs, hidOf b.1 ≠ 0 ∧ hidOf b.1 ≠ 31 ∧ b.2.length < 2 ^ 64) ∧
    ∀ c' : Ctl, kd <+: c'.kd → tv <+: tabView c'.sd → ∀ quit h more,
      playBlocks lib c' quit [] h (bs ++ more) = playBlocks lib c' quit [] (deliver quit h rs) more

theorem playBlocks_stop (lib : Lib) (c : Ctl) (quit : List Rec → Bool) (rc : List (Nat × Rec)) (h : Heard) (hh : h.2 = true) (bs : List (UInt8 × Bytes)) :
    playBlocks lib c quit rc h bs = some h := by
  cases bs with
  | nil => rfl
  | cons b bs => simp [playBlocks, hh]

/-! ### Names -/

theorem tabView_mem {sd : TDict} {s : Bytes} {n : Nat} (h : (s, n) ∈ tabView sd) : ∃ dbs, (s, dbs) ∈ sd := by
  obtain ⟨e, he, h1⟩ := List.mem_map.1 h
  simp only [Prod.mk.injEq] at h1
  exact ⟨e.2, by rw [← h1.1]; exact he⟩

theorem mem_tabView {sd : TDict} {s : Bytes} {dbs : List Db} (h : (s, dbs) ∈ sd) : ∃ n, (s, n) ∈ tabView sd :=
  ⟨_, List.mem_map.2 ⟨_, h, rfl⟩⟩

theorem key_eq {kd : List Bytes} (hd : kd.Pairwise fun a b => sameN a b = false) {a b : Bytes} (ha : a ∈ kd) (hb : b ∈ kd) (h : sameN a b = true) : a = b := by
  induction kd with
  | nil => cases ha
  | cons k l ih =>
    have hd' := List.pairwise_cons.1 hd
    rcases List.mem_cons.1 ha with ha | ha <;> rcases List.mem_cons.1 hb with hb | hb
    · rw [ha, hb]
    · rw [ha, hd'.1 b hb] at h; cases h
    · rw [sameN_comm, hb, hd'.1 a ha] at h; cases h
    · exact ih hd'.2 ha hb

theorem tab_eq {sd : TDict} (hd : sd.Pairwise fun a b => sameN a.1 b.1 = false) {a b : Bytes} (ha : ∃ d, (a, d) ∈ sd) (hb : ∃ d, (b, d) ∈ sd)
    (h : sameN a b = true) : a = b := by
  obtain ⟨d, ha⟩ := ha
  obtain ⟨d', hb⟩ := hb
  refine key_eq (kd := sd.map (·.1)) ?_ (List.mem_map.2 ⟨_, ha, rfl⟩) (List.mem_map.2 ⟨_, hb, rfl⟩) h
  rw [List.pairwise_map]; exact hd

theorem node_eq {lib : Lib} {P : Db → Prop} {c : Ctl} (h : Inv lib P c) {k k' s s' : Bytes} (hk : k ∈ c.kd) (hk' : k' ∈ c.kd) (hs : ∃ d, (s, d) ∈ c.sd) (hs' : ∃ d, (s', d) ∈ c.sd)
    (hn : sameN (nodeName k (some s)) (nodeName k' (some s')) = true) : k = k' ∧ s = s' := by
  have := (node_same (h.knames k hk).dot (h.knames k' hk').dot).1 hn
  exact ⟨key_eq h.kdiff hk hk' (fold_same.2 this.1), tab_eq h.sdiff hs hs' (fold_same.2 this.2)⟩

theorem tab_self' {α : Type} {l : List (Bytes × α)} (hd : l.Pairwise fun a b => sameN a.1 b.1 = false) {e : Bytes × α} (h : e ∈ l) :
    l.find? (fun x => sameN e.1 x.1) = some e := by
  induction l with
  | nil => cases h
  | cons o l ih =>
    rw [List.find?_cons]
    rcases List.mem_cons.1 h with rfl | h
    · rw [sameN_refl]
    · have := (List.pairwise_cons.1 hd).1 e h
      rw [sameN_comm] at this
      rw [this]
      exact ih (List.pairwise_cons.1 hd).2 h

theorem getN_mem {α : Type} {l : List (Bytes × α)} (hd : l.Pairwise fun a b => sameN a.1 b.1 = false) {e : Bytes × α} (h : e ∈ l) : getN l e.1 = some e.2 := by
  unfold getN; rw [tab_self' hd h]; rfl

/-! ### The records of a key and a table as a block -/

/-- A block in memory that is to be written: nothing if there are no records. -/
structure CatOk (kd : List Bytes) (tv : List (Bytes × Nat)) (page : Nat) (Q : Bytes → Bytes → List (Nat × Rec)) (e : Bytes × Catch) : Prop where
  name : e.1 = nodeName e.2.kname (some e.2.sname)
  key : e.2.kname ∈ kd
  tab : ∃ n, (e.2.sname, n) ∈ tv
  none : Q e.2.kname e.2.sname = [] → e.2.mem = []
  some : Q e.2.kname e.2.sname ≠ [] → Content kd tv e.2.mem e.2.kname e.2.sname (Q e.2.kname e.2.sname) ∧ e.2.win.stop = page
  range : e.2.win.ktype < 256 ∧ e.2.win.sdict < 256 ∧ e.2.win.start < 2 ^ 64 ∧ e.2.win.stop < 2 ^ 64

theorem putCat_grow (lib : Lib) (c : Ctl) (t : Catch) : ∃ x, (putCat lib c t).body = c.body ++ x := by
  unfold putCat writeWork
  split
  · exact ⟨[], by simp⟩
  · simp only
    split <;> exact ⟨_, rfl⟩

theorem putCats_grow (lib : Lib) (cs : List (Bytes × Catch)) : ∀ c : Ctl, ∃ x, (cs.foldl (fun c e => putCat lib c e.2) c).body = c.body ++ x := by
  induction cs with
  | nil => intro c; exact ⟨[], by simp⟩
  | cons e cs ih =>
    intro c
    obtain ⟨x, hx⟩ := putCat_grow lib c e.2
    obtain ⟨y, hy⟩ := ih (putCat lib c e.2)
    exact ⟨x ++ y, by rw [List.foldl_cons, hy, hx, List.append_assoc]⟩

/-- The pages of a list of blocks that are written. -/
def newPages (page : Nat) (Q : Bytes → Bytes → List (Nat × Rec)) (cs : List (Bytes × Catch)) (k s : Bytes) : List (Nat × List (Nat × Rec)) :=
  (cs.filter fun e => e.2.kname == k && e.2.sname == s && !(e.2.mem == [])).map fun _ => (page, Q k s)

structure Kept (c c' : Ctl) : Prop where
  kind : c'.kind = c.kind
  kd : c'.kd = c.kd
  sd : c'.sd = c.sd
  newk : c'.newk = c.newk
  news : c'.news = c.news
  dict : ∀ n, ¬ IsData n → dictUnits c'.idx n = dictUnits c.idx n

theorem putCats {lib : Lib} (L : ZipOk lib) {P : Db → Prop} (page : Nat) (Q : Bytes → Bytes → List (Nat × Rec)) (cs : List (Bytes × Catch)) :
    ∀ (c : Ctl) (F : Bytes → Bytes → List (Nat × List (Nat × Rec))), Inv lib P c → Units lib c F → Nodes c →
      (∀ e ∈ cs, CatOk c.kd (tabView c.sd) page Q e) → mainHead + (cs.foldl (fun c e => putCat lib c e.2) c).body.length < 2 ^ 64 →
      ∃ c' bs, cs.foldl (fun c e => putCat lib c e.2) c = c' ∧ Inv lib P c' ∧ Kept c c' ∧ Nodes c' ∧ Units lib c' (fun k s => F k s ++ newPages page Q cs k s) ∧
        c'.body = c.body ++ bs.flatMap (fun b => encRec b.1 b.2) ∧ (∀ b ∈ bs, hidOf b.1 ≠ 0 ∧ hidOf b.1 ≠ 31 ∧ b.2.length < 2 ^ 64) ∧
        ∀ d : Ctl, c.kd <+: d.kd → tabView c.sd <+: tabView d.sd → ∀ quit rc h more, h.2 = false →
          playBlocks lib d quit rc h (bs ++ more) =
            playBlocks lib d quit ((cs.flatMap fun e => Q e.2.kname e.2.sname).foldl (fun rc e => setSlot rc e.1 e.2) rc) h more := by
  induction cs with
  | nil =>
    intro c F hi hu hn _ _
    refine ⟨c, [], rfl, hi, ⟨rfl, rfl, rfl, rfl, rfl, fun _ _ => rfl⟩, hn, ?_, by simp, by simp, fun _ _ _ _ _ _ _ _ => rfl⟩
    intro k s hk hs
    simpa [newPages] using hu k s hk hs
  | cons e cs ih =>
    intro c F hi hu hn hc hsz
    rw [List.foldl_cons] at hsz ⊢
    have he := hc e (by simp)
    by_cases hm : e.2.mem = []
    · have hp : putCat lib c e.2 = c := by unfold putCat; rw [if_pos hm]
      rw [hp] at hsz ⊢
      obtain ⟨c', bs, g1, g2, g3, g4, g5, g6, g7, g8⟩ := ih c F hi hu hn (fun e he => hc e (by simp [he])) hsz
      have hq : Q e.2.kname e.2.sname = [] := by
        apply Classical.byContradiction
        intro h
        exact (he.some h).1.ne hm
      refine ⟨c', bs, g1, g2, g3, g4, ?_, g6, g7, ?_⟩
      · intro k s hk hs
        have := g5 k s hk hs
        have e1 : newPages page Q (e :: cs) k s = newPages page Q cs k s := by
          unfold newPages
          rw [List.filter_cons, if_neg (by simp [hm])]
        simp only [e1]
        exact this
      · intro d h1 h2 quit rc h more hh
        rw [g8 d h1 h2 quit rc h more hh]
        simp [hq]
    · have hq : Q e.2.kname e.2.sname ≠ [] := fun h => hm (he.none h)
      obtain ⟨hcont, hstop⟩ := he.some hq
      obtain ⟨k0, hk0⟩ : ∃ k0, k0 = e.2.kname := ⟨_, rfl⟩
      obtain ⟨s0, hs0⟩ : ∃ s0, s0 = e.2.sname := ⟨_, rfl⟩
      obtain ⟨blk, hblk⟩ : ∃ blk, blk = block lib true hidSno e.2.mem := ⟨_, rfl⟩
      obtain ⟨u, hu0⟩ : ∃ u : IUnit, u = { e.2.win with fidx := 0, offset := mainHead + c.body.length, size := blk.length, active := (e.2.win.active + 1) % 256 } := ⟨_, rfl⟩
      obtain ⟨c1, hc1⟩ : ∃ c1 : Ctl, c1 = { c with body := c.body ++ blk, idx := idxUpd c.idx k0 (some s0) (fun us => us ++ [u]), win := c.win } := ⟨_, rfl⟩
      have hput : putCat lib c e.2 = c1 := by
        have hk1 : (c.kind != Kind.main) = true := hi.kind
        unfold putCat writeWork
        rw [if_neg hm]
        simp only [Ctl.indexed, hk1, if_true, hc1, hu0, hk0, hs0, hblk]
      rw [hput] at hsz ⊢
      have hb1 : c1.body = c.body ++ blk := by rw [hc1]
      have hkd1 : c1.kd = c.kd := by rw [hc1]
      have hsd1 : c1.sd = c.sd := by rw [hc1]
      have hidx1 : c1.idx = idxUpd c.idx k0 (some s0) (fun us => us ++ [u]) := by rw [hc1]
      have hlen : mainHead + (c.body.length + blk.length) < 2 ^ 64 := by
        obtain ⟨x, hx⟩ := putCats_grow lib cs c1
        rw [hx, hb1] at hsz
        simp only [List.length_append] at hsz
        omega
      have hin : k0 ∈ c.kd := by rw [hk0]; exact he.key
      have hs0in : ∃ n, (s0, n) ∈ tabView c.sd := by rw [hs0]; exact he.tab
      have htin : ∃ d, (s0, d) ∈ c.sd := by obtain ⟨n, hn⟩ := hs0in; exact tabView_mem hn
      have hok : UnitOk (c.body ++ blk) u := by
        rw [hu0]
        refine ⟨⟨by show (e.2.win.active + 1) % 256 < 256; omega, he.range.1, he.range.2.1, by show (0 : Nat) < 2 ^ 16; omega, ?_, ?_, he.range.2.2.1, he.range.2.2.2⟩, ?_, ?_⟩
        · show mainHead + c.body.length < 2 ^ 64; omega
        · show blk.length < 2 ^ 64; omega
        · show mainHead ≤ mainHead + c.body.length; omega
        · show mainHead + c.body.length - mainHead + blk.length ≤ (c.body ++ blk).length
          simp only [List.length_append]; omega
      have hi1 : Inv lib P c1 := by
        rw [hc1]
        refine inv_upd hi hin (fun t ht => by rw [← Option.some.inj ht]; exact htin) _ (fun us => us ++ [u]) ?_ (fun _ => by simp) c.win
        intro us hus v hv
        rcases List.mem_append.1 hv with hv | hv
        · exact (hus v hv).mono _
        · rw [List.mem_singleton.1 hv]; exact hok
      obtain ⟨p1, p2, p3⟩ := packed_read L true (show hidSno < 32 by decide) hm
      have hplen : (packed lib true hidSno e.2.mem).2.length < 2 ^ 64 := by
        have := block_length lib true hidSno e.2.mem
        rw [← hblk] at this
        omega
      have hhas : UnitHas lib (c.body ++ blk) c.kd (tabView c.sd) u k0 s0 (Q k0 s0) := by
        refine ⟨hok.2.2, (packed lib true hidSno e.2.mem).2.length, (packed lib true hidSno e.2.mem).1, (packed lib true hidSno e.2.mem).2, e.2.mem, ?_, ?_, p3, p1, ?_⟩
        · have := readAt_block c.body (packed lib true hidSno e.2.mem).1 (packed lib true hidSno e.2.mem).2 [] hplen
          rw [List.append_nil] at this
          rw [hu0, hblk]
          exact this
        · intro h; exact p2 (List.length_eq_zero_iff.1 h)
        · rw [hk0, hs0]; exact hcont
      have hstop' : u.stop = page := by rw [hu0]; exact hstop
      have hu1 : Units lib c1 (fun k s => F k s ++ newPages page Q [e] k s) := by
        intro k s hk hs
        rw [hkd1] at hk ⊢
        rw [hsd1] at hs ⊢
        have hold : List.Forall₂ (fun u pq => u.stop = pq.1 ∧ UnitHas lib (c.body ++ blk) c.kd (tabView c.sd) u k s pq.2) (unitsOf c.idx k s) (F k s) :=
          (hu k s hk hs).imp fun x y h => ⟨h.1, h.2.mono _ (List.prefix_refl _) (List.prefix_refl _)⟩
        rw [hb1]
        unfold unitsOf at hold ⊢
        rw [hidx1, dictUnits_idxUpd]
        by_cases hsame : sameN (nodeName k (some s)) (nodeName k0 (some s0)) = true
        · obtain ⟨n, hn⟩ := hs
          obtain ⟨e1, e2⟩ := node_eq hi hk hin (tabView_mem hn) htin hsame
          rw [if_pos hsame, ← e1, ← e2]
          have hnp : newPages page Q [e] k s = [(page, Q k s)] := by
            unfold newPages
            rw [List.filter_cons, if_pos (by rw [← hk0, ← hs0, e1, e2]; simpa using hm)]
            rfl
          show List.Forall₂ _ _ (F k s ++ newPages page Q [e] k s)
          rw [hnp]
          refine List.rel_append hold ?_
          rw [e1, e2]
          exact .cons ⟨hstop', hhas⟩ .nil
        · rw [if_neg hsame]
          have hnp : newPages page Q [e] k s = [] := by
            unfold newPages
            rw [List.filter_cons, if_neg, List.filter_nil, List.map_nil]
            intro h
            simp only [Bool.and_eq_true, beq_iff_eq] at h
            apply hsame
            rw [hk0, hs0, h.1.1, h.1.2]
            exact sameN_refl _
          show List.Forall₂ _ _ (F k s ++ newPages page Q [e] k s)
          rw [hnp, List.append_nil]
          exact hold
      have hn1 : Nodes c1 := by
        intro x hx
        have hx1 := (List.mem_filter.1 hx).1
        have hx2 := (List.mem_filter.1 hx).2
        rw [hkd1, hsd1]
        rw [hidx1] at hx1
        rcases mem_idxUpd hx1 with h1 | ⟨h1, _⟩ | h1 | ⟨o, ho, h1, h2⟩
        · exact hn x (List.mem_filter.2 ⟨h1, hx2⟩)
        · exact ⟨⟨k0, s0, by rw [h1], by rw [h1], by rw [h1], hin, fun t ht => by rw [← Option.some.inj ht]; exact htin⟩, by rw [h1]; simp⟩
        · exfalso
          have hg := getN_idxUpd c.idx k0 (some s0) (fun us => us ++ [u]) (nodeName k0 (some s0))
          rw [if_pos (sameN_refl _)] at hg
          have hdiff := hi1.diff
          rw [hidx1] at hdiff
          have hx3 : getN (idxUpd c.idx k0 (some s0) fun us => us ++ [u]) x.1 = some x.2 := getN_mem hdiff hx1
          rw [h1] at hx3
          simp only at hx3
          rw [hx3] at hg
          have hz := congrArg (fun o : Option Node => (o.map (·.units))) hg
          simp at hz
        · obtain ⟨⟨k', s', hnm⟩, _⟩ := hn o (List.mem_filter.2 ⟨ho, by rw [h2] at hx2; exact hx2⟩)
          exact ⟨⟨k', s', by rw [h2]; exact hnm.name, by rw [h2]; exact hnm.kname, by rw [h2]; exact hnm.sname, hnm.key, hnm.tab⟩, by rw [h2]; simp⟩
      obtain ⟨c', bs, g1, g2, g3, g4, g5, g6, g7, g8⟩ := ih c1 _ hi1 hu1 hn1 (fun e he => by rw [hkd1, hsd1]; exact hc e (by simp [he])) hsz
      refine ⟨c', packed lib true hidSno e.2.mem :: bs, g1, g2, ?_, g4, ?_, ?_, ?_, ?_⟩
      · refine ⟨g3.kind.trans (by rw [hc1]), g3.kd.trans hkd1, g3.sd.trans hsd1, g3.newk.trans (by rw [hc1]), g3.news.trans (by rw [hc1]), ?_⟩
        intro n hnd
        rw [g3.dict n hnd, hidx1, dictUnits_idxUpd, if_neg]
        intro h
        apply hnd
        have := isData_node k0 s0
        exact ⟨by rw [sameN_trans_r h]; exact this.1, by rw [sameN_trans_r h]; exact this.2⟩
      · intro k s hk hs
        have := g5 k s hk hs
        have e1 : newPages page Q (e :: cs) k s = newPages page Q [e] k s ++ newPages page Q cs k s := by
          unfold newPages
          rw [← List.map_append, ← List.filter_append]
          rfl
        simp only [e1, ← List.append_assoc]
        exact this
      · rw [g6, hb1, hblk]
        simp [block]
      · intro b hb
        rcases List.mem_cons.1 hb with rfl | hb
        · rw [p1]; exact ⟨by decide, by decide, hplen⟩
        · exact g7 b hb
      · intro d h1 h2 quit rc h more hh
        rw [List.cons_append, playBlocks, hh]
        simp only [Bool.false_eq_true, if_false, p3, p1, if_true]
        rw [readHid_content (hcont.mono h1 h2)]
        simp only [Option.bind_some]
        rw [g8 d (by rw [hkd1]; exact h1) (by rw [hsd1]; exact h2) quit _ h more hh]
        simp

end Sis.Sno
