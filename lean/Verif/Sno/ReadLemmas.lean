import Verif.Sno.SessionLemmas
import Verif.Server.SubLemmas
/- Lemmas on reading a file of records in order. -/
namespace Sis.Sno
open Sis Sis.Disk Sis.Sdb
open Sis.Dyn (sameN getN setN Db sameN_iff sameN_refl getN_none getN_some setN_spec getN_congr)

theorem filterAuxM_some {α : Type} (p : α → Option Bool) (q : α → Bool) (l : List α) : ∀ (acc : List α), (∀ e ∈ l, p e = some (q e)) →
    List.filterAuxM p l acc = some ((l.filter q).reverse ++ acc) := by
  induction l with
  | nil => intro acc _; rfl
  | cons a l ih =>
    intro acc h
    rw [List.filterAuxM, h a (by simp)]
    refine (ih _ fun e he => h e (by simp [he])).trans ?_
    cases hq : q a <;> simp [hq]

theorem filterM_some {α : Type} (p : α → Option Bool) (q : α → Bool) (l : List α) (h : ∀ e ∈ l, p e = some (q e)) : l.filterM p = some (l.filter q) := by
  unfold List.filterM
  rw [filterAuxM_some p q l [] h]
  simp

/-! ### Pages -/

/-- What is left of the blocks of a node. -/
def Row (lib : Lib) (c : Ctl) (i : Nat) (pgs : List (List Rec)) (us : List IUnit) (ks : Bytes × Bytes) : Prop :=
  List.Forall₂ (fun u pq => u.stop = pq.1 ∧ UnitHas lib c.body c.kd (tabView c.sd) u ks.1 ks.2 pq.2) us (pagesFrom i pgs ks.1 ks.2)

theorem loadUnit_ok {lib : Lib} {c : Ctl} {u : IUnit} {k s : Bytes} {q : List (Nat × Rec)} (h : UnitHas lib c.body c.kd (tabView c.sd) u k s q) (rc : List (Nat × Rec)) :
    loadUnit lib c rc u = some (q.foldl (fun rc e => setSlot rc e.1 e.2) rc) := by
  obtain ⟨_, n, b, z, m, h2, h3, h4, _, h6⟩ := h
  unfold loadUnit
  rw [h2]
  simp only [Option.bind_some, if_neg h3, h4]
  exact readHid_content h6 rc

theorem loadPage_ok {lib : Lib} {c : Ctl} {i : Nat} {pg : List Rec} {rest : List (List Rec)} {ns : List (List IUnit)} {ks : List (Bytes × Bytes)}
    (h : List.Forall₂ (Row lib c i (pg :: rest)) ns ks) : ∀ rc, ∃ ns',
      loadPage lib c i rc ns = some ((ks.flatMap fun k => mine pg k.1 k.2).foldl (fun rc e => setSlot rc e.1 e.2) rc, ns') ∧ List.Forall₂ (Row lib c (i + 1) rest) ns' ks := by
  induction h with
  | nil => intro rc; exact ⟨[], rfl, .nil⟩
  | @cons us k ns ks h hs ih =>
    intro rc
    unfold Row at h
    rw [pagesFrom] at h
    by_cases hm : mine pg k.1 k.2 = []
    · rw [if_pos hm, List.nil_append] at h
      obtain ⟨ns', g1, g2⟩ := ih rc
      refine ⟨us :: ns', ?_, .cons h g2⟩
      rw [List.flatMap_cons, hm, List.nil_append]
      cases us with
      | nil => rw [loadPage, g1]; rfl
      | cons u us =>
        have hne : u.stop ≠ i := by
          obtain ⟨pq, hpq, h1, _⟩ := forall2_left h u (by simp)
          have := (pagesFrom_range k.1 k.2 rest (i + 1) pq hpq).1
          omega
        rw [loadPage, if_neg hne, g1]; rfl
    · rw [if_neg hm, List.singleton_append] at h
      obtain ⟨u, us', h1, h2, rfl⟩ := List.forall₂_cons_right_iff.1 h
      obtain ⟨ns', g1, g2⟩ := ih ((mine pg k.1 k.2).foldl (fun rc e => setSlot rc e.1 e.2) rc)
      refine ⟨us' :: ns', ?_, .cons h2 g2⟩
      rw [List.flatMap_cons, List.foldl_append, loadPage, if_pos h1.1, loadUnit_ok h1.2, Option.bind_some, g1]
      rfl

theorem slots_some (pg : List Rec) (ks : List (Bytes × Bytes)) :
    ((ks.flatMap fun k => mine pg k.1 k.2).foldl (fun rc e => setSlot rc e.1 e.2) []).map (·.2) = pg.filter fun r => ks.contains (r.key, r.tab) := by
  have := slots_filter (tagFrom 0 pg) (tagFrom_sorted pg 0) (ks.flatMap fun k => mine pg k.1 k.2) (fun _ => false) (by
    intro e he
    obtain ⟨x, _, hx⟩ := List.mem_flatMap.1 he
    exact (mine_mem hx).1)
  rw [show (tagFrom 0 pg).filter (fun _ => false) = [] by simp] at this
  rw [this, ← filter_tag (fun r => ks.contains (r.key, r.tab)) pg 0]
  congr 1
  apply List.filter_congr
  intro e he
  rw [Bool.false_or, Bool.eq_iff_iff, List.contains_iff_mem, List.contains_iff_mem]
  constructor
  · intro h
    obtain ⟨x, hx, h⟩ := List.mem_flatMap.1 h
    obtain ⟨_, h1, h2⟩ := mine_mem h
    rw [h1, h2]; exact hx
  · intro h
    refine List.mem_flatMap.2 ⟨_, h, ?_⟩
    unfold mine
    exact List.mem_filter.2 ⟨he, by simp⟩

theorem playPages_ok {lib : Lib} {c : Ctl} {quit : List Rec → Bool} {ks : List (Bytes × Bytes)} (pgs : List (List Rec)) : ∀ {i : Nat} {ns : List (List IUnit)} (h : Heard),
    List.Forall₂ (Row lib c i pgs) ns ks →
    playPages lib c quit pgs.length i ns h = some (deliver quit h (pgs.flatten.filter fun r => ks.contains (r.key, r.tab))) := by
  induction pgs with
  | nil => intro i ns h _; rfl
  | cons pg rest ih =>
    intro i ns h hr
    rw [List.length_cons, playPages]
    cases hh : h.2 with
    | true => rw [deliver_stop quit h hh]; simp
    | false =>
      obtain ⟨ns', g1, g2⟩ := loadPage_ok hr []
      simp only [Bool.false_eq_true, if_false]
      rw [g1, Option.bind_some, slots_some]
      simp only
      rw [ih _ g2, List.flatten_cons, List.filter_append, deliver_append]

theorem firstPage_ok : ∀ {ns : List (List IUnit)}, ns ≠ [] → (∀ us ∈ ns, us ≠ []) → ∃ p, firstPage ns = some p ∧ (∃ us ∈ ns, ∃ u ∈ us, u.stop = p) ∧
    ∀ us ∈ ns, ∀ u, us.head? = some u → p ≤ u.stop
  | [], h, _ => absurd rfl h
  | [n], _, hn => by
    cases n with
    | nil => exact absurd rfl (hn [] (by simp))
    | cons u us => exact ⟨u.stop, rfl, ⟨u :: us, List.mem_singleton.2 rfl, u, List.mem_cons_self, rfl⟩, by intro x hx y hy; rw [List.mem_singleton.1 hx] at hy; rw [← Option.some.inj hy]; exact Nat.le_refl _⟩
  | n :: n' :: ns, _, hn => by
    cases n with
    | nil => exact absurd rfl (hn [] (by simp))
    | cons u us =>
      obtain ⟨p, h1, ⟨vs, h2, v, h3, h4⟩, h5⟩ := firstPage_ok (ns := n' :: ns) (by simp) fun x hx => hn x (List.mem_cons_of_mem _ hx)
      refine ⟨min u.stop p, by rw [firstPage, h1]; rfl; simp, ?_, ?_⟩
      · rcases Nat.le_total u.stop p with hle | hle
        · exact ⟨_, List.mem_cons_self, u, by simp, by omega⟩
        · exact ⟨vs, List.mem_cons_of_mem _ h2, v, h3, by omega⟩
      · intro x hx y hy
        rcases List.mem_cons.1 hx with rfl | hx
        · rw [← Option.some.inj hy]; omega
        · have := h5 x hx y hy; omega

theorem pagesFrom_sorted (k s : Bytes) (as : List (List Rec)) : ∀ i, (pagesFrom i as k s).Pairwise fun a b => a.1 < b.1 := by
  induction as with
  | nil => intro i; exact .nil
  | cons a as ih =>
    intro i
    rw [pagesFrom]
    split
    · exact ih _
    · refine List.Pairwise.cons ?_ (ih _)
      intro e he
      have := (pagesFrom_range k s as (i + 1) e he).1
      simp only; omega

/-- The nodes that are asked for and the records in them. -/
theorem playPart_ok {lib : Lib} {P : Db → Prop} {f : File} {pgs : List (List Rec)} (h : Core lib P f.c pgs) (hp : f.pages = pgs.length)
    (hgood : ∀ r ∈ pgs.flatten, r.key ∈ f.c.kd ∧ (r.tab, r.data.length) ∈ tabView f.c.sd)
    (hidx : ∀ e ∈ f.c.idx, e ∈ data f.c.idx ∨ e.2.kname = none) {keys sdbs : Bytes} (W : Bytes → Bytes → Bool)
    (hW : ∀ e k s, Named f.c.kd f.c.sd e k (some s) → wanted keys sdbs e.2 = some (W k s)) (quit : List Rec → Bool) (hd : Heard) :
    playPart lib f keys sdbs quit hd = some (deliver quit hd (pgs.flatten.filter fun r => W r.key r.tab)) := by
  obtain ⟨Q, hQ⟩ : ∃ Q : Bytes × Node → Bool, Q = fun e => (wanted keys sdbs e.2).getD false := ⟨_, rfl⟩
  have hfil : f.c.idx.filterM (fun e => wanted keys sdbs e.2) = some (f.c.idx.filter Q) := by
    apply filterM_some
    intro e he
    rw [hQ]
    rcases hidx e he with hd | hn
    · obtain ⟨k, s, hnm, _⟩ := node_pages h hd
      rw [hW e k s hnm]; simp only [hW e k s hnm]; rfl
    · have : wanted keys sdbs e.2 = some false := by unfold wanted; rw [hn]
      simp only [this]; rfl
  have hmem : ∀ e ∈ f.c.idx.filter Q, ∃ k s, Named f.c.kd f.c.sd e k (some s) ∧ W k s = true ∧ e.2.units ≠ [] ∧ Row lib f.c 0 pgs e.2.units (k, s) := by
    intro e he
    obtain ⟨he, hq⟩ := List.mem_filter.1 he
    rw [hQ] at hq
    rcases hidx e he with hd | hn
    · obtain ⟨k, s, hnm, hu, hr⟩ := node_pages h hd
      simp only [hW e k s hnm] at hq
      exact ⟨k, s, hnm, hq, hu, hr⟩
    · have : wanted keys sdbs e.2 = some false := by unfold wanted; rw [hn]
      simp only [this] at hq; cases hq
  -- every record that is asked for has a node
  have hrec : ∀ p pg, pgs[p]? = some pg → ∀ r ∈ pg, W r.key r.tab = true → ∃ e ∈ f.c.idx.filter Q, e.2.kname = some r.key ∧ e.2.sname = some r.tab ∧ ∃ u ∈ e.2.units, u.stop = p := by
    intro p pg hpg r hr hw
    obtain ⟨g1, g2⟩ := hgood r (List.mem_flatten.2 ⟨_, List.mem_of_getElem? hpg, hr⟩)
    have hm : mine pg r.key r.tab ≠ [] := by
      intro e
      have : r ∈ ((tagFrom 0 pg).filter fun e => e.2.key == r.key && e.2.tab == r.tab).map (·.2) := by
        rw [filter_tag (fun x => x.key == r.key && x.tab == r.tab)]
        exact List.mem_filter.2 ⟨hr, by simp⟩
      unfold mine at e
      rw [e] at this
      cases this
    have hin := pagesFrom_mem pgs 0 p pg hpg hm
    obtain ⟨u, hu, h1, _⟩ := forall2_right (h.units r.key r.tab g1 ⟨_, g2⟩) _ hin
    unfold unitsOf dictUnits at hu
    cases hg : getN f.c.idx (nodeName r.key (some r.tab)) with
    | none => rw [hg] at hu; cases hu
    | some nd =>
      rw [hg] at hu
      obtain ⟨i, e, e1, e2, e3⟩ := getN_some hg
      have e3' : sameN (nodeName r.key (some r.tab)) e.1 = true := by simpa using e3
      have hdn := isData_node r.key r.tab
      have hd : e ∈ data f.c.idx := List.mem_filter.2 ⟨List.mem_of_getElem? e1, by
        rw [← sameN_trans_r e3', ← sameN_trans_r e3', hdn.1, hdn.2]; rfl⟩
      obtain ⟨k, s, hnm, _⟩ := node_pages h hd
      rw [hnm.name] at e3'
      obtain ⟨rfl, rfl⟩ := node_eq h.inv g1 hnm.key (tabView_mem g2) (hnm.tab s rfl) e3'
      refine ⟨e, List.mem_filter.2 ⟨List.mem_of_getElem? e1, ?_⟩, hnm.kname, hnm.sname, u, by rw [e2]; exact hu, by rw [h1]; simp⟩
      rw [hQ]
      simp only [hW e _ _ hnm, hw, Option.getD_some]
  unfold playPart
  rw [hfil, Option.bind_some]
  by_cases hes : f.c.idx.filter Q = []
  · rw [if_pos hes]
    have : (pgs.flatten.filter fun r => W r.key r.tab) = [] := by
      rw [List.filter_eq_nil_iff]
      intro r hr hw
      obtain ⟨pg, hpg, hr⟩ := List.mem_flatten.1 hr
      obtain ⟨p, hp⟩ := List.mem_iff_getElem?.1 hpg
      obtain ⟨e, he, _⟩ := hrec p pg hp r hr hw
      rw [hes] at he
      cases he
    rw [this]; rfl
  · rw [if_neg hes]
    obtain ⟨ks, hks⟩ : ∃ ks : List (Bytes × Bytes), ks = (f.c.idx.filter Q).map fun e => (e.2.kname.getD [], e.2.sname.getD []) := ⟨_, rfl⟩
    have hrows : List.Forall₂ (Row lib f.c 0 pgs) ((f.c.idx.filter Q).map (·.2.units)) ks := by
      rw [hks, List.forall₂_map_left_iff, List.forall₂_map_right_iff, List.forall₂_same]
      intro e he
      obtain ⟨k, s, hnm, _, _, hr⟩ := hmem e he
      rw [hnm.kname, hnm.sname]
      exact hr
    obtain ⟨p, p1, ⟨us, p2, u, p3, p4⟩, p5⟩ := firstPage_ok (ns := (f.c.idx.filter Q).map (·.2.units)) (by simpa using hes) (by
      intro us hus
      obtain ⟨e, he, rfl⟩ := List.mem_map.1 hus
      obtain ⟨_, _, _, _, hu, _⟩ := hmem e he
      exact hu)
    -- no block is on an earlier page
    have hge : ∀ e ∈ f.c.idx.filter Q, ∀ u ∈ e.2.units, p ≤ u.stop := by
      intro e he u hu
      obtain ⟨k, s, hnm, _, _, hr⟩ := hmem e he
      have hsort := pagesFrom_sorted k s pgs 0
      unfold Row at hr
      simp only at hr
      have h5 := p5 _ (List.mem_map.2 ⟨e, he, rfl⟩)
      cases hus : e.2.units with
      | nil => rw [hus] at hu; cases hu
      | cons v vs =>
        rw [hus] at hr hu h5
        have hv := h5 v rfl
        rcases List.mem_cons.1 hu with rfl | hu
        · exact hv
        · generalize pagesFrom 0 pgs k s = L at hr hsort
          cases hr with
          | cons h1 h2 =>
            rename_i pq L
            obtain ⟨pq', m1, m2, _⟩ := forall2_left h2 u hu
            have := (List.pairwise_cons.1 hsort).1 pq' m1
            have := h1.1
            omega
    have hlt : p < pgs.length := by
      obtain ⟨e, he, rfl⟩ := List.mem_map.1 p2
      obtain ⟨k, s, hnm, _, _, hr⟩ := hmem e he
      obtain ⟨pq, hpq, h1, _⟩ := forall2_left hr u p3
      have := (pagesFrom_range k s pgs 0 pq hpq).2.1
      omega
    rw [p1, Option.bind_some, hp]
    have hrows2 : List.Forall₂ (Row lib f.c p (pgs.drop p)) ((f.c.idx.filter Q).map (·.2.units)) ks := by
      rw [hks, List.forall₂_map_left_iff, List.forall₂_map_right_iff, List.forall₂_same]
      intro e he
      obtain ⟨k, s, hnm, _, _, hr⟩ := hmem e he
      rw [hnm.kname, hnm.sname]
      unfold Row at hr ⊢
      simp only [Option.getD_some] at hr ⊢
      have hsp : pagesFrom 0 pgs k s = pagesFrom 0 (pgs.take p) k s ++ pagesFrom p (pgs.drop p) k s := by
        have := pagesFrom_append k s (pgs.take p) (pgs.drop p) 0
        rw [List.take_append_drop, List.length_take, Nat.min_eq_left (by omega), Nat.zero_add] at this
        exact this
      have hnil : pagesFrom 0 (pgs.take p) k s = [] := by
        cases hn : pagesFrom 0 (pgs.take p) k s with
        | nil => rfl
        | cons x l =>
          exfalso
          have hx : x ∈ pagesFrom 0 pgs k s := by rw [hsp, hn]; simp
          obtain ⟨u', hu', h1, _⟩ := forall2_right hr x hx
          have h2 := hge e he u' hu'
          have h3 := (pagesFrom_range k s (pgs.take p) 0 x (by rw [hn]; simp)).2.1
          rw [List.length_take] at h3
          omega
      rw [hsp, hnil, List.nil_append] at hr
      exact hr
    have := playPages_ok (quit := quit) (pgs.drop p) hd hrows2
    rw [List.length_drop] at this
    rw [this]
    congr 2
    have hW2 : ∀ (l : List (List Rec)), (∀ pg ∈ l, pg ∈ pgs) → (l.flatten.filter fun r => ks.contains (r.key, r.tab)) = l.flatten.filter fun r => W r.key r.tab := by
      intro l hl
      apply List.filter_congr
      intro r hr
      obtain ⟨pg, hpg, hr⟩ := List.mem_flatten.1 hr
      obtain ⟨q, hq⟩ := List.mem_iff_getElem?.1 (hl pg hpg)
      rw [Bool.eq_iff_iff, List.contains_iff_mem, hks]
      constructor
      · intro hin
        obtain ⟨e, he, heq⟩ := List.mem_map.1 hin
        obtain ⟨k, s, hnm, hw, _⟩ := hmem e he
        rw [hnm.kname, hnm.sname] at heq
        simp only [Option.getD_some, Prod.mk.injEq] at heq
        rw [← heq.1, ← heq.2]; exact hw
      · intro hw
        obtain ⟨e, he, h1, h2, _⟩ := hrec q pg hq r hr hw
        exact List.mem_map.2 ⟨e, he, by rw [h1, h2]; rfl⟩
    rw [hW2 _ fun pg hpg => List.mem_of_mem_drop hpg]
    have hsplit : pgs.flatten = (pgs.take p).flatten ++ (pgs.drop p).flatten := by rw [← List.flatten_append, List.take_append_drop]
    rw [hsplit, List.filter_append]
    have : ((pgs.take p).flatten.filter fun r => W r.key r.tab) = [] := by
      rw [List.filter_eq_nil_iff]
      intro r hr hw
      obtain ⟨pg, hpg, hr⟩ := List.mem_flatten.1 hr
      obtain ⟨q, hq⟩ := List.mem_iff_getElem?.1 hpg
      rw [List.getElem?_take] at hq
      split at hq
      · rename_i hqp
        obtain ⟨e, he, _, _, u', hu', hst⟩ := hrec q pg hq r hr hw
        have := hge e he u' hu'
        omega
      · cases hq
    rw [this, List.nil_append]

/-! ### Everything -/

theorem playAll_ok {lib : Lib} {c : Ctl} {rs : List Rec} {body : Bytes} (h : Whole lib body c.kd (tabView c.sd) rs) (hlen : Smooth body) (quit : List Rec → Bool) (hd : Heard) :
    ((readFull (fun _ _ => .next) (chunksOf (readSize - 1) (withTail body))).bind fun bs => playBlocks lib c quit [] hd bs) = some (deliver quit hd rs) := by
  obtain ⟨bs, h1, h2, h3⟩ := h
  have hht : hidOf (headByte 1 0 hidTail) = 31 := by decide
  have hr := readFull_smooth bs h2 _ hht (List.replicate 47 0) (by simp) (by rw [← h1]; exact hlen)
  rw [← h1] at hr
  unfold withTail
  rw [hr, Option.bind_some]
  have := h3 c (List.prefix_refl _) (List.prefix_refl _) quit hd []
  rw [List.append_nil] at this
  rw [this]
  rfl

/-! ### The records of a key and a table -/

theorem pages_data (k s : Bytes) (pgs : List (List Rec)) : ∀ i, (pagesFrom i pgs k s).flatMap (fun pq => pq.2.flatMap fun e => e.2.data) =
    (pgs.flatten.filter fun r => r.key == k && r.tab == s).flatMap (·.data) := by
  induction pgs with
  | nil => intro i; rfl
  | cons pg pgs ih =>
    intro i
    have hm : (mine pg k s).flatMap (fun e => e.2.data) = (pg.filter fun r => r.key == k && r.tab == s).flatMap (·.data) := by
      rw [← filter_tag (fun r => r.key == k && r.tab == s) pg 0, List.flatMap_map]
      rfl
    rw [pagesFrom, List.flatMap_append, ih, List.flatten_cons, List.filter_append, List.flatMap_append, ← hm]
    congr 1
    split
    · rename_i h; rw [h]; rfl
    · simp

theorem joinUnits_ok {lib : Lib} {c : Ctl} {size : Nat} {k s : Bytes} (hsz : ∀ n, (s, n) ∈ tabView c.sd → n = size) {us : List IUnit} {L : List (Nat × List (Nat × Rec))}
    (h : List.Forall₂ (fun u pq => u.stop = pq.1 ∧ UnitHas lib c.body c.kd (tabView c.sd) u k s pq.2) us L) :
    joinUnits lib c size us = some (L.flatMap fun pq => pq.2.flatMap fun e => e.2.data) := by
  induction h with
  | nil => rfl
  | @cons u pq us L h _ ih =>
    obtain ⟨_, _, n, b, z, m, h2, h3, h4, h5, ⟨ki, si, sz, rfl, c1, c2, c3, c4, c5, c6⟩, _⟩ := h
    have hs := hsz sz (List.mem_of_getElem? c4)
    subst hs
    have hr : readSdb lib c.body u.offset u.size = some (hidOf b, encQ pq.2) := by
      unfold readSdb
      rw [h2]
      simp only [Option.bind_some, if_neg h3, h4, h5]
      rw [if_neg (by decide), if_pos (by decide), List.append_assoc, C01_ssize_roundtrip _ (by omega), Option.bind_some]
      simp only
      rw [C01_ssize_roundtrip _ (by omega)]
      rfl
    rw [joinUnits, hr, Option.bind_some]
    simp only
    rw [splitRecs_enc sz pq.2 c6 _ (Nat.le_refl _), Option.bind_some, ih, Option.map_some, List.flatMap_cons, List.flatMap_map]

end Sis.Sno
