import Verif.Io.SaveRead
import Verif.Sdb.RefineHist
/- The server that is started on the files. -/
namespace Sis.Io
open Sis
open Sis.Dyn (Db getN setN sameN sameN_refl sameN_iff getN_some getN_none getN_congr)
open Sis.Sdb (fold getN_setN sameN_trans_l)

/-! ### Names -/

theorem keyName_dot (n : Bytes) : (46 : UInt8) ∉ keyName n := by
  unfold keyName
  induction n with
  | nil => simp
  | cons c n ih =>
    rw [List.takeWhile_cons]
    split
    · rename_i hc
      have hc : c ≠ 46 := by simpa using hc
      rw [List.mem_cons]
      exact fun h => h.elim (fun h => hc h.symm) ih
    · simp

theorem dot_split {n : Bytes} (h : (46 : UInt8) ∈ n) : n = Sdb.nodeName (keyName n) (some (tabOfKey n)) := by
  show n = n.takeWhile (· ≠ 46) ++ 46 :: (n.dropWhile (· ≠ 46)).drop 1
  induction n with
  | nil => cases h
  | cons c n ih =>
    by_cases hc : c = 46
    · subst hc; simp
    · have h' : (46 : UInt8) ∈ n := by
        rcases List.mem_cons.1 h with h | h
        · exact absurd h.symm hc
        · exact h
      have e1 : (c :: n).takeWhile (· ≠ 46) = c :: n.takeWhile (· ≠ 46) := by rw [List.takeWhile_cons, if_pos (by simpa using hc)]
      have e2 : (c :: n).dropWhile (· ≠ 46) = n.dropWhile (· ≠ 46) := by rw [List.dropWhile_cons, if_pos (by simpa using hc)]
      rw [e1, e2, List.cons_append, ← ih h']

theorem node_parts {k s : Bytes} (hk : (46 : UInt8) ∉ k) : keyName (Sdb.nodeName k (some s)) = k ∧ tabOfKey (Sdb.nodeName k (some s)) = s := by
  have hd := dot_split (n := Sdb.nodeName k (some s)) (by simp [Sdb.nodeName])
  obtain ⟨h1, h2⟩ := Sdb.split_dot hk (keyName_dot _) hd
  exact ⟨h1.symm, h2.symm⟩

theorem fold_parts (n : Bytes) : fold (keyName n) = keyName (fold n) ∧ fold (tabOfKey n) = tabOfKey (fold n) := by
  by_cases h : (46 : UInt8) ∈ n
  · have hd := dot_split h
    have : fold n = Sdb.nodeName (fold (keyName n)) (some (fold (tabOfKey n))) := by
      conv => lhs; rw [hd]
      exact Sdb.fold_node _ _
    rw [this]
    obtain ⟨h1, h2⟩ := node_parts (s := fold (tabOfKey n)) (Sdb.fold_dot (keyName_dot n))
    exact ⟨h1.symm, h2.symm⟩
  · have key : ∀ m : Bytes, (46 : UInt8) ∉ m → keyName m = m ∧ tabOfKey m = [] := by
      intro m hm
      unfold keyName tabOfKey
      have : ∀ c ∈ m, (decide (c ≠ 46)) = true := fun c hc => by
        have : c ≠ 46 := fun hx => hm (hx ▸ hc)
        simpa using this
      clear hm
      induction m with
      | nil => exact ⟨rfl, rfl⟩
      | cons c m ih =>
        obtain ⟨i1, i2⟩ := ih fun c hc => this c (by simp [hc])
        rw [List.takeWhile_cons, if_pos (this c (by simp)), List.dropWhile_cons, if_pos (this c (by simp)), i1, i2]
        exact ⟨rfl, rfl⟩
    rw [(key n h).1, (key n h).2, (key _ (Sdb.fold_dot h)).1, (key _ (Sdb.fold_dot h)).2]
    exact ⟨rfl, rfl⟩

theorem same_parts {a b : Bytes} (h : sameN a b = true) : fold (keyName a) = fold (keyName b) ∧ fold (tabOfKey a) = fold (tabOfKey b) := by
  have h : fold a = fold b := Sdb.fold_same.1 h
  rw [(fold_parts a).1, (fold_parts a).2, (fold_parts b).1, (fold_parts b).2, h]
  exact ⟨rfl, rfl⟩

/-! ### The tables -/

theorem getN_foldSet {α : Type} (l : List (Bytes × α)) : (l.Pairwise fun a b => sameN a.1 b.1 = false) → ∀ (acc : List (Bytes × α)) (n : Bytes),
    getN (l.foldl (fun l e => (setN l e.1 e.2).1) acc) n = (getN l n).or (getN acc n) := by
  induction l with
  | nil => intro _ acc n; rfl
  | cons e l ih =>
    intro hd acc n
    obtain ⟨h1, h2⟩ := List.pairwise_cons.1 hd
    rw [List.foldl_cons, ih h2, getN_setN]
    by_cases hs : sameN n e.1 = true
    · have hn : getN l n = none := getN_none.2 fun x hx => by rw [sameN_trans_l hs]; exact h1 x hx
      rw [hn, if_pos hs]
      simp [getN, hs]
    · rw [if_neg hs]
      have : getN (e :: l) n = getN l n := by
        unfold getN
        rw [List.find?_cons]
        simp [hs]
      rw [this]

theorem getN_map {α β : Type} (f : α → β) (l : List (Bytes × α)) (n : Bytes) : getN (l.map fun e => (e.1, f e.2)) n = (getN l n).map f := by
  unfold getN
  rw [List.find?_map]
  cases hc : l.find? (fun e => sameN n e.1) with
  | none =>
    have : l.find? ((fun e => sameN n e.1) ∘ fun e => (e.1, f e.2)) = none := hc
    rw [this]; rfl
  | some e =>
    have : l.find? ((fun e => sameN n e.1) ∘ fun e => (e.1, f e.2)) = some e := hc
    rw [this]; rfl

theorem tabsBack_get {sd : Sdb.TDict} (hd : sd.Pairwise fun a b => sameN a.1 b.1 = false) (hne : ∀ e ∈ sd, e.2 ≠ []) :
    ∃ tabs, tabsBack sd = some tabs ∧ ∀ n, getN tabs n = ((getN sd n).bind (·.getLast?)).map tblOfDb := by
  have hlast : ∀ e ∈ sd, e.2.getLast?.map (fun db => (e.1, tblOfDb db)) = some (e.1, tblOfDb (e.2.getLast?.getD ⟨[], [], 0, none, none⟩)) := by
    intro e he
    cases hc : e.2.getLast? with
    | none => rw [List.getLast?_eq_none_iff] at hc; exact absurd hc (hne e he)
    | some x => rfl
  unfold tabsBack
  rw [every_map hlast]
  refine ⟨_, rfl, fun n => ?_⟩
  rw [getN_foldSet _ (by rw [List.pairwise_map]; exact hd), getN_map (fun dbs : List Db => tblOfDb (dbs.getLast?.getD ⟨[], [], 0, none, none⟩))]
  cases hg : getN sd n with
  | none => rfl
  | some dbs =>
    obtain ⟨i, e, h1, h2, _⟩ := getN_some hg
    cases hc : dbs.getLast? with
    | none =>
      rw [List.getLast?_eq_none_iff] at hc
      exact absurd (h2.trans hc) (hne e (List.mem_of_getElem? h1))
    | some x => simp [hc]

/-! ### The entries of a series -/

theorem insert_mem {e : Nat × Nat} (l : List (Nat × Nat)) (h : ∀ x ∈ l, x.1 = e.1 → x = e) (x : Nat × Nat) : x ∈ insertDay e l ↔ x = e ∨ x ∈ l := by
  induction l with
  | nil => simp [insertDay]
  | cons y l ih =>
    have ih := ih fun x hx => h x (by simp [hx])
    unfold insertDay
    by_cases h1 : e.1 < y.1
    · rw [if_pos h1]; simp
    · rw [if_neg h1]
      by_cases h2 : e.1 = y.1
      · rw [if_pos h2, h y (by simp) h2.symm]; simp
      · rw [if_neg h2, List.mem_cons, ih, List.mem_cons, ← or_assoc, or_comm (a := x = y), or_assoc]

theorem insert_sorted (e : Nat × Nat) (l : List (Nat × Nat)) (h : l.Pairwise fun a b => a.1 < b.1) : (insertDay e l).Pairwise fun a b => a.1 < b.1 := by
  induction l with
  | nil => simp [insertDay]
  | cons y l ih =>
    obtain ⟨g1, g2⟩ := List.pairwise_cons.1 h
    unfold insertDay
    by_cases h1 : e.1 < y.1
    · rw [if_pos h1, List.pairwise_cons]
      refine ⟨fun x hx => ?_, h⟩
      rcases List.mem_cons.1 hx with rfl | hx
      · exact h1
      · exact Nat.lt_trans h1 (g1 x hx)
    · rw [if_neg h1]
      by_cases h2 : e.1 = y.1
      · rw [if_pos h2, List.pairwise_cons]
        exact ⟨fun x hx => by rw [h2]; exact g1 x hx, g2⟩
      · rw [if_neg h2, List.pairwise_cons]
        refine ⟨fun x hx => ?_, ih g2⟩
        have : ∀ z ∈ insertDay e l, z = e ∨ z ∈ l := by
          clear ih h g1 g2 hx h1 h2
          induction l with
          | nil => intro z hz; simp [insertDay] at hz; exact .inl hz
          | cons a l ih =>
            intro z hz
            unfold insertDay at hz
            split at hz
            · simpa using hz
            · split at hz
              · rcases List.mem_cons.1 hz with hz | hz
                · exact .inl hz
                · exact .inr (by simp [hz])
              · rcases List.mem_cons.1 hz with hz | hz
                · exact .inr (by simp [hz])
                · rcases ih z hz with h | h
                  · exact .inl h
                  · exact .inr (by simp [h])
        rcases this x hx with rfl | hx
        · omega
        · exact g1 x hx

theorem entries_of {days : List (Nat × Nat)} (h : ∀ x ∈ days, x.2 = 1 ∧ x.1 < 2 ^ 31) :
    ∃ ps : List Int, entriesOf days = ps.map (fun p => (p, true)) ∧ ps.Pairwise (· < ·) ∧ ∀ p : Int, p ∈ ps ↔ ∃ q : Nat, (q, 1) ∈ days ∧ p = q := by
  have key : ∀ (days acc : List (Nat × Nat)), (∀ x ∈ days, x.2 = 1 ∧ x.1 < 2 ^ 31) → (∀ x ∈ acc, x.2 = 1 ∧ x.1 < 2 ^ 31) → (acc.Pairwise fun a b => a.1 < b.1) →
      (∀ x, x ∈ days.foldl (fun l e => insertDay e l) acc ↔ x ∈ acc ∨ x ∈ days) ∧ (days.foldl (fun l e => insertDay e l) acc).Pairwise fun a b => a.1 < b.1 := by
    intro days
    induction days with
    | nil => intro acc _ _ hs; exact ⟨fun x => by simp, hs⟩
    | cons d days ih =>
      intro acc hd ha hs
      have hd1 := hd d (by simp)
      have hm := insert_mem (e := d) acc (fun x hx he => Prod.ext he (by rw [(ha x hx).1, hd1.1]))
      obtain ⟨i1, i2⟩ := ih (insertDay d acc) (fun x hx => hd x (by simp [hx])) (fun x hx => by
        rcases (hm x).1 hx with rfl | hx
        · exact hd1
        · exact ha x hx) (insert_sorted d acc hs)
      refine ⟨fun x => ?_, i2⟩
      rw [List.foldl_cons, i1, hm, List.mem_cons, or_comm (a := x = d), or_assoc]
  obtain ⟨h1, h2⟩ := key days [] h (by simp) List.Pairwise.nil
  generalize hl : days.foldl (fun l e => insertDay e l) [] = l at h1 h2
  have hall : ∀ x ∈ l, x.2 = 1 ∧ x.1 < 2 ^ 31 := fun x hx => h x (by simpa using (h1 x).1 hx)
  have hi : ∀ x ∈ l, Sdb.i32 x.1 = (x.1 : Int) := by
    intro x hx
    have := (hall x hx).2
    unfold Sdb.i32
    omega
  refine ⟨l.map fun e => (e.1 : Int), ?_, ?_, ?_⟩
  · unfold entriesOf
    rw [hl, List.map_map]
    apply List.map_congr_left
    intro x hx
    simp only [Function.comp]
    rw [hi x hx, (hall x hx).1]
    rfl
  · rw [List.pairwise_map]
    exact h2.imp fun hx => by omega
  · intro p
    rw [List.mem_map]
    constructor
    · rintro ⟨x, hx, rfl⟩
      have h3 := (h1 x).1 hx
      simp only [List.not_mem_nil, false_or] at h3
      exact ⟨x.1, by rw [← (hall x hx).1]; exact h3, rfl⟩
    · rintro ⟨q, hq, rfl⟩
      exact ⟨(q, 1), (h1 _).2 (.inr hq), rfl⟩

/-! ### The series -/

theorem series_back {lib : Sdb.Lib} {d : Sdb.Disk} {tabs : List (Bytes × Tbl)} (hi : ∀ n t, getN tabs n = some t → indexed t = true) :
    ∀ (maps : List (Bytes × Sdb.MapE)), Sdb.Dated maps → (maps.Pairwise fun a b => sameN a.1 b.1 = false) → ∀ s : Srv, s.tabs = tabs →
      ∃ s', maps.foldlM (fun s e => newOfMap lib d s e.1 e.2) s = some s' ∧ s'.tabs = tabs ∧ ∀ n, getN s'.sers n =
        ((getN maps n).bind fun e => (getN tabs (tabOfKey n)).map fun t => (⟨t, true, .ofMap (entriesOf e.days)⟩ : Back)).or (getN s.sers n) := by
  intro maps
  induction maps with
  | nil => intro _ _ s hs; exact ⟨s, rfl, hs, fun n => rfl⟩
  | cons e maps ih =>
    intro hd ha s hs
    obtain ⟨a1, a2⟩ := List.pairwise_cons.1 ha
    have hd' : Sdb.Dated maps := fun x hx => hd x (by simp [hx])
    have hk := (hd e (by simp)).1.1
    have hstep : newOfMap lib d s e.1 e.2 = some (match getN tabs (tabOfKey e.1) with
        | none => s
        | some t => { s with sers := (setN s.sers e.1 ⟨t, true, .ofMap (entriesOf e.2.days)⟩).1 }) := by
      unfold newOfMap
      rw [if_neg (by rw [hk]; simp), hs]
      cases hg : getN tabs (tabOfKey e.1) with
      | none => rfl
      | some t =>
        simp only
        rw [if_pos ⟨by rw [hk]; simp, hi _ _ hg⟩]
    rw [List.foldlM_cons, hstep]
    simp only [bind, Option.bind_some]
    have hcons : ∀ n, sameN n e.1 = true → getN (e :: maps) n = some e.2 ∧ getN maps n = none ∧ getN tabs (tabOfKey n) = getN tabs (tabOfKey e.1) := by
      intro n hn
      refine ⟨by simp [getN, hn], getN_none.2 fun x hx => by rw [sameN_trans_l hn]; exact a1 x hx, getN_congr _ (Sdb.fold_same.2 (same_parts hn).2)⟩
    have hcons' : ∀ n, ¬ sameN n e.1 = true → getN (e :: maps) n = getN maps n := by
      intro n hn
      unfold getN
      rw [List.find?_cons]
      simp [hn]
    cases hg : getN tabs (tabOfKey e.1) with
    | none =>
      obtain ⟨s', i1, i2, i3⟩ := ih hd' a2 s hs
      refine ⟨s', i1, i2, fun n => ?_⟩
      rw [i3]
      by_cases hn : sameN n e.1 = true
      · obtain ⟨h1, h2, h3⟩ := hcons n hn
        rw [h1, h2, h3, hg]; rfl
      · rw [hcons' n hn]
    | some t =>
      obtain ⟨s', i1, i2, i3⟩ := ih hd' a2 { s with sers := (setN s.sers e.1 ⟨t, true, .ofMap (entriesOf e.2.days)⟩).1 } hs
      refine ⟨s', i1, i2, fun n => ?_⟩
      rw [i3]
      simp only
      rw [getN_setN]
      by_cases hn : sameN n e.1 = true
      · obtain ⟨h1, h2, h3⟩ := hcons n hn
        rw [h1, h2, h3, hg, if_pos hn]; rfl
      · rw [hcons' n hn, if_neg hn]

/-- The server started on the files of a database with records with times, in tables defined once. -/
theorem restart_of {lib : Sdb.Lib} {v : Time.Env} {P : Db → Prop} (ht : lib.trace = false) (L : Sdb.Restores lib) (T : Sdb.Readable lib P) (K : Sdb.Tables P) {d : Sdb.Disk} {a : Sdb.Abs}
    (h : Sdb.Hist lib v P d a) (hv : ∀ n, a.vals n = none) (hw : ∀ n db, a.was n db → (Sdb.timeField db).isSome = true ∧ db.mindex.isSome = true)
    (hone : ∀ n x y, a.was n x → a.was n y → x = y) (hm : ∀ k t q, a.marks k (some t) q → q < 2 ^ 31) :
    ∃ s, restart lib d = some s ∧ (∀ n, (46 : UInt8) ∉ n → getN s.sers n = none) ∧ ∀ k t, (46 : UInt8) ∉ k →
      ((∀ q, ¬ a.marks (fold k) (some (fold t)) q) → getN s.sers (Sdb.nodeName k (some t)) = none) ∧
      ∀ db, a.defs (fold t) = some db → (∃ q, a.marks (fold k) (some (fold t)) q) → ∃ ps : List Int,
        getN s.sers (Sdb.nodeName k (some t)) = some ⟨tblOfDb db, true, .ofMap (ps.map fun p => (p, true))⟩ ∧ ps.Pairwise (· < ·) ∧
        ∀ p : Int, p ∈ ps ↔ ∃ q : Nat, a.marks (fold k) (some (fold t)) q ∧ p = q := by
  obtain ⟨m, S, hd, r⟩ := Sdb.hist_rel ht L T K h
  have hdated := r.dated hv fun s db hx => (hw s db hx).1
  obtain ⟨tabs, t1, t2⟩ := tabsBack_get hd.main.sdiff fun e he => (hd.main.snames e he).2.1
  have hget : ∀ n t, getN tabs n = some t → indexed t = true := by
    intro n t hx
    rw [t2] at hx
    obtain ⟨db, h1, rfl⟩ := Option.map_eq_some_iff.1 hx
    obtain ⟨dbs, h2, h3⟩ := Option.bind_eq_some_iff.1 h1
    obtain ⟨i, e, h4, h5, _⟩ := getN_some h2
    exact (hw _ db (r.known e (List.mem_of_getElem? h4) db (by rw [h5]; exact List.mem_of_getLast? h3))).2
  obtain ⟨s, s1, s2, s3⟩ := series_back (lib := lib) (d := d) hget m.maps hdated r.apart ⟨tabs, []⟩ rfl
  have hrun : restart lib d = some s := by
    unfold restart
    rcases hd.body with ⟨b1, b2⟩ | ⟨b1, b2⟩
    · rw [b1]
      rw [b2] at t1 s1
      cases t1
      exact s1
    · rw [b1]
      simp only
      rw [Sdb.main_back hd.main b2, Option.bind_some, t1]
      exact s1
  have hser : ∀ n, getN s.sers n = ((getN m.maps n).bind fun e => (getN tabs (tabOfKey n)).map fun t => (⟨t, true, .ofMap (entriesOf e.days)⟩ : Back)) := by
    intro n
    rw [s3]
    show Option.or _ none = _
    simp
  refine ⟨s, hrun, fun n hn => ?_, fun k t hk => ⟨fun hno => ?_, fun db hdef hex => ?_⟩⟩
  · have : getN m.maps n = none := by
      rw [getN_none]
      intro e he
      obtain ⟨_, k, t, hk, hname⟩ := hdated e he
      apply Sdb.same_false
      rw [hname, Sdb.fold_node]
      intro hx
      exact Sdb.fold_dot hn (by rw [hx]; simp)
    rw [hser, this]; rfl
  · rw [hser]
    cases hg : getN m.maps (Sdb.nodeName k (some t)) with
    | none => rfl
    | some e =>
      exfalso
      obtain ⟨i, x, h1, h2, h3⟩ := getN_some hg
      have hx := List.mem_of_getElem? h1
      obtain ⟨y, hy⟩ := List.exists_mem_of_ne_nil _ (hdated x hx).1.2
      have hy1 := (r.ones x hx).2 y hy
      refine hno y.1 ((r.marks k (some t) y.1 hk).1 ⟨e, hg, ?_, ?_⟩)
      · rw [← h2]; exact (r.ones x hx).1
      · rw [← h2, ← hy1]; exact hy
  · obtain ⟨q, hq⟩ := hex
    obtain ⟨e, hg, _⟩ := (r.marks k (some t) q hk).2 hq
    obtain ⟨i, x, h1, h2, h3⟩ := getN_some hg
    have hx := List.mem_of_getElem? h1
    have hmk : ∀ y ∈ e.days, y.2 = 1 ∧ a.marks (fold k) (some (fold t)) y.1 := by
      intro y hy
      rw [← h2] at hy
      have hy1 := (r.ones x hx).2 y hy
      refine ⟨hy1, (r.marks k (some t) y.1 hk).1 ⟨e, hg, ?_, ?_⟩⟩
      · rw [← h2]; exact (r.ones x hx).1
      · rw [← h2, ← hy1]; exact hy
    obtain ⟨ps, p1, p2, p3⟩ := entries_of (days := e.days) fun y hy => ⟨(hmk y hy).1, hm _ _ _ (hmk y hy).2⟩
    refine ⟨ps, ?_, p2, fun p => ?_⟩
    · obtain ⟨_, dbs, l, g1, g2, _⟩ := r.defs t db hdef
      have hl : l = db := by
        obtain ⟨i, e', f1, f2, f3⟩ := getN_some g1
        have := r.known e' (List.mem_of_getElem? f1) l (by rw [f2]; exact List.mem_of_getLast? g2)
        rw [← Sdb.fold_same.1 f3] at this
        exact hone _ _ _ this (r.was _ _ hdef)
      rw [hser, hg, (node_parts hk).2, t2, g1]
      simp only [Option.bind_some]
      rw [g2, hl, p1]
      rfl
    · rw [p3]
      constructor
      · rintro ⟨q, hq, rfl⟩; exact ⟨q, (hmk _ hq).2, rfl⟩
      · rintro ⟨q, hq, rfl⟩
        obtain ⟨e', h4, _, h5⟩ := (r.marks k (some t) q hk).2 hq
        rw [hg] at h4
        cases h4
        exact ⟨q, h5, rfl⟩

end Sis.Io
