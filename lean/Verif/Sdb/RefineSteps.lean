import Verif.Sdb.MarkLemmas
/- Every call of the writer keeps the relation of files and content. -/
namespace Sis.Sdb
open Sis Sis.Disk
open Sis.Dyn (sameN getN setN Db sameN_iff sameN_refl getN_none getN_some setN_spec getN_congr)

/-- The blocks of a value. -/
def valBlocks : Val → Blocks
  | .one d => [(0, 0, some (hidOne, catSsize d.length ++ d))]
  | .mul l => [(0, 0, some (hidMul, catSsize l.length ++ l.flatMap fun d => catSsize d.length ++ d))]

/-- Blocks of records as the index sees them. -/
def rowBlocks (u : Uid) (l : List (Nat × Nat × Bytes)) : Blocks := l.map fun b => (b.1, b.2.1, some (if u = .nots then hidNon else hidSdb, b.2.2))

structure Rel (P : Db → Prop) (a : Abs) (S : Store) (m : Ctl) : Prop where
  keys : ∀ k, a.keys (fold k) → ∃ n ∈ m.kd, sameN k n = true
  vals : ∀ k, (46 : UInt8) ∉ k → S .nots k = (a.vals (fold k)).map valBlocks
  rows : ∀ k s u, (46 : UInt8) ∉ k → S u (nodeName k (some s)) = (a.rows (fold k) (fold s) u).map (rowBlocks u)
  times : ∀ k s u l, u ≠ .nots → a.rows k s u = some l → ∀ b ∈ l, b.1 ≤ b.2.1 ∧ b.2.1 < 2 ^ 53
  undef : ∀ s, a.defs (fold s) = none → getN m.sd s = none
  defs : ∀ s db, a.defs (fold s) = some db → P db ∧ ∃ dbs l, getN m.sd s = some dbs ∧ dbs.getLast? = some l ∧ (l = db ∨ sameDb l db = true)
  ones : AllOnes m.maps
  marks : ∀ k t day, (46 : UInt8) ∉ k → (Marked m.maps (nodeName k t) day ↔ a.marks (fold k) (t.map fold) day)
  was : ∀ n db, a.defs n = some db → a.was n db
  known : ∀ e ∈ m.sd, ∀ db ∈ e.2, a.was (fold e.1) db
  dated : (∀ n, a.vals n = none) → (∀ s db, a.was s db → (timeField db).isSome = true) → Dated m.maps
  apart : m.maps.Pairwise fun a b => sameN a.1 b.1 = false

theorem rel_new (P : Db → Prop) : Rel P {} (fun _ _ => none) { kind := .main } where
  keys := by intro k h; cases h
  vals := by intro k _; rfl
  rows := by intro k s u _; rfl
  times := by intro k s u l _ h; cases h
  undef := by intro s _; rfl
  defs := by intro s db h; cases h
  ones := by intro e h; cases h
  marks := by
    intro k t day _
    constructor
    · rintro ⟨e, h, _⟩; cases h
    · intro h; cases h
  was := by intro n db h; cases h
  known := by intro e h; cases h
  dated := by intro _ _ e h; cases h
  apart := List.Pairwise.nil

theorem tabsOk {P : Db → Prop} (h : Tables P) : TabsOk P where
  kind := by
    intro db hp
    cases ht : db.time with
    | none => exact ⟨.nots, by unfold scale; rw [ht], by simp⟩
    | some a =>
      obtain ⟨f, hf, _⟩ := h.time db hp (by rw [ht]; rfl)
      unfold timeField at hf
      rw [ht] at hf
      refine ⟨if f.style = .date then .year else .date, ?_, by split <;> simp⟩
      unfold scale
      rw [ht]
      have hf' : Dyn.unit db a = some f := hf
      simp [hf']
  size := fun db hp => by have := (h.size db hp).1; omega
  same := fun a b ha hb hs => by
    unfold sameDb at hs
    have := of_decide_eq_true hs
    exact h.same a b ha hb this.2

theorem textOk {lib : Lib} {P : Db → Prop} (h : Readable lib P) : TextOk lib P :=
  ⟨fun ts hne ht => h ts hne fun t hx => ⟨⟨(ht t hx).1.ne, (ht t hx).1.len, (ht t hx).1.plain⟩, (ht t hx).2⟩⟩

theorem zipOk {lib : Lib} (h : Restores lib) : ZipOk lib := ⟨h⟩

/-! ### Keys -/

theorem mem_addKey {kd : List Bytes} {k n : Bytes} (h : n ∈ kd) : n ∈ addKey kd k := by
  unfold addKey; split
  · exact h
  · simp [h]

theorem addKey_has (kd : List Bytes) (k : Bytes) : ∃ n ∈ addKey kd k, sameN k n = true := by
  unfold addKey
  split
  · rename_i h; exact getKey_isSome.1 h
  · exact ⟨k, by simp, sameN_refl k⟩

theorem mem_addKeys (ks : List Bytes) : ∀ {kd : List Bytes} {n : Bytes}, n ∈ kd → n ∈ ks.foldl addKey kd := by
  induction ks with
  | nil => intro kd n h; exact h
  | cons k ks ih => intro kd n h; exact ih (mem_addKey h)

theorem addKeys_has (ks : List Bytes) : ∀ (kd : List Bytes) {k : Bytes}, k ∈ ks → ∃ n ∈ ks.foldl addKey kd, sameN k n = true := by
  induction ks with
  | nil => intro kd k h; cases h
  | cons a ks ih =>
    intro kd k h
    rw [List.foldl_cons]
    rcases List.mem_cons.1 h with rfl | h
    · obtain ⟨n, hn, hs⟩ := addKey_has kd k
      exact ⟨n, mem_addKeys ks hn, hs⟩
    · exact ih _ h

theorem same_trans {a b c : Bytes} (h : fold a = fold b) (g : sameN b c = true) : sameN a c = true := by
  rw [fold_same] at g ⊢
  exact h.trans g

theorem keys_rel {lib : Lib} {P : Db → Prop} {d : Disk} {w : Writer} {S : Store} {a : Abs} (h : Good lib P d w S) (r : Rel P a S w.main) {ks : List Bytes}
    (hk : ∀ k ∈ ks, KeyName k) {w' : Writer} (hc : setKeys lib w (List.intercalate [44] ks) = w') (hs : Small w') (v : Time.Env) :
    Good lib P d w' S ∧ Rel P (a.act v (.keys ks)) S w'.main := by
  rw [join_eq] at hc
  have hg : ∀ k ∈ ks, GoodKey k := fun k hx => goodKey (hk k hx)
  have hsp := splitNames_join ks hg
  obtain ⟨_, g2, g3, g4, g5⟩ := keys_step (s := joinNames ks) h (by rw [hsp]; exact hg)
  rw [hc] at g2 g3 g4 g5
  refine ⟨g2 hs, ?_, r.vals, r.rows, r.times, by rw [g3]; exact r.undef, by rw [g3]; exact r.defs, by rw [g4]; exact r.ones, by rw [g4]; exact r.marks,
    r.was, by rw [g3]; exact r.known, by rw [g4]; exact r.dated, by rw [g4]; exact r.apart⟩
  intro k hkk
  have hkd : w'.main.kd = ks.foldl addKey w.main.kd := by
    rw [g5, hsp]
    split
    · rename_i he
      cases ks with
      | nil => rfl
      | cons x xs => exact absurd he (joinNames_ne (by simp) hg)
    · rfl
  rw [hkd]
  rcases hkk with hkk | hkk
  · obtain ⟨n, hn, hsn⟩ := r.keys k hkk
    exact ⟨n, mem_addKeys ks hn, hsn⟩
  · obtain ⟨k', hk', he⟩ := List.mem_map.1 hkk
    obtain ⟨n, hn, hsn⟩ := addKeys_has ks w.main.kd hk'
    exact ⟨n, hn, same_trans he.symm hsn⟩

/-! ### Tables -/

theorem foldTab_get (ts : List Tab) : (ts.Pairwise fun x y => fold x.name ≠ fold y.name) → ∀ (sd : TDict) (n : Bytes),
    (ts.find? (fun t => fold t.name == fold n) = none → getN (ts.foldl (fun sd t => (addTab sd t).1) sd) n = getN sd n) ∧
    (∀ t, ts.find? (fun t => fold t.name == fold n) = some t →
      ∃ dbs l, getN (ts.foldl (fun sd t => (addTab sd t).1) sd) n = some dbs ∧ dbs.getLast? = some l ∧ (l = t.db ∨ sameDb l t.db = true)) := by
  induction ts with
  | nil => intro _ sd n; exact ⟨fun _ => rfl, fun t h => by cases h⟩
  | cons t ts ih =>
    intro hd sd n
    obtain ⟨hd1, hd2⟩ := List.pairwise_cons.1 hd
    obtain ⟨i1, i2⟩ := ih hd2 (addTab sd t).1 n
    obtain ⟨a1, a2⟩ := getN_addTab sd t n
    rw [List.find?_cons, List.foldl_cons]
    by_cases he : fold t.name = fold n
    · simp only [he, beq_self_eq_true, reduceCtorEq, false_implies, Option.some.injEq, true_and]
      rintro t' rfl
      have hn : ts.find? (fun t => fold t.name == fold n) = none := by
        rw [List.find?_eq_none]
        intro x hx
        rw [← he]
        simpa using fun hh => hd1 x hx hh.symm
      rw [i1 hn]
      obtain ⟨dbs, l, b1, b2, b3⟩ := a2 (fold_same.2 he.symm)
      refine ⟨dbs, l, b1, b2, ?_⟩
      rcases b3 with b3 | b3
      · exact .inl b3
      · exact .inr b3.1
    · have hb : (fold t.name == fold n) = false := by simpa using he
      rw [hb]
      simp only
      refine ⟨fun hx => ?_, i2⟩
      rw [i1 hx, a1 (same_false (fun hh => he hh.symm))]

theorem foldTab_known (Q : Bytes → Db → Prop) (hq : ∀ n n' db, sameN n n' = true → Q n db → Q n' db) (ts : List Tab) : ∀ (sd : TDict),
    (∀ e ∈ sd, ∀ db ∈ e.2, Q e.1 db) → (∀ t ∈ ts, Q t.name t.db) → ∀ e ∈ ts.foldl (fun sd t => (addTab sd t).1) sd, ∀ db ∈ e.2, Q e.1 db := by
  induction ts with
  | nil => intro sd h _; exact h
  | cons t ts ih =>
    intro sd h ht
    rw [List.foldl_cons]
    refine ih _ ?_ fun t hx => ht t (by simp [hx])
    have htq := ht t (by simp)
    have hset : ∀ dbs : List Db, (∀ n, sameN t.name n = true → ∀ db ∈ dbs, Q n db) → ∀ e ∈ (setN sd t.name dbs).1, ∀ db ∈ e.2, Q e.1 db := by
      intro dbs hd e he
      rcases setN_spec sd t.name dbs with ⟨_, h2⟩ | ⟨i, e', h1, hs, _, h2⟩
      · rw [h2] at he
        rcases List.mem_append.1 he with he | he
        · exact h e he
        · rw [List.mem_singleton.1 he]; exact hd _ (sameN_refl _)
      · rw [h2] at he
        rcases List.mem_or_eq_of_mem_set he with he | he
        · exact h e he
        · rw [he]; exact hd _ hs
    unfold addTab
    split
    · refine hset _ fun n hn db hdb => ?_
      rw [List.mem_singleton.1 hdb]
      exact hq _ _ _ hn htq
    · rename_i dbs hg
      split
      · refine hset _ fun n hn db hdb => ?_
        rcases List.mem_append.1 hdb with hdb | hdb
        · obtain ⟨_, m, hm', hme, hms⟩ := getN_some hg
          refine hq m.1 n db ?_ (h m (List.mem_of_getElem? hm') db (by rw [hme]; exact hdb))
          rw [fold_same] at hn hms ⊢
          exact hms.symm.trans hn
        · rw [List.mem_singleton.1 hdb]
          exact hq _ _ _ hn htq
      · exact h

theorem tabs_rel {lib : Lib} {P : Db → Prop} (T : TextOk lib P) (K : TabsOk P) {d : Disk} {w : Writer} {S : Store} {a : Abs} (h : Good lib P d w S) (r : Rel P a S w.main)
    {ts : List Tab} (ht : ∀ t ∈ ts, TabName t.name ∧ P t.db) (hd : ts.Pairwise fun x y => fold x.name ≠ fold y.name) {w' : Writer} (hc : setTabs lib w ts = some w')
    (hs : Small w') (v : Time.Env) : Good lib P d w' S ∧ Rel P (a.act v (.tabs ts)) S w'.main := by
  obtain ⟨w1, g1, _, g3, g4, g5, g6⟩ := tabs_step T K h (ts := ts) (fun t hx => ⟨goodTab (ht t hx).1, (ht t hx).2⟩) (hd.imp fun hx => same_false hx)
  rw [hc] at g1
  cases g1
  refine ⟨g3 hs, by rw [g4]; exact r.keys, r.vals, r.rows, r.times, ?_, ?_, by rw [g5]; exact r.ones, by rw [g5]; exact r.marks, ?_, ?_, ?_, by rw [g5]; exact r.apart⟩
  · intro s hx
    rw [g6]
    simp only [Abs.act] at hx
    cases hf : ts.find? (fun t => fold t.name == fold s) with
    | none =>
      rw [hf] at hx
      rw [(foldTab_get ts hd w.main.sd s).1 hf]
      exact r.undef s hx
    | some t => rw [hf] at hx; cases hx
  · intro s db hx
    rw [g6]
    simp only [Abs.act] at hx
    cases hf : ts.find? (fun t => fold t.name == fold s) with
    | none =>
      rw [hf] at hx
      rw [(foldTab_get ts hd w.main.sd s).1 hf]
      exact r.defs s db hx
    | some t =>
      rw [hf] at hx
      have hdb : t.db = db := Option.some.inj hx
      rw [← hdb]
      exact ⟨(ht t (List.mem_of_find?_eq_some hf)).2, (foldTab_get ts hd w.main.sd s).2 t hf⟩
  · intro n db hx
    simp only [Abs.act] at hx ⊢
    cases hf : ts.find? (fun t => fold t.name == n) with
    | none => rw [hf] at hx; exact .inl (r.was n db hx)
    | some t =>
      rw [hf] at hx
      exact .inr ⟨t, List.mem_of_find?_eq_some hf, by simpa using List.find?_some hf, Option.some.inj hx⟩
  · rw [g6]
    refine foldTab_known (fun n db => a.was (fold n) db ∨ ∃ t ∈ ts, fold t.name = fold n ∧ t.db = db) ?_ ts w.main.sd (fun e he db hdb => .inl (r.known e he db hdb))
      fun t hx => .inr ⟨t, hx, rfl, rfl⟩
    intro n n' db hn hx
    rw [← fold_same.1 hn]
    exact hx
  · rw [g5]
    exact fun h1 h2 => r.dated h1 fun s db hx => h2 s db (.inl hx)

/-! ### Values -/

theorem alone_rel {P : Db → Prop} {a : Abs} {S : Store} {m m' : Ctl} (r : Rel P a S m) {k : Bytes} (hk : KeyName k) (x : Val) (hkd : m'.kd = addKey m.kd k) (hsd : m'.sd = m.sd)
    {kt : Nat} (hmp : ∃ n ∈ addKey m.kd k, sameN k n = true ∧ m'.maps = mark m.maps n kt 0) :
    Rel P { a with keys := fun n => a.keys n ∨ n = fold k, vals := fun n => (if n = fold k then some x else a.vals n), marks := fun n t p => a.marks n t p ∨ (n = fold k ∧ t = none ∧ p = 0) } (put S .nots k fun _ => valBlocks x) m' where
  keys := by
    intro k' h
    rw [hkd]
    rcases h with h | h
    · obtain ⟨n, hn, hs⟩ := r.keys k' h
      exact ⟨n, mem_addKey hn, hs⟩
    · obtain ⟨n, hn, hs⟩ := addKey_has m.kd k
      exact ⟨n, hn, same_trans h hs⟩
  vals := by
    intro k' hd
    unfold put
    simp only [true_and]
    by_cases he : fold k' = fold k
    · rw [if_pos (fold_same.2 he), if_pos he]; rfl
    · rw [if_neg (by rw [same_false he]; simp), if_neg he]; exact r.vals k' hd
  rows := by
    intro k' s u hd
    unfold put
    rw [if_neg (by rw [node_key hk.dot]; simp)]
    exact r.rows k' s u hd
  times := r.times
  undef := by rw [hsd]; exact r.undef
  defs := by rw [hsd]; exact r.defs
  ones := by
    obtain ⟨n, _, _, h⟩ := hmp
    rw [h]; exact mark_ones r.ones _ _ _
  marks := by
    obtain ⟨n, _, hn, h⟩ := hmp
    intro k' t day hd
    rw [h, mark_iff r.ones, r.marks k' t day hd]
    have hdn : (46 : UInt8) ∉ n := by
      intro hx
      have := fold_dot hk.dot
      rw [fold_same.1 hn] at this
      exact this (List.mem_map.2 ⟨46, hx, (lower_dot 46).2 rfl⟩)
    refine or_congr_right ?_
    cases t with
    | none =>
      show sameN k' n = true ∧ _ ↔ _
      rw [fold_same, ← fold_same.1 hn]
      simp
    | some s => rw [node_key hdn]; simp
  was := r.was
  known := by rw [hsd]; exact r.known
  dated := by
    intro h
    have := h (fold k)
    simp at this
  apart := by
    obtain ⟨n, _, _, h⟩ := hmp
    rw [h]; exact mark_apart r.apart _ _ _

/-! ### Records -/

theorem dbl_eq {n : Nat} (h : n < 2 ^ 53) : dbl n = n := by unfold dbl; rw [if_pos h]

theorem mixed_eq {a b c d : Nat} (h1 : a ≤ b) (h2 : c ≤ d) : mixed a b c d = replaces a b c d := by
  unfold mixed replaces
  by_cases h3 : a = d ∨ c = b
  · rw [if_pos h3]
    rcases h3 with h3 | h3 <;> simp [h3]
  · rw [if_neg h3]
    have e1 : (a == d) = false := by simpa using fun hx => h3 (.inl hx)
    have e2 : (c == b) = false := by simpa using fun hx => h3 (.inr hx)
    rw [e1, e2]
    by_cases h4 : a > d ∨ c > b
    · rw [if_pos h4]
      simp only [Bool.false_or, Bool.false_eq, decide_eq_false_iff_not]
      omega
    · rw [if_neg h4]; simp

theorem keepV_rows {a b : Nat} (h0 : 0 < a) (h1 : a ≤ b) (h2 : b < 2 ^ 53) {u : Uid} (l : List (Nat × Nat × Bytes)) (hl : ∀ o ∈ l, o.1 ≤ o.2.1 ∧ o.2.1 < 2 ^ 53) :
    keepV a b (rowBlocks u l) = rowBlocks u (l.filter fun o => !replaces a b o.1 o.2.1) := by
  unfold keepV
  rw [if_neg (by omega)]
  unfold rowBlocks
  rw [List.filter_map]
  congr 1
  apply List.filter_congr
  intro o ho
  obtain ⟨h3, h4⟩ := hl o ho
  simp only [Function.comp]
  rw [dbl_eq (by omega), dbl_eq h2, dbl_eq (n := o.1) (by omega), dbl_eq h4, mixed_eq h1 h3]

/-- The first of an ordered list is not behind the last. -/
theorem head_last {α : Type} {t : α → Nat} {l : List α} (h : l.Pairwise fun x y => t x ≤ t y) {x y : α} (hx : l.head? = some x) (hy : l.getLast? = some y) : t x ≤ t y := by
  cases l with
  | nil => cases hx
  | cons z l =>
    cases hx
    have := List.mem_of_getLast? hy
    rcases List.mem_cons.1 this with rfl | hm
    · exact Nat.le_refl _
    · exact (List.pairwise_cons.1 h).1 y hm

theorem timeField_same {a b : Db} (h : a.time.map (Dyn.unit a) = b.time.map (Dyn.unit b)) : timeField a = timeField b := by
  unfold timeField
  cases ha : a.time <;> cases hb : b.time <;> simp [ha, hb] at h ⊢
  exact h

theorem timed {P : Db → Prop} (K : Tables P) {db : Db} (hp : P db) {f : Dyn.Field} (hf : timeField db = some f) : Timed db f := by
  have ht : db.time.isSome = true := by
    unfold timeField at hf
    cases h : db.time with
    | none => rw [h] at hf; cases hf
    | some a => rfl
  obtain ⟨g, h1, h2, h3, h4⟩ := K.time db hp ht
  rw [hf] at h1
  cases h1
  exact ⟨(K.size db hp).1, (K.size db hp).2, hf, h2, h3, h4⟩

theorem untimed {P : Db → Prop} (K : Tables P) {db : Db} (hp : P db) (hf : timeField db = none) : scale db = some .nots := by
  cases ht : db.time with
  | none => unfold scale; rw [ht]
  | some a =>
    obtain ⟨g, h1, _⟩ := K.time db hp (by rw [ht]; rfl)
    rw [hf] at h1; cases h1

theorem rows_rel {lib : Lib} {P : Db → Prop} (L : ZipOk lib) (T : TextOk lib P) (K : Tables P) {d : Disk} {w : Writer} {S : Store} {a : Abs} (h : Good lib P d w S)
    (hkd : KeyDiff w) (r : Rel P a S w.main) {v : Time.Env} {k s b : Bytes} (hk : KeyName k) (hdecl : a.keys (fold k)) (hb : ∀ db, a.defs (fold s) = some db → BlockOk v db b)
    {w' : Writer} (hc : writerSdb lib v d w k s b = some w') (hs : Small w') :
    ∃ S', Good lib P d w' S' ∧ Rel P (a.act v (.rows k s b)) S' w'.main := by
  unfold writerSdb at hc
  cases hdef : a.defs (fold s) with
  | none =>
    have hg := r.undef s hdef
    have : getTab w.main.sd s = none := by
      cases ht : getTab w.main.sd s with
      | none => rfl
      | some e =>
        exfalso
        unfold getTab at ht
        have h1 := List.mem_of_find?_eq_some ht
        have h2 : sameN s e.1.1 = true := by simpa using List.find?_some ht
        rw [List.mem_zipIdx_iff_getElem?] at h1
        have := getN_none.1 hg e.1 (List.mem_of_getElem? h1)
        rw [h2] at this; cases this
    rw [this] at hc
    cases hc
    refine ⟨S, h, ?_⟩
    simp only [Abs.act, hdef]
    exact r
  | some db =>
    have hblk := hb db hdef
    obtain ⟨hp, dbs, l, hg, hl, hsame⟩ := r.defs s db hdef
    obtain ⟨sn, si, ht, hsn, hsi⟩ := getTab_of hg
    have hpl : P l := (h.main.snames (sn, dbs) (List.mem_of_getElem? hsi)).2.2 l (List.mem_of_getLast? hl)
    have hst : l.size = db.size ∧ l.time.map (Dyn.unit l) = db.time.map (Dyn.unit db) := by
      rcases hsame with rfl | hx
      · exact ⟨rfl, rfl⟩
      · exact (tabsOk K).same l db hpl hp hx
    have hkey : (getKey w.main.kd k).isSome = true := getKey_isSome.2 (r.keys k hdecl)
    obtain ⟨⟨k', i⟩, hgk⟩ := Option.isSome_iff_exists.1 hkey
    obtain ⟨k1, k2, k3⟩ := getKey_some hgk
    have hnew : newKey lib w.main k = w.main := by unfold newKey; rw [if_pos hkey]
    rw [ht] at hc
    simp only [hnew, hgk, Option.isNone_some, Bool.false_eq_true, if_false, Option.bind_some, hl] at hc
    have hdot' : (46 : UInt8) ∉ k' := (h.main.knames k' k1).dot
    have hn0 : ∀ n, sameN n (nodeName k' (some sn)) = sameN n (nodeName k (some s)) := by
      intro n
      have h1 := fold_same.1 k2
      have h2 := fold_same.1 hsn
      have e : fold (nodeName k' (some sn)) = fold (nodeName k (some s)) := by rw [fold_node, fold_node, h1, h2]
      unfold sameN
      show (fold n == fold _) = (fold n == fold _)
      rw [e]
    have hrec : recordsOf l b = recordsOf db b := by unfold recordsOf; rw [hst.1]
    have hshort : shortName k' (some sn) = nodeName k' (some sn) := by
      unfold shortName
      apply List.take_of_length_le
      have h1 := (h.main.knames k' k1).len
      have h2 := (h.main.snames (sn, dbs) (List.mem_of_getElem? hsi)).1.len
      simp only [nodeName, List.length_append, List.length_cons]
      simp only at h2
      omega
    have hname : ∀ (k2 : Bytes) (t : Option Bytes) (q : Prop), (46 : UInt8) ∉ k2 →
        (sameN (nodeName k2 t) (nodeName k (some s)) = true ∧ q ↔ fold k2 = fold k ∧ t.map fold = some (fold s) ∧ q) := by
      intro k2 t q hk2
      cases t with
      | none =>
        have : sameN (nodeName k2 none) (nodeName k (some s)) = false := key_node hk2
        rw [this]; simp
      | some s2 =>
        rw [node_same hk2 hk.dot]
        simp [and_assoc]
    cases hf : timeField db with
    | none =>
      have hfl : timeField l = none := by rw [timeField_same hst.2, hf]
      have hsc := untimed K hpl hfl
      rw [hsc] at hc
      simp only [Option.bind_some] at hc
      obtain ⟨w1, p1, _, p3⟩ := non_step L T (tabsOk K) hl hpl hsc hn0 h k3 hsi b (by rw [hst.1]; exact hblk.whole)
      have hw : w1 = w' := Option.some.inj (p1.symm.trans hc)
      rw [hw] at p3
      obtain ⟨q1, q2, q3, q4⟩ := p3 hs
      refine ⟨_, q1, by rw [q2]; simp only [Abs.act, hdef]; exact r.keys, ?_, ?_, ?_, by rw [q3]; simp only [Abs.act, hdef]; exact r.undef, by rw [q3]; simp only [Abs.act, hdef]; exact r.defs, by rw [q4]; exact mark_ones r.ones _ _ _, ?_, by simp only [Abs.act, hdef]; exact r.was, by rw [q3]; simp only [Abs.act, hdef]; exact r.known, ?_,
        by rw [q4]; exact mark_apart r.apart _ _ _⟩
      · intro n hn
        unfold put
        rw [if_neg (by rw [key_node hn]; simp)]
        simp only [Abs.act, hdef]
        exact r.vals n hn
      · intro k2 s2 u hk2
        simp only [Abs.act, hdef, hf]
        unfold put
        by_cases hks : fold k2 = fold k ∧ fold s2 = fold s
        · rw [if_pos hks]
          by_cases hu : u = .nots
          · rw [if_pos ⟨hu, (node_same hk2 hk.dot).2 hks⟩, if_pos hu, hu]
            rfl
          · rw [if_neg (fun hx => hu hx.1), if_neg hu]
            exact r.rows k2 s2 u hk2
        · rw [if_neg hks, if_neg (fun hx => hks ((node_same hk2 hk.dot).1 hx.2))]
          exact r.rows k2 s2 u hk2
      · intro k2 s2 u l2 hu hx
        simp only [Abs.act, hdef, hf] at hx
        split at hx
        · exact r.times k2 s2 u l2 hu hx
        · exact r.times k2 s2 u l2 hu hx
      · intro k2 t day hk2
        rw [q4, mark_iff r.ones, r.marks k2 t day hk2, hshort, hn0]
        simp only [Abs.act, hdef, hf]
        exact or_congr_right (hname k2 t (day = 0) hk2)
      · intro _ h2
        simp only [Abs.act, hdef] at h2
        have := h2 _ _ (r.was _ _ hdef)
        rw [hf] at this
        cases this
    | some f =>
      have hfl : timeField l = some f := by rw [timeField_same hst.2, hf]
      have hT := timed K hpl hfl
      have hsc := scale_timed hT
      have hday : ∀ x ∈ recordsOf l b, ∃ n, dayOf v f (timeOf f x) = some n ∧ 10000 ≤ n ∧ n < 10 ^ 8 := by
        intro x hx
        rw [hrec] at hx
        exact (hblk.time f hf x hx).2.2
      have hper : ∀ x ∈ recordsOf l b, placeOf v f x = some (uidN f (perOf v f x)) ∧ perOf v f x < 2 ^ 31 ∧ Sane (uidN f (perOf v f x)) := by
        intro x hx
        obtain ⟨n, hn, hn1, hn2⟩ := hday x hx
        unfold placeOf perOf day0 uidN
        rw [hn]
        by_cases hd : f.style = .date
        · simp only [hd, if_true, Option.map_some, Option.getD_some, true_and, Sane]
          omega
        · simp only [hd, if_false, Option.map_some, Option.getD_some, true_and, Sane]
          omega
      have hord : (recordsOf l b).Pairwise fun x y => ∀ m n, dayOf v f (timeOf f x) = some m → dayOf v f (timeOf f y) = some n → m ≤ n := by
        rw [hrec]
        exact (hblk.order f hf).imp fun hx => hx.2
      obtain ⟨r0, rs, hrs, hsplit⟩ := split_runs hT v hblk.ne (by rw [hst.1]; exact hblk.whole) hblk.len (fun x hx => by
        obtain ⟨n, h1, _, h2⟩ := hday x hx
        exact ⟨n, h1, h2⟩) (by rw [hrec]; exact hblk.fits f hf) hord
      have hmul : b.length = b.length / l.size * l.size := by
        have := Nat.div_add_mod b.length l.size
        rw [hst.1, hblk.whole, Nat.add_zero, Nat.mul_comm] at this
        rw [hst.1]
        exact this.symm
      have hR : (recordsOf l b).flatten = b ∧ ∀ x ∈ recordsOf l b, x.length = l.size := records_flatten l.size hT.size _ b hmul
      have hpo : (recordsOf l b).Pairwise fun x y => perOf v f x ≤ perOf v f y := by
        refine hord.imp_of_mem fun {x y} hx hy hxy => ?_
        obtain ⟨m, hm, _⟩ := hday x hx
        obtain ⟨n, hn, _⟩ := hday y hy
        have := hxy m n hm hn
        unfold perOf day0
        rw [hm, hn]
        simp only [Option.getD_some]
        split
        · exact Nat.div_le_div_right this
        · exact this
      -- the pieces are written
      have hwp : writePieces lib d (decide (f.style = .date)) (k', i) (sn, si) w ((runsFrom (perOf v f) (perOf v f r0) [r0] rs).map piece) = some w' := by
        rw [hsc] at hc
        simp only [Option.bind_some] at hc
        by_cases hd : f.style = .date
        · rw [if_pos hd] at hc
          simp only [hd, decide_true] at hsplit ⊢
          rw [hsplit] at hc
          exact hc
        · rw [if_neg hd] at hc
          simp only [hd, decide_false] at hsplit ⊢
          rw [hsplit] at hc
          exact hc
      have hpieces : ∀ (ys xs : List Bytes) (p : Nat), xs ≠ [] → (∀ x ∈ xs ++ ys, x ∈ recordsOf l b) → (xs ++ ys).flatten.length < 2 ^ 31 → (∀ x ∈ xs, perOf v f x = p) →
          ∀ e ∈ (runsFrom (perOf v f) p xs ys).map piece, Sane (uidOf (decide (f.style = .date)) e.1) ∧ e.2.length % l.size = 0 ∧ ∃ ab, blockTimes l e.2 = some ab := by
        have hbase : ∀ (xs : List Bytes) (p : Nat), xs ≠ [] → (∀ x ∈ xs, x ∈ recordsOf l b) → xs.flatten.length < 2 ^ 31 → (∀ x ∈ xs, perOf v f x = p) →
            Sane (uidOf (decide (f.style = .date)) (piece (p, xs)).1) ∧ (piece (p, xs)).2.length % l.size = 0 ∧ ∃ ab, blockTimes l (piece (p, xs)).2 = some ab := by
          intro xs p hne hm hlen hxp
          obtain ⟨x, hx1⟩ : ∃ x, xs.head? = some x := by cases xs with | nil => exact absurd rfl hne | cons a _ => exact ⟨a, rfl⟩
          obtain ⟨y, hy1⟩ : ∃ y, xs.getLast? = some y := by
            cases hcx : xs.getLast? with
            | none => rw [List.getLast?_eq_none_iff] at hcx; exact absurd hcx hne
            | some y => exact ⟨y, rfl⟩
          have hxm : x ∈ xs := List.mem_of_head? hx1
          have hlx : ∀ z ∈ xs, z.length = l.size := fun z hz => hR.2 z (hm z hz)
          obtain ⟨_, o1, o2⟩ := hper x (hm x hxm)
          rw [hxp x hxm] at o1 o2
          refine ⟨?_, ?_, _, blockTimes_rec hT hlx hlen hx1 hy1⟩
          · show Sane (uidOf _ (p : Int))
            rw [uidOf_eq f o1]; exact o2
          · show xs.flatten.length % l.size = 0
            rw [flatten_length l.size xs hlx]
            exact Nat.mul_mod_left _ _
        intro ys
        induction ys with
        | nil =>
          intro xs p hne hm hlen hxp e he
          rw [runsFrom, List.map_singleton] at he
          rw [List.mem_singleton.1 he]
          rw [List.append_nil] at hm hlen
          exact hbase xs p hne hm hlen hxp
        | cons y ys ih =>
          intro xs p hne hm hlen hxp e he
          rw [runsFrom] at he
          have ee : xs ++ y :: ys = (xs ++ [y]) ++ ys := by simp
          split at he
          · rename_i hy
            rw [ee] at hm hlen
            refine ih (xs ++ [y]) p (by simp) hm hlen ?_ e he
            intro x hx
            rcases List.mem_append.1 hx with hx | hx
            · exact hxp x hx
            · rw [List.mem_singleton.1 hx]; exact hy
          · rw [List.map_cons] at he
            rw [List.flatten_append, List.length_append] at hlen
            rcases List.mem_cons.1 he with rfl | he
            · exact hbase xs p hne (fun x hx => hm x (by simp [hx])) (by omega) hxp
            · exact ih [y] (perOf v f y) (by simp) (fun x hx => hm x (by simp at hx ⊢; exact .inr hx)) (by simp at hlen ⊢; omega) (by simp) e he
      obtain ⟨q1, q2, q3, q4⟩ := pieces_step L T (tabsOk K) (year := decide (f.style = .date)) hl hpl (by rw [hsc]; simp) hn0 _
        (hpieces rs [r0] (perOf v f r0) (by simp) (fun x hx => by rw [hrs]; exact hx) (by
          have : ([r0] ++ rs).flatten = b := by rw [← hR.1, hrs]; rfl
          rw [this]; exact hblk.len) (by simp)) h hkd k3 hsi hwp hs
      have hput : ∀ u n, putPieces l (decide (f.style = .date)) (nodeName k (some s)) S ((runsFrom (perOf v f) (perOf v f r0) [r0] rs).map piece) u n =
          if sameN n (nodeName k (some s)) = true then addV f ((recordsOf db b).filter fun r => placeOf v f r == some u) (S u n) else S u n := by
        intro u n
        rw [putPieces_runs hT v (nodeName k (some s)) rs [r0] (perOf v f r0) S (by simp)
          (fun x hx => ⟨hR.2 x (by rw [hrs]; exact hx), (hper x (by rw [hrs]; exact hx)).2.1⟩)
          (by
            have : ([r0] ++ rs).flatten = b := by rw [← hR.1, hrs]; rfl
            rw [this]; exact hblk.len) (by simp) (by
            have := hpo
            rw [hrs] at this
            exact this) u n]
        have e : ([r0] ++ rs).filter (fun r => uidN f (perOf v f r) == u) = (recordsOf db b).filter fun r => placeOf v f r == some u := by
          rw [← hrec, hrs]
          show (r0 :: rs).filter _ = _
          apply List.filter_congr
          intro x hx
          rw [(hper x (by rw [hrs]; exact hx)).1]
          by_cases hu : uidN f (perOf v f x) = u <;> simp [hu]
        rw [e]
      -- what is written to one file
      have hadd : ∀ (u : Uid) (old : Option (List (Nat × Nat × Bytes))), u ≠ .nots → (∀ o, old = some o → ∀ z ∈ o, z.1 ≤ z.2.1 ∧ z.2.1 < 2 ^ 53) →
          addV f ((recordsOf db b).filter fun r => placeOf v f r == some u) (old.map (rowBlocks u)) = (addRecords v f (recordsOf db b) u old).map (rowBlocks u) ∧
          ∀ o, addRecords v f (recordsOf db b) u old = some o → ∀ z ∈ o, z.1 ≤ z.2.1 ∧ z.2.1 < 2 ^ 53 := by
        intro u old hu hold
        unfold addV addRecords
        simp only
        generalize hmine : ((recordsOf db b).filter fun r => placeOf v f r == some u) = mine
        cases h1 : mine.head? with
        | none =>
          cases h2 : mine.getLast? with
          | none => exact ⟨rfl, hold⟩
          | some y => exact ⟨rfl, hold⟩
        | some x =>
          cases h2 : mine.getLast? with
          | none => exact ⟨rfl, hold⟩
          | some y =>
            simp only
            have hsub : mine.Pairwise fun x y => timeOf f x ≤ timeOf f y := by
              rw [← hmine]
              exact ((hblk.order f hf).imp fun hx => hx.1).filter _
            have hxy := head_last (t := timeOf f) hsub h1 h2
            have hxm : x ∈ recordsOf db b := by
              have : x ∈ mine := List.mem_of_head? h1
              rw [← hmine] at this
              exact (List.mem_filter.1 this).1
            have hym : y ∈ recordsOf db b := by
              have : y ∈ mine := List.mem_of_getLast? h2
              rw [← hmine] at this
              exact (List.mem_filter.1 this).1
            have hx0 := (hblk.time f hf x hxm).1
            have hy53 := (hblk.time f hf y hym).2.1
            have hgd : ∀ z ∈ old.getD [], z.1 ≤ z.2.1 ∧ z.2.1 < 2 ^ 53 := by
              cases old with
              | none => simp
              | some o => exact hold o rfl
            refine ⟨?_, ?_⟩
            · have e : (old.map (rowBlocks u)).getD [] = rowBlocks u (old.getD []) := by cases old <;> rfl
              rw [e, keepV_rows hx0 hxy hy53 _ hgd]
              simp [addBlock, rowBlocks, hu]
            · intro o ho z hz
              cases ho
              unfold addBlock at hz
              rcases List.mem_append.1 hz with hz | hz
              · exact hgd z (List.mem_filter.1 hz).1
              · rw [List.mem_singleton.1 hz]; exact ⟨hxy, hy53⟩
      have hnots : ∀ old : Option (List (Nat × Nat × Bytes)), addRecords v f (recordsOf db b) .nots old = old ∧
          addV f ((recordsOf db b).filter fun r => placeOf v f r == some Uid.nots) (old.map (rowBlocks .nots)) = old.map (rowBlocks .nots) := by
        intro old
        have : ((recordsOf db b).filter fun r => placeOf v f r == some Uid.nots) = [] := by
          rw [List.filter_eq_nil_iff]
          intro x _
          unfold placeOf
          cases dayOf v f (timeOf f x) with
          | none => simp
          | some n => simp; split <;> simp
        unfold addRecords addV
        rw [this]
        exact ⟨rfl, rfl⟩
      have hmk : AllOnes w.main.maps → _ := fun ho => markPieces_iff (n := shortName k' (some sn)) (perOf v f) rs [r0] (perOf v f r0) w.main.maps ho
        (hper r0 (by rw [hrs]; simp)).2.1 (fun x hx => (hper x (by rw [hrs]; simp [hx])).2.1)
      refine ⟨_, q1, by rw [q2]; simp only [Abs.act, hdef]; exact r.keys, ?_, ?_, ?_, by rw [q3]; simp only [Abs.act, hdef]; exact r.undef, by rw [q3]; simp only [Abs.act, hdef]; exact r.defs, by rw [q4]; exact (hmk r.ones).1, ?_, by simp only [Abs.act, hdef]; exact r.was,
        by rw [q3]; simp only [Abs.act, hdef]; exact r.known, ?_, by rw [q4]; exact markPieces_apart _ _ r.apart⟩
      · intro n hn
        rw [hput, if_neg (by rw [key_node hn]; simp)]
        simp only [Abs.act, hdef]
        exact r.vals n hn
      · intro k2 s2 u hk2
        rw [hput]
        simp only [Abs.act, hdef, hf]
        by_cases hks : fold k2 = fold k ∧ fold s2 = fold s
        · rw [if_pos hks, if_pos ((node_same hk2 hk.dot).2 hks), r.rows k2 s2 u hk2]
          by_cases hu : u = .nots
          · subst hu
            rw [(hnots _).1, (hnots _).2]
          · exact (hadd u _ hu (fun o ho => r.times _ _ u o hu ho)).1
        · rw [if_neg hks, if_neg (fun hx => hks ((node_same hk2 hk.dot).1 hx))]
          exact r.rows k2 s2 u hk2
      · intro k2 s2 u l2 hu hx
        simp only [Abs.act, hdef, hf] at hx
        split at hx
        · exact (hadd u _ hu (fun o ho => r.times _ _ u o hu ho)).2 l2 hx
        · exact r.times k2 s2 u l2 hu hx
      · intro k2 t day hk2
        rw [q4, (hmk r.ones).2, r.marks k2 t day hk2, hshort, hn0]
        simp only [Abs.act, hdef, hf]
        refine or_congr_right ((and_congr_right fun _ => ?_).trans (hname k2 t _ hk2))
        rw [← hrec, hrs]
        have hp : ∀ x ∈ recordsOf l b, (periodOf v f x = some day ↔ perOf v f x = day) := by
          intro x hx
          obtain ⟨n, hn, _⟩ := hday x hx
          unfold periodOf perOf day0
          rw [hn]
          simp
        simp only [List.mem_cons, exists_eq_or_imp]
        rw [hp r0 (by rw [hrs]; simp)]
        refine or_congr eq_comm ?_
        constructor
        · rintro ⟨x, hx, he⟩; exact ⟨x, hx, (hp x (by rw [hrs]; simp [hx])).2 he⟩
        · rintro ⟨x, hx, he⟩; exact ⟨x, hx, (hp x (by rw [hrs]; simp [hx])).1 he⟩
      · rw [q4, hshort]
        simp only [Abs.act, hdef]
        exact fun h1 h2 => markPieces_dated hdot' _ (r.dated h1 h2)

end Sis.Sdb
