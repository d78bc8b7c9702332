import Verif.Io.RowLemmas
import Verif.Sdb.UnitLemmas
/-
Lemmas on commands: what each of them does to a series.
-/
namespace Sis.Io
open Sis
open Sis.Dyn (Db Field getN setN sameN)
open Sis.Rec
open Sis.Fmap (Sorted Query Table recordsAt recordsIn recordsBefore rangeSpec startTs stopTs)

/-! ### Rows for records -/

section map
variable {α β : Type} (f : α → β) (ta : α → Nat) (tb : β → Nat)

theorem map_filter {l : List α} (h : ∀ x ∈ l, ta x = tb (f x)) (p : Nat → Bool) :
    (l.filter fun r => p (ta r)).map f = (l.map f).filter fun r => p (tb r) := by
  rw [List.filter_map]
  congr 1
  refine List.filter_congr fun x hx => ?_
  rw [h x hx]
  rfl

theorem map_at {l : List α} (h : ∀ x ∈ l, ta x = tb (f x)) (t : Nat) : (recordsAt ta l t).map f = recordsAt tb (l.map f) t :=
  map_filter f ta tb h fun n => decide (n = t)

theorem map_in {l : List α} (h : ∀ x ∈ l, ta x = tb (f x)) (a b : Nat) : (recordsIn ta l a b).map f = recordsIn tb (l.map f) a b :=
  map_filter f ta tb h fun n => decide (a ≤ n) && decide (n ≤ b)

theorem map_before {l : List α} (h : ∀ x ∈ l, ta x = tb (f x)) (t : Nat) : (recordsBefore ta l t).map f = recordsBefore tb (l.map f) t :=
  map_filter f ta tb h fun n => decide (n < t)

theorem map_ts {l : List α} (h : ∀ x ∈ l, ta x = tb (f x)) {o : Option α} (ho : ∀ x, o = some x → x ∈ l) : o.map ta = (o.map f).map tb := by
  cases o with
  | none => rfl
  | some x => simp [h x (ho x rfl)]

theorem map_start {l : List α} (h : ∀ x ∈ l, ta x = tb (f x)) (a : Int) : startTs ta l a = startTs tb (l.map f) a := by
  unfold startTs
  rw [← List.map_drop, List.head?_map, List.length_map,
    ← map_ts f ta tb h fun x hx => List.mem_of_mem_drop (List.mem_of_head? hx)]

theorem map_stop {l : List α} (h : ∀ x ∈ l, ta x = tb (f x)) (a b : Int) : stopTs ta l a b = stopTs tb (l.map f) a b := by
  unfold stopTs
  rw [List.getLast?_map, ← map_ts f ta tb h fun x hx => List.mem_of_getLast? hx, map_start f ta tb h]

theorem map_range {l : List α} (h : ∀ x ∈ l, ta x = tb (f x)) (a b : Int) (p : Bool) :
    (rangeSpec ta l a b p).map f = rangeSpec tb (l.map f) a b p := by
  unfold rangeSpec
  simp only
  rw [← map_start f ta tb h, ← map_stop f ta tb h, ← map_at f ta tb h, ← map_before f ta tb h, ← map_in f ta tb h, List.map_append,
    List.getLast?_map]
  congr 1
  have hiff : recordsAt ta l (startTs ta l a) = [] ↔ (recordsAt ta l (startTs ta l a)).map f = [] := List.map_eq_nil_iff.symm
  by_cases hc : p = true ∧ recordsAt ta l (startTs ta l a) = []
  · rw [if_pos hc, if_pos ⟨hc.1, hiff.1 hc.2⟩]
    cases (recordsBefore ta l (startTs ta l a)).getLast? <;> rfl
  · rw [if_neg hc, if_neg fun h => hc ⟨h.1, hiff.2 h.2⟩]
    rfl

theorem map_sorted {l : List α} (h : ∀ x ∈ l, ta x = tb (f x)) : Sorted ta l ↔ Sorted tb (l.map f) := by
  unfold Sorted
  rw [List.pairwise_map]
  constructor
  · intro hp
    exact hp.imp_of_mem fun ha hb hr => by rw [← h _ ha, ← h _ hb]; exact hr
  · intro hp
    exact hp.imp_of_mem fun ha hb hr => by rw [h _ ha, h _ hb]; exact hr

end map

theorem filter_two {α : Type} {l : List α} {p q : α → Bool} (h : ∀ x, p x = true → q x = true → False) :
    (l.filter p).length + (l.filter q).length ≤ l.length := by
  induction l with
  | nil => simp
  | cons x l ih =>
    have := h x
    cases hp : p x <;> cases hq : q x <;> simp [hp, hq] at this ⊢ <;> omega

/-! ### A series -/

/-- The values of a record. -/
def rowOf (fl : Fl) (cols : List Col) (db : Db) (r : Bytes) : List Val := valsOf fl (layout 0 cols) db.size r 0

/-- The records of a series stand for these rows. -/
def Recs (e : Env) (cols : List Col) (j : Nat) (db : Db) (recs : List Bytes) (rows : List (List Val)) : Prop :=
  (∀ r ∈ recs, IsRec e.fl cols j db r (rowOf e.fl cols db r)) ∧ rows = recs.map (rowOf e.fl cols db)

theorem recs_of {e : Env} {cols : List Col} {j : Nat} {db : Db} {recs : List Bytes} {rows : List (List Val)}
    (h : List.Forall₂ (IsRec e.fl cols j db) recs rows) : Recs e cols j db recs rows := by
  induction h with
  | nil => exact ⟨nofun, rfl⟩
  | cons h _ ih =>
    have h1 := h.vals
    refine ⟨?_, ?_⟩
    · intro r hr
      rcases List.mem_cons.1 hr with rfl | hr
      · unfold rowOf; rw [h1]; exact h
      · exact ih.1 r hr
    · rw [List.map_cons, ← ih.2]
      unfold rowOf; rw [h1]

theorem recs_all {e : Env} {cols : List Col} {j : Nat} {db : Db} {recs : List Bytes} {rows : List (List Val)}
    (h : Recs e cols j db recs rows) : List.Forall₂ (IsRec e.fl cols j db) recs rows := by
  obtain ⟨h1, rfl⟩ := h
  induction recs with
  | nil => exact .nil
  | cons r recs ih => exact .cons (h1 r (by simp)) (ih fun r hr => h1 r (by simp [hr]))

theorem recs_ts {e : Env} {cols : List Col} {j : Nat} {db : Db} (ht : Tab cols j db) {recs : List Bytes} {rows : List (List Val)}
    (h : Recs e cols j db recs rows) : ∀ r ∈ recs, (table e ⟨db, []⟩).ts r = timeOf j (rowOf e.fl cols db r) :=
  fun r hr => isRec_time ht (h.1 r hr)

theorem recs_sub {e : Env} {cols : List Col} {j : Nat} {db : Db} {recs : List Bytes} {rows : List (List Val)} (h : Recs e cols j db recs rows)
    {part : List Bytes} (hp : ∀ r ∈ part, r ∈ recs) : Recs e cols j db part (part.map (rowOf e.fl cols db)) :=
  ⟨fun r hr => h.1 r (hp r hr), rfl⟩

/-- What a query of a series finds. -/
theorem read_found {e : Env} {cols : List Col} {j : Nat} {db : Db} (ht : Tab cols j db) {u : Fmap.Unit Bytes} {rows : List (List Val)}
    (h : Recs e cols j db u.recs rows) (hs : Sorted (timeOf j) rows) {q : Cond} (hq : q.Ok (timeOf j) rows) :
    ∃ part, Recs e cols j db part (q.found (timeOf j) rows) ∧ part.length ≤ u.recs.length ∧
      ∃ n : Int, 0 ≤ n ∧ Fmap.tsdbRead (table e ⟨db, []⟩) e.goto u q.query = (n, part) := by
  have hts := recs_ts ht h
  obtain ⟨h1, rfl⟩ := h
  have hs' := (map_sorted _ _ _ hts).2 hs
  have hsub : ∀ {part}, (∀ r ∈ part, r ∈ u.recs) → Recs e cols j db part (part.map (rowOf e.fl cols db)) := recs_sub ⟨h1, rfl⟩
  have hrange : ∀ a b p, (p = true → startTs (timeOf j) (u.recs.map (rowOf e.fl cols db)) a ≤ stopTs (timeOf j) (u.recs.map (rowOf e.fl cols db)) a b) →
      ∃ part, Recs e cols j db part (rangeSpec (timeOf j) (u.recs.map (rowOf e.fl cols db)) a b p) ∧ part.length ≤ u.recs.length ∧
        ∃ n : Int, 0 ≤ n ∧ Fmap.tsdbRead (table e ⟨db, []⟩) e.goto u (.range a b p) = (n, part) := by
    intro a b p hp
    rw [← map_start _ _ _ hts, ← map_stop _ _ _ hts] at hp
    refine ⟨_, ?_, ?_, _, ?_, Fmap.C12_range_returns_exactly_the_range _ e.goto u hs' a b p hp⟩
    · rw [← map_range _ _ _ hts]
      refine hsub ?_
      intro r hr
      unfold rangeSpec at hr
      rcases List.mem_append.1 hr with hr | hr
      · split at hr
        · rw [Option.mem_toList] at hr
          exact List.mem_of_mem_filter (List.mem_of_getLast? hr)
        · cases hr
      · exact List.mem_of_mem_filter hr
    · unfold rangeSpec
      rw [List.length_append]
      have h2 := filter_two (l := u.recs) (p := fun r => decide ((table e ⟨db, []⟩).ts r < startTs (table e ⟨db, []⟩).ts u.recs a))
        (q := fun r => decide (startTs (table e ⟨db, []⟩).ts u.recs a ≤ (table e ⟨db, []⟩).ts r) &&
          decide ((table e ⟨db, []⟩).ts r ≤ stopTs (table e ⟨db, []⟩).ts u.recs a b)) (by
            intro x h1 h2
            simp only [decide_eq_true_eq, Bool.and_eq_true] at h1 h2
            omega)
      have h3 : ∀ l : List Bytes, l.getLast?.toList.length ≤ l.length := by
        intro l
        cases l with
        | nil => simp
        | cons a l => rw [List.getLast?_cons]; simp
      have h4 := h3 (recordsBefore (table e ⟨db, []⟩).ts u.recs (startTs (table e ⟨db, []⟩).ts u.recs a))
      change (recordsBefore (table e ⟨db, []⟩).ts u.recs (startTs (table e ⟨db, []⟩).ts u.recs a)).length +
        (recordsIn (table e ⟨db, []⟩).ts u.recs (startTs (table e ⟨db, []⟩).ts u.recs a) (stopTs (table e ⟨db, []⟩).ts u.recs a b)).length ≤ _ at h2
      split
      · omega
      · simp only [List.length_nil]; omega
    · omega
  cases q with
  | latest => exact hrange _ _ _ (by simp)
  | range a b p => exact hrange a b p hq.2.2.2.2
  | «at» t =>
    refine ⟨_, ?_, ?_, _, ?_, Fmap.C11_where_returns_exactly_the_matches _ e.goto u hs' t⟩
    · rw [Cond.found, ← map_at _ _ _ hts]
      exact hsub fun r hr => List.mem_of_mem_filter hr
    · exact List.length_filter_le _ _
    · omega
  | back t k =>
    have hr := Fmap.C11_where_with_offset (table e ⟨db, []⟩) e.goto u hs' t k hq.2.1
    rw [Cond.found, ← map_before _ _ _ hts, List.length_map, ← List.map_reverse, List.getElem?_map]
    by_cases hk : k ≤ (recordsBefore (table e ⟨db, []⟩).ts u.recs t).length
    · rw [if_pos hk] at hr ⊢
      refine ⟨_, ?_, ?_, _, ?_, hr⟩
      · have : ∀ o : Option Bytes, (o.map (rowOf e.fl cols db)).toList = o.toList.map (rowOf e.fl cols db) := by intro o; cases o <;> rfl
        rw [this]
        refine hsub fun r hr => ?_
        have h2 := List.mem_of_getElem? (show (recordsBefore (table e ⟨db, []⟩).ts u.recs t).reverse[k - 1]? = some r by simpa using hr)
        exact List.mem_of_mem_filter (List.mem_reverse.1 h2)
      · have h3 : ∀ o : Option Bytes, o.toList.length ≤ 1 := by intro o; cases o <;> simp
        have := h3 (recordsBefore (table e ⟨db, []⟩).ts u.recs t).reverse[k - 1]?
        have h4 : (recordsBefore (table e ⟨db, []⟩).ts u.recs t).length ≤ u.recs.length := List.length_filter_le _ _
        have := hq.2.1
        omega
      · decide
    · rw [if_neg hk] at hr ⊢
      exact ⟨[], ⟨nofun, rfl⟩, by simp, 0, by decide, hr⟩

/-- What an update does to a series. -/
theorem update_rows {e : Env} {cols : List Col} {j : Nat} {db : Db} (ht : Tab cols j db) {u : Fmap.Unit Bytes} {rows : List (List Val)}
    (h : Recs e cols j db u.recs rows) (hs : Sorted (timeOf j) rows) {batch : List Bytes} {new : List (List Val)}
    (hb : Recs e cols j db batch new) (hfirst : rows = [] → Sorted (timeOf j) new) :
    ∃ rows', Recs e cols j db (Fmap.sdbUpdate (table e ⟨db, []⟩) false e.goto u batch).recs rows' ∧ Sorted (timeOf j) rows' ∧
      rows'.Perm (rows ++ new) ∧ (Sorted (timeOf j) (rows ++ new) → rows' = rows ++ new) := by
  have hts := recs_ts ht h
  have htb := recs_ts ht hb
  obtain ⟨h1, rfl⟩ := h
  obtain ⟨hb1, rfl⟩ := hb
  have hs' := (map_sorted _ _ _ hts).2 hs
  have hall : ∀ r ∈ u.recs ++ batch, IsRec e.fl cols j db r (rowOf e.fl cols db r) := fun r hr =>
    (List.mem_append.1 hr).elim (h1 r) (hb1 r)
  have htall : ∀ r ∈ u.recs ++ batch, (table e ⟨db, []⟩).ts r = timeOf j (rowOf e.fl cols db r) := fun r hr =>
    (List.mem_append.1 hr).elim (hts r) (htb r)
  obtain ⟨hso, hperm⟩ : Sorted (table e ⟨db, []⟩).ts (Fmap.sdbUpdate (table e ⟨db, []⟩) false e.goto u batch).recs ∧
      (Fmap.sdbUpdate (table e ⟨db, []⟩) false e.goto u batch).recs.Perm (u.recs ++ batch) := by
    by_cases h0 : u.recs = []
    · have hf := hfirst (by rw [h0]; rfl)
      have := Fmap.C13_first_batch_partial (table e ⟨db, []⟩) e.goto u h0 batch ((map_sorted _ _ _ htb).2 hf)
      refine ⟨this.1, ?_⟩
      rw [this.2, h0]; exact List.Perm.refl _
    · exact Fmap.C13_update_keeps_sorted_and_loses_nothing_partial _ e.goto u hs' h0 batch
  refine ⟨_, ⟨fun r hr => hall r (hperm.mem_iff.1 hr), rfl⟩, ?_, ?_, ?_⟩
  · exact (map_sorted _ _ _ fun r hr => htall r (hperm.mem_iff.1 hr)).1 hso
  · rw [← List.map_append]; exact hperm.map _
  · intro hord
    rw [← List.map_append] at hord ⊢
    rw [Fmap.C14_in_order_arrival_partial _ e.goto u batch ((map_sorted _ _ _ htall).2 hord)]

/-- What deletes do to a series. -/
theorem del_rows {e : Env} {cols : List Col} {j : Nat} {db : Db} (ht : Tab cols j db) {u : Fmap.Unit Bytes} {rows : List (List Val)}
    (h : Recs e cols j db u.recs rows) (hs : Sorted (timeOf j) rows) :
    (∀ t : Nat, (Fmap.tsdbDel (table e ⟨db, []⟩) e.goto u (.whereTs t 0)).1 = (recordsAt (timeOf j) rows t).length ∧
      Recs e cols j db (Fmap.tsdbDel (table e ⟨db, []⟩) e.goto u (.whereTs t 0)).2.recs (rows.filter fun r => decide (timeOf j r ≠ t))) ∧
    ∀ a b : Nat, 0 < b → (Fmap.tsdbDel (table e ⟨db, []⟩) e.goto u (.range a b false)).1 = (recordsIn (timeOf j) rows a b).length ∧
      Recs e cols j db (Fmap.tsdbDel (table e ⟨db, []⟩) e.goto u (.range a b false)).2.recs
        (rows.filter fun r => !(decide (a ≤ timeOf j r) && decide (timeOf j r ≤ b))) := by
  have hts := recs_ts ht h
  obtain ⟨h1, rfl⟩ := h
  have hs' := (map_sorted _ _ _ hts).2 hs
  constructor
  · intro t
    obtain ⟨d1, d2⟩ := Fmap.C16_delete_where (table e ⟨db, []⟩) e.goto u hs' t 0
    rw [d1, d2, ← map_at _ _ _ hts, List.length_map]
    refine ⟨rfl, ?_⟩
    have := map_filter (rowOf e.fl cols db) _ _ hts fun n => decide (n ≠ t)
    rw [← this]
    exact recs_sub ⟨h1, rfl⟩ fun r hr => List.mem_of_mem_filter hr
  · intro a b hb
    obtain ⟨d1, d2⟩ := Fmap.C16_delete_range (table e ⟨db, []⟩) e.goto u hs' a b false
    have hr : rangeSpec (table e ⟨db, []⟩).ts u.recs a b false = recordsIn (table e ⟨db, []⟩).ts u.recs (startTs (table e ⟨db, []⟩).ts u.recs a)
        (stopTs (table e ⟨db, []⟩).ts u.recs a b) := by simp [rangeSpec]
    have h2 : startTs (table e ⟨db, []⟩).ts u.recs a = a := by unfold startTs; rw [if_neg (by omega)]; simp
    have h3 : stopTs (table e ⟨db, []⟩).ts u.recs a b = b := by unfold stopTs; rw [if_neg (by omega), if_neg (by omega)]; simp
    rw [hr, h2, h3] at d1
    rw [h2, h3] at d2
    rw [d1, d2, ← map_in _ _ _ hts, List.length_map]
    refine ⟨rfl, ?_⟩
    have := map_filter (rowOf e.fl cols db) _ _ hts fun n => !(decide (a ≤ n) && decide (n ≤ b))
    rw [← this]
    exact recs_sub ⟨h1, rfl⟩ fun r hr => List.mem_of_mem_filter hr

/-! ### The state -/

/-- What is kept of the series `key` of the table `tname`: the rows, in order. -/
structure Inv (e : Env) (cols : List Col) (j : Nat) (db : Db) (tname key : Bytes) (c : Cxt) (rows : List (List Val)) : Prop where
  tab : getN c.tabs tname = some ⟨db, []⟩
  none : getN c.sers key = none → rows = []
  some : ∀ s, getN c.sers key = some s → s.tbl = ⟨db, []⟩ ∧ Recs e cols j db s.unit.recs rows
  sorted : Sorted (timeOf j) rows

theorem name_of_key {tname key : Bytes} (h : KeyOf tname key) : key.contains 46 = true ∧ ∃ t, tableName key = some t ∧ sameN t tname = true := by
  obtain ⟨p, t, rfl, hp, ht, hl⟩ := h
  refine ⟨by simp, t, ?_, Dyn.sameN_iff.2 hl⟩
  have : (p ++ 46 :: t).dropWhile (· ≠ 46) = 46 :: t := by
    clear hl ht
    induction p with
    | nil => simp
    | cons c p ih =>
      have hc := hp c (by simp)
      rw [List.cons_append, List.dropWhile_cons, if_pos (by simpa using hc)]
      exact ih fun c hc => hp c (by simp [hc])
  unfold tableName
  rw [this]
  cases t with
  | nil => exact absurd rfl ht
  | cons a b => rfl

theorem put_rows {e : Env} {cols : List Col} {j : Nat} {db : Db} (ht : Tab cols j db) {s : Ser} (hst : s.tbl = ⟨db, []⟩) {rows : List (List Val)}
    (h : Recs e cols j db s.unit.recs rows) (hs : Sorted (timeOf j) rows) {out : Bytes} {new : List (List Val)} (hl : out.length = new.length * db.size)
    (hb : Recs e cols j db (split db.size out) new) (hfirst : rows = [] → Sorted (timeOf j) new) :
    ∃ s' rows', put e s out = some (some s') ∧ s'.tbl = ⟨db, []⟩ ∧ Recs e cols j db s'.unit.recs rows' ∧ Sorted (timeOf j) rows' ∧
      rows'.Perm (rows ++ new) ∧ (Sorted (timeOf j) (rows ++ new) → rows' = rows ++ new) := by
  obtain ⟨tbl, u⟩ := s
  cases hst
  obtain ⟨rows', h1, h2, h3, h4⟩ := update_rows ht h hs hb hfirst
  refine ⟨⟨⟨db, []⟩, Fmap.sdbUpdate (table e ⟨db, []⟩) false e.goto u (split db.size out)⟩, rows', ?_, rfl, h1, h2, h3, h4⟩
  · have hpos := size_pos ht
    unfold put
    simp only
    rw [if_neg (by omega), if_neg (by rw [hl, Nat.mul_mod_left]; simp), if_neg, if_pos (by exact ht.index)]
    · rfl
    · rintro (hx | hx)
      · obtain ⟨r, hr, hn⟩ := List.any_eq_true.1 hx
        exact ht.total r (hb.1 r hr).length (Option.isNone_iff_eq_none.1 hn)
      · simp at hx

theorem update_inv {e : Env} {cols : List Col} {j : Nat} {db : Db} (ht : Tab cols j db) {tname key : Bytes} (hk : KeyOf tname key) {c : Cxt}
    {rows : List (List Val)} (hi : Inv e cols j db tname key c rows) {out : Bytes} {new : List (List Val)} (hl : out.length = new.length * db.size)
    (hne : new ≠ []) (hb : Recs e cols j db (split db.size out) new) (hfirst : rows = [] → Sorted (timeOf j) new) :
    ∃ c' rows', update e c key out = some (c', 1) ∧ Inv e cols j db tname key c' rows' ∧
      rows'.Perm (rows ++ new) ∧ (Sorted (timeOf j) (rows ++ new) → rows' = rows ++ new) := by
  have hlen : out.length ≠ 0 := by
    have h1 := size_pos ht
    have h2 : new.length ≠ 0 := fun h => hne (List.eq_nil_of_length_eq_zero h)
    rw [hl]
    exact Nat.ne_of_gt (Nat.mul_pos (by omega) h1)
  have hset : ∀ (c1 : Cxt) (s' : Ser) rows', getN c1.tabs tname = some ⟨db, []⟩ → s'.tbl = ⟨db, []⟩ → Recs e cols j db s'.unit.recs rows' →
      Sorted (timeOf j) rows' → Inv e cols j db tname key { c1 with sers := (setN c1.sers key s').1 } rows' := by
    intro c1 s' rows' h1 h2 h3 h4
    have hg : getN (setN c1.sers key s').1 key = some s' := by rw [Sdb.getN_setN, if_pos (Dyn.sameN_iff.2 rfl)]
    refine ⟨h1, ?_, ?_, h4⟩
    · intro hn; simp only [hg] at hn; cases hn
    · intro s hs
      simp only [hg] at hs
      cases hs
      exact ⟨h2, h3⟩
  unfold update
  cases hg : getN c.sers key with
  | some s =>
    obtain ⟨h1, h2⟩ := hi.some s hg
    obtain ⟨s', rows', p1, p2, p3, p4, p5, p6⟩ := put_rows ht h1 h2 hi.sorted hl hb hfirst
    refine ⟨_, rows', ?_, hset c s' rows' hi.tab p2 p3 p4, p5, p6⟩
    dsimp only
    rw [if_neg (by simp [hlen]), p1]
    rfl
  | none =>
    have h0 := hi.none hg
    subst h0
    obtain ⟨-, t, hn1, hn2⟩ := name_of_key hk
    have hnew : newSer c key = some ({ c with sers := (setN c.sers key ⟨⟨db, []⟩, ⟨[], [], 0, 0, 0⟩⟩).1 }, ⟨⟨db, []⟩, ⟨[], [], 0, 0, 0⟩⟩) := by
      unfold newSer
      rw [hn1, Option.bind_some, Dyn.getN_congr _ hn2, hi.tab]
      rfl
    obtain ⟨s', rows', p1, p2, p3, p4, p5, p6⟩ := put_rows (e := e) ht (s := ⟨⟨db, []⟩, ⟨[], [], 0, 0, 0⟩⟩) rfl (rows := []) ⟨nofun, rfl⟩ hi.sorted hl hb hfirst
    refine ⟨_, rows', ?_, hset { c with sers := (setN c.sers key ⟨⟨db, []⟩, ⟨[], [], 0, 0, 0⟩⟩).1 } s' rows' hi.tab p2 p3 p4, p5, p6⟩
    dsimp only
    rw [hnew]
    dsimp only
    rw [p1]
    rfl

theorem dbOfKey_inv {e : Env} {cols : List Col} {j : Nat} {db : Db} {tname key : Bytes} (hk : KeyOf tname key) {c : Cxt} {rows : List (List Val)}
    (hi : Inv e cols j db tname key c rows) : ∃ c', dbOfKey c key = some (c', ⟨db, []⟩) ∧ Inv e cols j db tname key c' rows := by
  unfold dbOfKey
  cases hg : getN c.sers key with
  | some s => exact ⟨c, by dsimp only; rw [(hi.some s hg).1], hi⟩
  | none =>
    obtain ⟨-, t, hn1, hn2⟩ := name_of_key hk
    have hnew : newSer c key = some ({ c with sers := (setN c.sers key ⟨⟨db, []⟩, ⟨[], [], 0, 0, 0⟩⟩).1 }, ⟨⟨db, []⟩, ⟨[], [], 0, 0, 0⟩⟩) := by
      unfold newSer
      rw [hn1, Option.bind_some, Dyn.getN_congr _ hn2, hi.tab]
      rfl
    refine ⟨{ c with sers := (setN c.sers key ⟨⟨db, []⟩, ⟨[], [], 0, 0, 0⟩⟩).1 }, by dsimp only; rw [hnew]; rfl, hi.tab, ?_, ?_, hi.sorted⟩
    · intro _; exact hi.none hg
    · intro s hs
      simp only [Sdb.getN_setN, if_pos (Dyn.sameN_iff.2 (rfl : key.map lower = key.map lower))] at hs
      cases hs
      exact ⟨rfl, nofun, hi.none hg⟩

theorem set_inv {e : Env} {cols : List Col} {j : Nat} {db : Db} (ht : Tab cols j db) {tname key : Bytes} (hk : KeyOf tname key) {c : Cxt}
    {rows : List (List Val)} (hi : Inv e cols j db tname key c rows) {text : Bytes} (htext : ∃ r, text = 91 :: r) {out : Bytes} {new : List (List Val)}
    (hset : Rec.setChars e.fl db text = some (some out)) (hl : out.length = new.length * db.size)
    (hne : new ≠ []) (hb : Recs e cols j db (split db.size out) new) (hfirst : rows = [] → Sorted (timeOf j) new) :
    ∃ c' rows', set e c key (some text) = some (c', .int 1) ∧ Inv e cols j db tname key c' rows' ∧
      rows'.Perm (rows ++ new) ∧ (Sorted (timeOf j) (rows ++ new) → rows' = rows ++ new) := by
  obtain ⟨r, rfl⟩ := htext
  obtain ⟨c1, hd, hi1⟩ := dbOfKey_inv hk hi
  obtain ⟨c', rows', h1, h2, h3, h4⟩ := update_inv ht hk hi1 hl hne hb hfirst
  refine ⟨c', rows', ?_, h2, h3, h4⟩
  unfold set setChars
  rw [if_pos (name_of_key hk).1]
  dsimp only
  rw [if_neg (by decide), hd]
  simp only [Option.bind_eq_bind, Option.bind_some, hset, h1, Option.map_some]

theorem del_inv {e : Env} {cols : List Col} {j : Nat} {db : Db} (ht : Tab cols j db) {tname key : Bytes} (hk : KeyOf tname key) {c : Cxt}
    {rows : List (List Val)} (hi : Inv e cols j db tname key c rows) {q : Cond} {qq : Query} {st : Int} (hq : delOf (askNode q []) = some (qq, st)) {n : Nat} {p : List Val → Bool}
    (hdel : ∀ u : Fmap.Unit Bytes, Recs e cols j db u.recs rows → (Fmap.tsdbDel (table e ⟨db, []⟩) e.goto u qq).1 = n ∧
      Recs e cols j db (Fmap.tsdbDel (table e ⟨db, []⟩) e.goto u qq).2.recs (rows.filter p)) (hn : rows = [] → n = 0) :
    ∃ c', del e c key (some (askText q [])) = some (c', .int n) ∧ Inv e cols j db tname key c' (rows.filter p) := by
  have hload := load_ask q (more := []) (by simp)
  have hsort : Sorted (timeOf j) (rows.filter p) := hi.sorted.filter p
  unfold del
  simp only [Option.bind_eq_bind, Option.bind_some, hload, (name_of_key hk).1, if_true]
  unfold delSer
  simp only [hq]
  cases hg : getN c.sers key with
  | none =>
    have h0 := hi.none hg
    subst h0
    rw [hn rfl]
    exact ⟨c, rfl, hi.tab, fun _ => rfl, (fun s hs => by rw [hg] at hs; cases hs), hsort⟩
  | some s =>
    obtain ⟨h1, h2⟩ := hi.some s hg
    obtain ⟨d1, d2⟩ := hdel s.unit h2
    dsimp only
    rw [h1, if_pos (by exact ht.index), d1]
    refine ⟨_, rfl, hi.tab, ?_, ?_, hsort⟩
    · intro hn
      simp only [Sdb.getN_setN, if_pos (Dyn.sameN_iff.2 (rfl : key.map lower = key.map lower))] at hn
      cases hn
    · intro s' hs
      simp only [Sdb.getN_setN, if_pos (Dyn.sameN_iff.2 (rfl : key.map lower = key.map lower))] at hs
      cases hs
      exact ⟨rfl, d2⟩

/-- A command about something else changes nothing of the series. -/
theorem other_same {e : Env} {tname key : Bytes} {c : Cxt} {m : Cmd} (hm : Elsewhere tname key m) {c' : Cxt} {r : Reply}
    (h : step e c m = some (c', r)) : getN c'.tabs tname = getN c.tabs tname ∧ getN c'.sers key = getN c.sers key := by
  have hi : getN c.tabs tname = getN c.tabs tname ∧ getN c.sers key = getN c.sers key := ⟨rfl, rfl⟩
  have keep : ∀ c' : Cxt, getN c'.tabs tname = getN c.tabs tname → getN c'.sers key = getN c.sers key →
      getN c'.tabs tname = getN c.tabs tname ∧ getN c'.sers key = getN c.sers key := fun _ => And.intro
  have other : ∀ {α : Type} (l : List (Bytes × α)) {k n : Bytes} (v : α), k.map lower ≠ n.map lower → getN (setN l k v).1 n = getN l n := by
    intro α l k n v hne
    rw [Sdb.getN_setN, if_neg]
    intro hs
    exact hne (Dyn.sameN_iff.1 hs).symm
  have hnew : ∀ k, k.map lower ≠ key.map lower → ∀ c0 c1 s, newSer c0 k = some (c1, s) → c1.tabs = c0.tabs ∧ getN c1.sers key = getN c0.sers key := by
    intro k hne c0 c1 s hs
    unfold newSer at hs
    obtain ⟨t, -, ht⟩ := Option.map_eq_some_iff.1 hs
    cases ht
    exact ⟨rfl, other _ _ hne⟩
  have hupd : ∀ k, k.map lower ≠ key.map lower → ∀ c0 c1 b o, update e c0 k b = some (c1, o) → c1.tabs = c0.tabs ∧ getN c1.sers key = getN c0.sers key := by
    intro k hne c0 c1 b o hu
    unfold update at hu
    cases hg : getN c0.sers k with
    | some s =>
      simp only [hg] at hu
      split at hu
      · cases hu
      · obtain ⟨x, -, hx⟩ := Option.map_eq_some_iff.1 hu
        cases x <;> cases hx
        · exact ⟨rfl, rfl⟩
        · exact ⟨rfl, other _ _ hne⟩
    | none =>
      simp only [hg] at hu
      cases hnw : newSer c0 k with
      | none => rw [hnw] at hu; cases hu; exact ⟨rfl, rfl⟩
      | some p =>
        obtain ⟨c2, s⟩ := p
        obtain ⟨g1, g2⟩ := hnew k hne _ _ _ hnw
        simp only [hnw] at hu
        obtain ⟨x, -, hx⟩ := Option.map_eq_some_iff.1 hu
        cases x <;> cases hx
        · exact ⟨g1, g2⟩
        · exact ⟨g1, (other _ _ hne).trans g2⟩
  cases m with
  | create n info =>
    have hm : n.map lower ≠ tname.map lower := hm
    simp only [step, create, Option.bind_eq_bind] at h
    obtain ⟨x, -, h⟩ := Option.bind_eq_some_iff.1 h
    cases x with
    | none => cases h; exact hi
    | some nd =>
      obtain ⟨y, -, h⟩ := Option.bind_eq_some_iff.1 h
      cases y with
      | none => cases h; exact hi
      | some t =>
        cases hg : getN c.tabs n with
        | none => simp only [hg] at h; cases h; exact keep _ (other _ _ hm) rfl
        | some old =>
          simp only [hg] at h
          split at h <;> cases h
          · exact hi
          · exact keep _ (other _ _ hm) rfl
  | set k info =>
    have hm : k.map lower ≠ key.map lower := hm
    simp only [step, set] at h
    split at h
    · obtain ⟨⟨c1, o⟩, hs, hx⟩ := Option.map_eq_some_iff.1 h
      cases hx
      unfold setChars at hs
      split at hs
      · split at hs
        · cases hs; exact hi
        · simp only [Option.bind_eq_bind] at hs
          obtain ⟨⟨c2, t⟩, hd, hs⟩ := Option.bind_eq_some_iff.1 hs
          have hd' : c2.tabs = c.tabs ∧ getN c2.sers key = getN c.sers key := by
            unfold dbOfKey at hd
            split at hd
            · cases hd; exact ⟨rfl, rfl⟩
            · obtain ⟨⟨c3, s⟩, hn, hx⟩ := Option.map_eq_some_iff.1 hd
              cases hx
              exact hnew k hm _ _ _ hn
          obtain ⟨x, -, hs⟩ := Option.bind_eq_some_iff.1 hs
          cases x with
          | none => cases hs; exact keep _ (by rw [hd'.1]) hd'.2
          | some b =>
            obtain ⟨g1, g2⟩ := hupd k hm _ _ _ _ hs
            exact keep _ (by rw [g1, hd'.1]) (g2.trans hd'.2)
      · cases hs; exact hi
    · cases h; exact hi
  | bset k info =>
    have hm : k.map lower ≠ key.map lower := hm
    simp only [step, bset] at h
    split at h
    · obtain ⟨b, -, h⟩ := Option.bind_eq_some_iff.1 h
      obtain ⟨⟨c1, o⟩, hs, hx⟩ := Option.map_eq_some_iff.1 h
      cases hx
      obtain ⟨g1, g2⟩ := hupd k hm _ _ _ _ hs
      exact keep _ (by rw [g1]) g2
    · cases h; exact hi
  | get k info =>
    simp only [step] at h
    obtain ⟨x, -, hx⟩ := Option.map_eq_some_iff.1 h
    cases hx
    exact hi
  | del k info =>
    have hm : k.map lower ≠ key.map lower := hm
    simp only [step, del, Option.bind_eq_bind] at h
    obtain ⟨i, -, h⟩ := Option.bind_eq_some_iff.1 h
    obtain ⟨x, -, h⟩ := Option.bind_eq_some_iff.1 h
    cases x with
    | none => cases h; exact hi
    | some nd =>
      dsimp only at h
      split at h
      · cases h
        unfold delSer
        split
        · exact hi
        · split
          · exact hi
          · split
            · exact keep _ rfl (other _ _ hm)
            · exact keep _ rfl (other _ _ hm)
      · cases h; exact hi

theorem other_inv {e : Env} {cols : List Col} {j : Nat} {db : Db} {tname key : Bytes} {c : Cxt} {rows : List (List Val)}
    (hi : Inv e cols j db tname key c rows) {m : Cmd} (hm : Elsewhere tname key m) {c' : Cxt} {r : Reply} (h : step e c m = some (c', r)) :
    Inv e cols j db tname key c' rows := by
  obtain ⟨h1, h2⟩ := other_same hm h
  exact ⟨by rw [h1]; exact hi.tab, (by rw [h2]; exact hi.none), (by rw [h2]; exact hi.some), hi.sorted⟩

/-! ### Histories -/

theorem act_inv {e : Env} {cols : List Col} {j : Nat} {db : Db} (ht : Tab cols j db) {tname key : Bytes} (hk : KeyOf tname key) {c : Cxt}
    {rows l : List (List Val)} (hi : Inv e cols j db tname key c rows) (hperm : rows.Perm l) {a : Act} (ha : a.Legal e.fl cols j tname key l) :
    (a.reply (timeOf j) l ≠ none → (step e c (a.cmd key)).isSome = true) ∧
    ∀ c' r, step e c (a.cmd key) = some (c', r) → (∀ y, a.reply (timeOf j) l = some y → r = y) ∧
      ∃ rows', Inv e cols j db tname key c' rows' ∧ rows'.Perm (a.left (timeOf j) l) ∧
        (rows = l → Sorted (timeOf j) (a.left (timeOf j) l) → rows' = a.left (timeOf j) l) := by
  have hnil : rows = [] → l = [] := fun h => by subst h; exact List.nil_perm.1 hperm
  cases a with
  | row vs =>
    obtain ⟨h1, h2⟩ := ha
    obtain ⟨out, s1, s2, s3⟩ := row_set ht h1
    obtain ⟨c', rows', t1, t2, t3, t4⟩ := set_inv (text := rowText vs) (new := [vs]) ht hk hi ⟨_, rfl⟩ s1 (by simpa using s2) (by simp) (recs_of s3)
      (fun _ => List.pairwise_singleton _ _)
    refine ⟨fun _ => by rw [Act.cmd, step, t1]; rfl, ?_⟩
    intro c'' r hs
    rw [Act.cmd, step, t1] at hs
    cases hs
    refine ⟨fun y hy => by cases hy; rfl, rows', t2, t3.trans (hperm.append_right _), ?_⟩
    rintro rfl hso
    exact t4 hso
  | rows rs =>
    obtain ⟨h1, h2, h3, h4⟩ := ha
    obtain ⟨out, s1, s2, s3⟩ := rows_set ht h1 h2 (by
      rw [ht.size]
      have : rs.length * (cols.map Col.len).sum ≤ (l.length + rs.length) * (cols.map Col.len).sum := Nat.mul_le_mul_right _ (by omega)
      omega)
    obtain ⟨c', rows', t1, t2, t3, t4⟩ := set_inv (text := rowsText rs) (new := rs) ht hk hi ⟨_, rfl⟩ s1 s2 h1 (recs_of s3) (fun h => h4 (hnil h))
    refine ⟨fun _ => by rw [Act.cmd, step, t1]; rfl, ?_⟩
    intro c'' r hs
    rw [Act.cmd, step, t1] at hs
    cases hs
    refine ⟨fun y hy => by cases hy; rfl, rows', t2, t3.trans (hperm.append_right _), ?_⟩
    rintro rfl hso
    exact t4 hso
  | delRange a b =>
    obtain ⟨h1, h2, h3⟩ := ha
    obtain ⟨c', t1, t2⟩ := del_inv ht hk hi (delOf_range h1 h3) (n := (recordsIn (timeOf j) rows a b).length)
      (fun u hu => (del_rows ht hu hi.sorted).2 a b h2) (fun h => by subst h; rfl)
    refine ⟨fun _ => by rw [Act.cmd, step, t1]; rfl, ?_⟩
    intro c'' r hs
    rw [Act.cmd, step, t1] at hs
    cases hs
    refine ⟨fun y hy => ?_, _, t2, hperm.filter _, ?_⟩
    · cases hy
      exact congrArg (fun n : Nat => Reply.int n) (hperm.filter _).length_eq
    · rintro rfl _; rfl
  | delAt t =>
    obtain ⟨c', t1, t2⟩ := del_inv ht hk hi (delOf_at ha) (n := (recordsAt (timeOf j) rows t).length)
      (fun u hu => (del_rows ht hu hi.sorted).1 t) (fun h => by subst h; rfl)
    refine ⟨fun _ => by rw [Act.cmd, step, t1]; rfl, ?_⟩
    intro c'' r hs
    rw [Act.cmd, step, t1] at hs
    cases hs
    refine ⟨fun y hy => ?_, _, t2, hperm.filter _, ?_⟩
    · cases hy
      exact congrArg (fun n : Nat => Reply.int n) (hperm.filter _).length_eq
    · rintro rfl _; rfl
  | other m =>
    refine ⟨fun h => absurd rfl h, ?_⟩
    intro c' r hs
    exact ⟨(fun y hy => by cases hy), rows, other_inv hi ha hs, hperm, fun h _ => h⟩

theorem act_small {fl : Fl} {cols : List Col} {j : Nat} {tname key : Bytes} {l : List (List Val)} {a : Act} (ha : a.Legal fl cols j tname key l)
    (hl : l.length * (cols.map Col.len).sum < 2 ^ 31) : (a.left (timeOf j) l).length * (cols.map Col.len).sum < 2 ^ 31 := by
  have hf : ∀ p : List Val → Bool, (l.filter p).length * (cols.map Col.len).sum < 2 ^ 31 := by
    intro p
    have : (l.filter p).length * (cols.map Col.len).sum ≤ l.length * (cols.map Col.len).sum := Nat.mul_le_mul_right _ (List.length_filter_le _ _)
    omega
  cases a with
  | row vs => simpa [Act.left] using ha.2
  | rows rs => simpa [Act.left] using ha.2.2.1
  | delRange a b => exact hf _
  | delAt t => exact hf _
  | other m => exact hl

theorem run_inv {e : Env} {cols : List Col} {j : Nat} {db : Db} (ht : Tab cols j db) {tname key : Bytes} (hk : KeyOf tname key) :
    ∀ {acts : List Act} {c : Cxt} {rows l : List (List Val)}, Inv e cols j db tname key c rows → rows.Perm l →
      l.length * (cols.map Col.len).sum < 2 ^ 31 → Legal e.fl cols j tname key l acts →
      ∀ {c' : Cxt} {rs : List Reply}, run e c (acts.map (Act.cmd key)) = some (c', rs) →
      Answers rs (replies (timeOf j) l acts) ∧ ∃ rows', Inv e cols j db tname key c' rows' ∧ rows'.Perm (left (timeOf j) l acts) ∧
        (left (timeOf j) l acts).length * (cols.map Col.len).sum < 2 ^ 31 ∧
        (rows = l → InOrder (timeOf j) l acts → rows' = left (timeOf j) l acts) := by
  intro acts
  induction acts with
  | nil =>
    intro c rows l hi hp hl _ c' rs hr
    cases hr
    exact ⟨trivial, rows, hi, hp, hl, fun h _ => h⟩
  | cons a acts ih =>
    intro c rows l hi hp hl hleg c' rs hr
    obtain ⟨ha, hleg⟩ := hleg
    simp only [List.map_cons, run, Option.bind_eq_bind] at hr
    obtain ⟨⟨c1, r⟩, h1, hr⟩ := Option.bind_eq_some_iff.1 hr
    obtain ⟨⟨c2, rs'⟩, h2, hr⟩ := Option.bind_eq_some_iff.1 hr
    cases hr
    obtain ⟨hy, rows1, i1, p1, o1⟩ := (act_inv ht hk hi hp ha).2 c1 r h1
    obtain ⟨hrs, rows', i2, p2, l2, o2⟩ := ih i1 p1 (act_small ha hl) hleg h2
    refine ⟨⟨hy, hrs⟩, rows', i2, p2, l2, ?_⟩
    intro he ho
    have hs1 : Sorted (timeOf j) (a.left (timeOf j) l) := by
      have := ho.2
      cases acts <;> simp only [InOrder] at this
      · exact this
      · exact this.1
    exact o2 (o1 he hs1) ho.2

theorem run_append (e : Env) : ∀ (a b : List Cmd) (c : Cxt), run e c (a ++ b) =
    (run e c a).bind fun p => (run e p.1 b).map fun q => (q.1, p.2 ++ q.2) := by
  intro a
  induction a with
  | nil => intro b c; simp only [List.nil_append, run, Option.bind_some]; cases run e c b <;> rfl
  | cons m a ih =>
    intro b c
    simp only [List.cons_append, run, Option.bind_eq_bind]
    cases step e c m with
    | none => rfl
    | some p =>
      obtain ⟨c1, r⟩ := p
      simp only [Option.bind_some, ih]
      cases run e c1 a with
      | none => rfl
      | some q =>
        obtain ⟨c2, rs⟩ := q
        simp only [Option.bind_some]
        cases run e c2 b <;> rfl

theorem run_other {e : Env} {tname key : Bytes} : ∀ {ms : List Cmd} {c c' : Cxt} {rs : List Reply}, (∀ m ∈ ms, Elsewhere tname key m) →
    run e c ms = some (c', rs) → getN c'.tabs tname = getN c.tabs tname ∧ getN c'.sers key = getN c.sers key ∧ rs.length = ms.length := by
  intro ms
  induction ms with
  | nil => intro c c' rs _ h; cases h; exact ⟨rfl, rfl, rfl⟩
  | cons m ms ih =>
    intro c c' rs hm h
    simp only [run, Option.bind_eq_bind] at h
    obtain ⟨⟨c1, r⟩, h1, h⟩ := Option.bind_eq_some_iff.1 h
    obtain ⟨⟨c2, rs'⟩, h2, h⟩ := Option.bind_eq_some_iff.1 h
    cases h
    obtain ⟨a1, a2⟩ := other_same (hm m (by simp)) h1
    obtain ⟨b1, b2, b3⟩ := ih (fun m h => hm m (by simp [h])) h2
    exact ⟨b1.trans a1, b2.trans a2, by simp [b3]⟩

/-- What the answer to a query is made of. -/
theorem get_render {e : Env} {cols : List Col} {j : Nat} {db : Db} (ht : Tab cols j db) {tname key : Bytes} {c : Cxt} {rows : List (List Val)}
    (hi : Inv e cols j db tname key c rows) (hl : rows.length * (cols.map Col.len).sum < 2 ^ 31) {q : Cond} (hq : q.Ok (timeOf j) rows)
    {more : List (Bytes × Val)} (hm : ∀ m ∈ more, m.1 ≠ [] ∧ PlainText m.1 ∧ Rec.Readable m.2) (hw : NoWords more) :
    (getN c.sers key = none → rows = [] ∧ get e c key (some (askText q more)) = some .null) ∧
    (getN c.sers key ≠ none → ∃ part, Recs e cols j db part (q.found (timeOf j) rows) ∧ part.length < 2 ^ 31 ∧
      get e c key (some (askText q more)) =
        render e db key (fmtOf (some (askNode q more))) (fieldsOf (some (askNode q more))) part.flatten) := by
  have hload := load_ask q hm
  constructor
  · intro hn
    refine ⟨hi.none hn, ?_⟩
    unfold get
    simp only [hload, Option.bind_eq_bind, Option.bind_some, hn]
  · intro hn
    cases hg : getN c.sers key with
    | none => exact absurd hg hn
    | some s =>
      obtain ⟨h1, h2⟩ := hi.some s hg
      obtain ⟨part, p1, p2, n, p3, p4⟩ := read_found ht h2 hi.sorted hq
      obtain ⟨st, hask⟩ := askOf_ask q (fun m h => by
        obtain ⟨_, h2, _⟩ := hm m h
        intro x h0 hx
        subst hx
        have := (h2 0 h0).1
        revert this; decide) hw hq
      refine ⟨part, p1, ?_, ?_⟩
      · have hlen : rows.length = s.unit.recs.length := by rw [h2.2, List.length_map]
        have : s.unit.recs.length * 1 ≤ s.unit.recs.length * (cols.map Col.len).sum := Nat.mul_le_mul_left _ (by rw [← ht.size]; exact size_pos ht)
        rw [hlen] at hl
        omega
      · unfold get
        simp only [hload, Option.bind_eq_bind, Option.bind_some, hg, hask, read, h1, show indexed ⟨db, []⟩ = true from ht.index, if_true, p4]
        rw [if_neg (by omega)]

theorem found_nil (q : Cond) (ts : List Val → Nat) : q.found ts [] = [] := by
  cases q with
  | latest => simp [Cond.found, rangeSpec, recordsIn]
  | range a b p => simp [Cond.found, rangeSpec, recordsBefore, recordsIn]
  | «at» t => rfl
  | back t k => simp [Cond.found, recordsBefore]

theorem get_told {e : Env} {cols : List Col} {j : Nat} {db : Db} (ht : Tab cols j db) {tname key : Bytes} (hp : PlainText key) {c : Cxt} {rows : List (List Val)}
    (hi : Inv e cols j db tname key c rows) (hl : rows.length * (cols.map Col.len).sum < 2 ^ 31) {q : Cond} (hq : q.Ok (timeOf j) rows) :
    get e c key (some (askText q [])) = some (told key (q.found (timeOf j) rows)) := by
  obtain ⟨h1, h2⟩ := get_render ht hi hl hq (more := []) (by simp) (by intro m hm; cases hm)
  by_cases hg : getN c.sers key = none
  · obtain ⟨h0, hr⟩ := h1 hg
    subst h0
    rw [hr, found_nil]; rfl
  · obtain ⟨part, p1, p2, p3⟩ := h2 hg
    rw [p3, fmtOf_ask q (by simp), fieldsOf_ask q (by simp)]
    exact told_recs ht (recs_all p1) p2 hp

theorem get_latest {e : Env} {cols : List Col} {j : Nat} {db : Db} (ht : Tab cols j db) {tname key : Bytes} (hp : PlainText key) {c : Cxt} {rows : List (List Val)}
    (hi : Inv e cols j db tname key c rows) (hl : rows.length * (cols.map Col.len).sum < 2 ^ 31) :
    get e c key none = some (told key (Cond.latest.found (timeOf j) rows)) := by
  rw [← get_told ht hp hi hl (q := .latest) trivial]
  obtain ⟨s, hs⟩ := askOf_ask .latest (more := []) (by simp) (by intro m hm; cases hm) (ts := timeOf j) (l := rows) trivial
  have hload := load_ask .latest (more := []) (by simp)
  unfold get
  simp only [hload, Option.bind_eq_bind, Option.bind_some]
  rfl

end Sis.Io
