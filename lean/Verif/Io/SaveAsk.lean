import Verif.Io.SaveWrite
import Verif.Sdb.RowTheorems
/- A server started on the files of a save, and its answers. -/
namespace Sis.Io
open Sis
open Sis.Dyn (Db getN setN sameN sameN_refl sameN_iff getN_some getN_none getN_congr)
open Sis.Sdb (fold getN_setN sameN_trans_l Abs KeyName TabName)
open Sis.Fmap (Sorted)
open Sis.Time (Zone)

/-- A server on the files of a database in memory: it has the series that were written, with the records in memory. -/
structure Like (e : Env) (lib : Sdb.Lib) (v : Time.Env) (d : Sdb.Disk) (c : Cxt) (s : Srv) : Prop where
  off : ∀ key, (∀ x ∈ c.sers, 0 < times x.2 → fold x.1 ≠ fold key) → getN s.sers key = none
  on : ∀ x ∈ c.sers, 0 < times x.2 → ∃ st, ∃ ps : List Int, ∃ b, getN s.sers x.1 = some b ∧ b.tbl.db = x.2.tbl.db ∧ Holds e v st x.2.unit.recs ps b ∧
    ∀ key, fold key = fold x.1 → ∀ tb : Tbl, tb.db = x.2.tbl.db → ∀ p ∈ ps,
      readPeriod lib v d key tb p = some (some (x.2.unit.recs.filter fun r => decide (periodNum v tb.db ((table e tb).ts r) = p)))

theorem table_ts (e : Env) {a b : Tbl} (h : a.db = b.db) : (table e a).ts = (table e b).ts := by
  unfold table; rw [h]

theorem fileOf_inj {f : Dyn.Field} {p q : Int} (hp : 0 ≤ p) (hq : 0 ≤ q) (h : fileOf f p = fileOf f q) : p = q := by
  unfold fileOf at h
  split at h
  · have := Sdb.Uid.year.inj h; omega
  · have := Sdb.Uid.date.inj h; omega

theorem restart_like {e : Env} {v : Time.Env} (he : e.sign = periodNum v) (hz : Zone v) {c : Cxt} (hk : Kept e v c) {lib : Sdb.Lib}
    (ht : lib.trace = false) (L : Sdb.Restores lib) (T : Sdb.Readable lib Sdb.Usual) (K : Sdb.Tables Sdb.Usual) {d : Sdb.Disk} {a0 a : Abs}
    (h : Sdb.Hist lib v Sdb.Usual d a) (hr : Ready c a0) (hv : ∀ n, a0.vals n = none) (hw : ∀ n db, a0.was n db → ∃ x ∈ c.tabs, fold x.1 = n ∧ x.2.db = db)
    (w : Wrote v (c.sers.filter fun x => decide (0 < times x.2)) a0 a) :
    ∃ s, restart lib d = some s ∧ Like e lib v d c s := by
  have hone : ∀ n x y, a.was n x → a.was n y → x = y := by
    intro n x y h1 h2
    rw [w.was] at h1 h2
    obtain ⟨p, p1, p2, p3⟩ := hw n x h1
    obtain ⟨q, q1, q2, q3⟩ := hw n y h2
    have := pair_apart hk.tapart p1 q1 (p2.trans q2.symm)
    rw [← p3, ← q3, this]
  have hpl : ∀ x ∈ c.sers, ∀ f, Sdb.timeField x.2.tbl.db = some f → ∀ r ∈ x.2.unit.recs,
      Sdb.placeOf v f r = some (fileOf f (periodNum v x.2.tbl.db ((table e x.2.tbl).ts r))) ∧
      Sdb.periodOf v f r = some (periodNum v x.2.tbl.db ((table e x.2.tbl).ts r)).toNat ∧
      0 ≤ periodNum v x.2.tbl.db ((table e x.2.tbl).ts r) ∧ periodNum v x.2.tbl.db ((table e x.2.tbl).ts r) < 10 ^ 8 := by
    intro x hx f hf r hr'
    obtain ⟨f', gt, g⟩ := kept_ser hk hx
    rw [gt.time] at hf
    cases hf
    have := place_eq hz (timeStyle_field gt.time) (r := r) (by rw [← gt.ts r (g.whole r hr')]; exact g.times r hr')
    rw [← gt.ts r (g.whole r hr')] at this
    exact this
  obtain ⟨s, s1, s2, s3⟩ := restart_of ht L T K h (fun n => by rw [w.vals]; exact hv n) (fun n db hx => by
      rw [w.was] at hx
      obtain ⟨x, x1, x2, x3⟩ := hw n db hx
      obtain ⟨f, gt⟩ := hk.tabs x x1
      rw [← x3]
      exact ⟨by rw [gt.time]; rfl, gt.index⟩) hone (fun k t q hm => by
      obtain ⟨x, x1, x2, x3, f, x4, r, x5, x6⟩ := (w.marks _ _ _).1 hm
      obtain ⟨_, y2, y3, y4⟩ := hpl x (List.mem_filter.1 x1).1 f x4 r x5
      rw [y2] at x6
      have := Option.some.inj x6
      omega)
  refine ⟨s, s1, ?_, ?_⟩
  · intro key hn
    by_cases hd : (46 : UInt8) ∈ key
    · rw [dot_split hd]
      refine (s3 _ _ (keyName_dot key)).1 fun q hm => ?_
      obtain ⟨x, x1, x2, x3, -⟩ := (w.marks _ _ _).1 hm
      obtain ⟨x4, x5⟩ := List.mem_filter.1 x1
      obtain ⟨f, _, g⟩ := kept_ser hk x4
      refine hn x x4 (of_decide_eq_true x5) ?_
      rw [fold_dotted g.dot, fold_dotted hd, x2, Option.some.inj x3]
    · exact s2 key hd
  · intro x hx hx'
    obtain ⟨f, gt, g⟩ := kept_ser hk hx
    have hxl : x ∈ c.sers.filter fun x => decide (0 < times x.2) := List.mem_filter.2 ⟨hx, by simpa using hx'⟩
    have hmark : ∀ q : Nat, a.marks (fold (keyName x.1)) (some (fold (tabOfKey x.1))) q ↔ ∃ r ∈ x.2.unit.recs, periodNum v x.2.tbl.db ((table e x.2.tbl).ts r) = q := by
      intro q
      rw [w.marks]
      constructor
      · rintro ⟨y, y1, y2, y3, f', y4, r, y5, y6⟩
        obtain ⟨y7, -⟩ := List.mem_filter.1 y1
        obtain ⟨_, _, g'⟩ := kept_ser hk y7
        have hxy : x = y := pair_apart hk.sapart hx y7 (by rw [fold_dotted g.dot, fold_dotted g'.dot, y2, Option.some.inj y3])
        subst hxy
        obtain ⟨_, z2, z3, _⟩ := hpl x hx f' y4 r y5
        rw [z2] at y6
        have := Option.some.inj y6
        exact ⟨r, y5, by omega⟩
      · rintro ⟨r, y5, y6⟩
        obtain ⟨_, z2, z3, _⟩ := hpl x hx f gt.time r y5
        refine ⟨x, hxl, rfl, rfl, f, gt.time, r, y5, ?_⟩
        rw [z2, y6]; rfl
    have hdef : a.defs (fold (tabOfKey x.1)) = some x.2.tbl.db := by rw [w.defs]; exact hr.defs x hx
    obtain ⟨ps, q1, q2, q3⟩ := (s3 (keyName x.1) (tabOfKey x.1) (keyName_dot _)).2 _ hdef (by
      obtain ⟨r, hr'⟩ := List.exists_mem_of_ne_nil _ g.ne
      obtain ⟨_, _, z3, _⟩ := hpl x hx f gt.time r hr'
      exact ⟨_, (hmark _).2 ⟨r, hr', (Int.toNat_of_nonneg z3).symm⟩⟩)
    rw [← dot_split g.dot] at q1
    have hts : (table e (tblOfDb x.2.tbl.db)).ts = (table e x.2.tbl).ts := table_ts e rfl
    have hps : ∀ p : Int, p ∈ ps ↔ ∃ r ∈ x.2.unit.recs, periodNum v x.2.tbl.db ((table e x.2.tbl).ts r) = p := by
      intro p
      rw [q3]
      constructor
      · rintro ⟨q, h1, rfl⟩
        exact (hmark q).1 h1
      · rintro ⟨r, h1, h2⟩
        obtain ⟨_, _, z3, _⟩ := hpl x hx f gt.time r h1
        refine ⟨p.toNat, (hmark _).2 ⟨r, h1, ?_⟩, ?_⟩ <;> omega
    refine ⟨f.style, ps, _, q1, rfl, ?_, ?_⟩
    · refine holds_new (tb := tblOfDb x.2.tbl.db) he (timeStyle_field gt.time) gt.style hz gt.zone ?_ ?_ q2 ?_
      · rw [hts]; exact g.sorted
      · rw [hts]; exact g.times
      · rw [hts]; exact hps
    · intro key hkey tb htb p hp
      obtain ⟨k1, k2⟩ := same_parts (Sdb.fold_same.2 hkey)
      obtain ⟨r, hr', hrp⟩ := (hps p).1 hp
      have htt := table_ts e htb
      rw [htt, htb]
      rw [← hrp]
      have hst : ∀ {n m : Bytes}, fold n = fold m → (42 : UInt8) ∉ m → (42 : UInt8) ∉ n := fun hh hm hx => hm (mem_of_fold hh (fun x => (lower_facts x).2.1) hx)
      have hct : ∀ {n m : Bytes}, fold n = fold m → (44 : UInt8) ∉ m → (44 : UInt8) ∉ n := fun hh hm hx => hm (mem_of_fold hh (fun x => (lower_facts x).1) hx)
      have hkn := keyName_fold k1.symm g.name
      have htn := tabName_fold k2.symm gt.name
      have hmine : (x.2.unit.recs.filter fun r' => Sdb.placeOf v f r' == some (fileOf f (periodNum v x.2.tbl.db ((table e x.2.tbl).ts r)))) =
          x.2.unit.recs.filter fun r' => decide (periodNum v x.2.tbl.db ((table e x.2.tbl).ts r') = periodNum v x.2.tbl.db ((table e x.2.tbl).ts r)) := by
        apply List.filter_congr
        intro r' h'
        obtain ⟨z1, _, z3, _⟩ := hpl x hx f gt.time r' h'
        obtain ⟨_, _, z3', _⟩ := hpl x hx f gt.time r hr'
        rw [z1]
        by_cases hh : periodNum v x.2.tbl.db ((table e x.2.tbl).ts r') = periodNum v x.2.tbl.db ((table e x.2.tbl).ts r)
        · simp [hh]
        · simp only [hh, decide_false, beq_eq_false_iff_ne, ne_eq]
          exact fun he' => hh (fileOf_inj z3 z3' (Option.some.inj he'))
      have hsz := usual_size gt.usual
      generalize hM : (x.2.unit.recs.filter fun r' => decide (periodNum v x.2.tbl.db ((table e x.2.tbl).ts r') = periodNum v x.2.tbl.db ((table e x.2.tbl).ts r))) = M at hmine ⊢
      have hrM : r ∈ M := by rw [← hM]; exact List.mem_filter.2 ⟨hr', by simp⟩
      have hlM : ∀ r' ∈ M, r'.length = x.2.tbl.db.size := by
        intro r' h'
        rw [← hM] at h'
        exact g.whole r' (List.mem_filter.1 h').1
      have hrows : a.rows (fold (keyName key)) (fold (tabOfKey key)) (fileOf f (periodNum v x.2.tbl.db ((table e x.2.tbl).ts r))) =
          some [(Sdb.timeOf f (M.head (List.ne_nil_of_mem hrM)), Sdb.timeOf f (M.getLast (List.ne_nil_of_mem hrM)), M.flatten)] := by
        rw [k1, k2, w.got x hxl f gt.time]
        unfold Sdb.addRecords
        dsimp only
        rw [hmine, List.head?_eq_some_head (List.ne_nil_of_mem hrM), List.getLast?_eq_some_getLast (List.ne_nil_of_mem hrM)]
        rfl
      have hin := Sdb.C24_rows_partial ht L T K h hkn htn (fileOf f (periodNum v x.2.tbl.db ((table e x.2.tbl).ts r)))
      rw [hrows] at hin
      have := read_period (tb := tb) ht L T K h hkn htn (hst k1 g.plain) ⟨hst k2 gt.plain.1, hct k2 gt.plain.2⟩ (by rw [htb]; exact hsz)
        (fun o ho => by
          rw [k2] at ho
          have h1 := hr.defs x hx
          rw [w.was] at ho
          obtain ⟨y, y1, y2, y3⟩ := hw _ _ ho
          obtain ⟨i, z, z1, z2, z3⟩ := getN_some (hk.sers x hx).1
          have : y = z := pair_apart hk.tapart y1 (List.mem_of_getElem? z1) (y2.trans (Sdb.fold_same.1 z3))
          rw [htb, ← y3, this, z2]) (f := f) (by rw [htb]; exact gt.time) hz (g.times r hr') (m := M.flatten)
        (fun hh => by
          have h1 := List.flatten_eq_nil_iff.1 hh r hrM
          have h2 := hlM r hrM
          rw [h1] at h2
          simp at h2
          omega)
        (by
          rw [htb, hin]
          simp [Sdb.allBytes])
      rw [htb] at this
      rw [this, split_flatten hsz hlM]

/-- The answer expected to a query. -/
def want (e : Env) (c : Cxt) (q : Bytes × Option Bytes) : Option Reply :=
  match getN c.sers q.1 with
  | none => some .null
  | some s => if 0 < times s then get e c q.1 q.2 else some .null

/-- A query of records from one time to another. -/
def Ranged (info : Option Bytes) : Prop := ∃ t n, ∃ x y : Nat, info = some t ∧ Json.load t = some (some n) ∧ (askOf (some n)).1 = .range x y false ∧ 0 < x ∧ 0 < y

theorem get_back {e : Env} {lib : Sdb.Lib} {v : Time.Env} {d : Sdb.Disk} {c : Cxt} {s : Srv} (hk : Kept e v c) (h : Like e lib v d c s) {q : Bytes × Option Bytes}
    (hq : Ranged q.2) : (∃ s' r, getBack e lib v d s q.1 q.2 = some (s', r) ∧ want e c q = some r ∧ Like e lib v d c s') ∨
      (getBack e lib v d s q.1 q.2 = none ∧ want e c q = none) := by
  obtain ⟨key, info⟩ := q
  obtain ⟨t, n, x, y, h1, h2, h3, h4, h5⟩ := hq
  dsimp only at h1 ⊢
  subst h1
  have hnull : getN s.sers key = none → getBack e lib v d s key (some t) = some (s, .null) := by
    intro hn
    unfold getBack
    simp only [h2, hn]
    rfl
  have hone : ∀ z ∈ c.sers, ∀ z' ∈ c.sers, fold z.1 = fold z'.1 → z = z' := fun z hz z' hz' => pair_apart hk.sapart hz hz'
  cases hg : getN c.sers key with
  | none =>
    left
    refine ⟨s, .null, hnull (h.off key fun z hz _ he => ?_), by simp only [want, hg], h⟩
    have := getN_none.1 hg z hz
    rw [Sdb.fold_same.2 he.symm] at this
    cases this
  | some ser =>
    obtain ⟨i, z, g1, g2, g3⟩ := getN_some hg
    have hzm := List.mem_of_getElem? g1
    have hzk := Sdb.fold_same.1 g3
    by_cases htm : 0 < times ser
    · obtain ⟨st, ps, b, b1, b2, b3, b4⟩ := h.on z hzm (by rw [g2]; exact htm)
      obtain ⟨f, gt, g⟩ := kept_ser hk hzm
      rw [g2] at b2 b3 b4 gt g
      have hgb : getN s.sers key = some b := by rw [getN_congr s.sers g3]; exact b1
      have hbl : blocks lib v d key b.tbl b.unit.fidxs = _ := blocks_of (ts := (table e b.tbl).ts) b3.view (b4 key hzk b.tbl b2)
      obtain ⟨u', r1, r2⟩ := holds_read b3 (by rw [table_ts e b2]; exact g.sorted) h4 h5 (s := ser) b2.symm rfl
      have hlike : Like e lib v d c { s with sers := (setN s.sers key { b with unit := u' }).1 } := by
        refine ⟨fun k hk' => ?_, fun z' hz' ht' => ?_⟩
        · show getN (setN s.sers key _).1 k = none
          rw [getN_setN, if_neg]
          · exact h.off k hk'
          · intro hh
            exact hk' z hzm (by rw [g2]; exact htm) (hzk.symm.trans (Sdb.fold_same.1 hh).symm)
        · by_cases hzz : z' = z
          · subst hzz
            refine ⟨st, ps, { b with unit := u' }, ?_, by rw [g2]; exact b2, by rw [g2]; exact r2, by rw [g2]; exact b4⟩
            show getN (setN s.sers key _).1 z'.1 = _
            rw [getN_setN, if_pos (Sdb.fold_same.2 hzk.symm)]
          · obtain ⟨st', ps', b', c1, c2⟩ := h.on z' hz' ht'
            refine ⟨st', ps', b', ?_, c2⟩
            show getN (setN s.sers key _).1 z'.1 = _
            rw [getN_setN, if_neg]
            · exact c1
            · intro hh
              exact hzz (hone z' hz' z hzm ((Sdb.fold_same.1 hh).trans hzk))
      have hwant : want e c (key, some t) = if (Fmap.tsdbRead (table e ser.tbl) e.goto ser.unit (.range x y false)).1 < 0 then some .null
          else render e ser.tbl.db key (fmtOf (some n)) (fieldsOf (some n)) (Fmap.tsdbRead (table e ser.tbl) e.goto ser.unit (.range x y false)).2.flatten := by
        simp only [want, hg, if_pos htm]
        unfold get
        simp only [h2, hg]
        show (if (read e ser (askOf (some n))).1 < 0 then _ else render _ _ _ _ _ (read e ser (askOf (some n))).2.flatten) = _
        have : read e ser (askOf (some n)) = Fmap.tsdbRead (table e ser.tbl) e.goto ser.unit (.range x y false) := by
          unfold read
          rw [if_pos (show indexed ser.tbl = true from gt.index), h3]
        rw [this]
      have hback : getBack e lib v d s key (some t) = (if (Fmap.tsdbRead (table e ser.tbl) e.goto ser.unit (.range x y false)).1 < 0 then some .null
          else render e ser.tbl.db key (fmtOf (some n)) (fieldsOf (some n)) (Fmap.tsdbRead (table e ser.tbl) e.goto ser.unit (.range x y false)).2.flatten).map
            fun a => ({ s with sers := (setN s.sers key { b with unit := u' }).1 }, a) := by
        unfold readsOf at r1
        rw [← h3] at r1 ⊢
        unfold getBack
        simp only [h2, hgb, hbl, Option.bind_eq_bind, Option.bind_some]
        rw [if_pos b3.timed, r1, b2]
        dsimp only
        split <;> rfl
      rw [← hwant] at hback
      cases hw : want e c (key, some t) with
      | none => right; exact ⟨by rw [hback, hw]; rfl, rfl⟩
      | some r => left; exact ⟨_, r, by rw [hback, hw]; rfl, rfl, hlike⟩
    · left
      refine ⟨s, .null, hnull (h.off key fun z' hz' ht' he => ?_), by simp only [want, hg, if_neg htm], h⟩
      have := hone z' hz' z hzm (he.trans hzk)
      rw [this, g2] at ht'
      exact htm ht'

theorem gets_back {e : Env} {lib : Sdb.Lib} {v : Time.Env} {d : Sdb.Disk} {c : Cxt} (hk : Kept e v c) : ∀ (qs : List (Bytes × Option Bytes)) {s : Srv},
    Like e lib v d c s → (∀ q ∈ qs, Ranged q.2) → getsBack e lib v d s qs = Sdb.every (qs.map (want e c))
  | [], _, _, _ => rfl
  | q :: qs, s, h, hq => by
    rw [List.map_cons]
    unfold getsBack
    rcases get_back hk h (hq q (by simp)) with ⟨s', r, h1, h2, h3⟩ | ⟨h1, h2⟩
    · rw [h1, h2]
      simp only [Sdb.every]
      rw [← gets_back hk qs h3 fun q hq' => hq q (by simp [hq'])]
      rfl
    · rw [h1, h2]; rfl

end Sis.Io
