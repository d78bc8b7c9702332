import Verif.Io.SaveBack
import Verif.Sdb.DefinedTheorems
import Verif.Sdb.TabTheorems
import Verif.Io.TableLemmas
/- What is on the files after a save. -/
namespace Sis.Io
open Sis
open Sis.Dyn (Db getN setN sameN sameN_refl sameN_iff getN_some getN_none getN_congr)
open Sis.Sdb (fold getN_setN sameN_trans_l Abs KeyName TabName)
open Sis.Fmap (Sorted)
open Sis.Time (Zone)

/-! ### Names -/

theorem lower_facts : ∀ c : UInt8, (lower c = 44 ↔ c = 44) ∧ (lower c = 42 ↔ c = 42) ∧ (lower c = 34 ↔ c = 34) ∧ (lower c = 92 ↔ c = 92) ∧
    (32 < lower c ↔ 32 < c) ∧ (32 ≤ lower c ↔ 32 ≤ c) := by
  have h : ∀ n : Fin 256, (lower (UInt8.ofNat n.1) = 44 ↔ UInt8.ofNat n.1 = 44) ∧ (lower (UInt8.ofNat n.1) = 42 ↔ UInt8.ofNat n.1 = 42) ∧
      (lower (UInt8.ofNat n.1) = 34 ↔ UInt8.ofNat n.1 = 34) ∧ (lower (UInt8.ofNat n.1) = 92 ↔ UInt8.ofNat n.1 = 92) ∧
      (32 < lower (UInt8.ofNat n.1) ↔ 32 < UInt8.ofNat n.1) ∧ (32 ≤ lower (UInt8.ofNat n.1) ↔ 32 ≤ UInt8.ofNat n.1) := by decide +kernel
  intro c
  have := h ⟨c.toNat, c.toNat_lt⟩
  simpa using this

theorem mem_of_fold {a b : Bytes} (h : fold a = fold b) {c : UInt8} (hc : ∀ x, lower x = c ↔ x = c) (hm : c ∈ a) : c ∈ b := by
  have : lower c ∈ fold a := List.mem_map.2 ⟨c, hm, rfl⟩
  rw [h] at this
  obtain ⟨x, hx, he⟩ := List.mem_map.1 this
  rw [(hc c).2 rfl] at he
  rwa [(hc x).1 he] at hx

theorem keyName_fold {a b : Bytes} (h : fold a = fold b) (hk : KeyName a) : KeyName b where
  ne := by
    intro hb
    rw [hb] at h
    exact hk.ne (List.map_eq_nil_iff.1 h)
  comma := fun hm => hk.comma (mem_of_fold h.symm (fun x => (lower_facts x).1) hm)
  dot := fun hm => hk.dot (mem_of_fold h.symm Sdb.lower_dot hm)
  first := by
    intro c hc
    have e : (fold a).head? = (fold b).head? := by rw [h]
    simp only [fold, List.head?_map, hc, Option.map_some] at e
    obtain ⟨x, h1, h2⟩ := Option.map_eq_some_iff.1 e
    have := hk.first x h1
    rw [← (lower_facts x).2.2.2.2.1, h2, (lower_facts c).2.2.2.2.1] at this
    exact this
  last := by
    intro c hc
    have e : (fold a).getLast? = (fold b).getLast? := by rw [h]
    simp only [fold, List.getLast?_map, hc, Option.map_some] at e
    obtain ⟨x, h1, h2⟩ := Option.map_eq_some_iff.1 e
    have := hk.last x h1
    rw [← (lower_facts x).2.2.2.2.1, h2, (lower_facts c).2.2.2.2.1] at this
    exact this
  len := by
    have := congrArg List.length h
    simp only [fold, List.length_map] at this
    rw [← this]; exact hk.len
  keys := by rw [← h]; exact hk.keys
  tabs := by rw [← h]; exact hk.tabs

theorem tabName_fold {a b : Bytes} (h : fold a = fold b) (hk : TabName a) : TabName b where
  ne := by
    intro hb
    rw [hb] at h
    exact hk.ne (List.map_eq_nil_iff.1 h)
  len := by
    have := congrArg List.length h
    simp only [fold, List.length_map] at this
    rw [← this]; exact hk.len
  plain := by
    intro c hc
    have : lower c ∈ fold b := List.mem_map.2 ⟨c, hc, rfl⟩
    rw [← h] at this
    obtain ⟨x, hx, he⟩ := List.mem_map.1 this
    obtain ⟨p1, p2, p3⟩ := hk.plain x hx
    obtain ⟨_, _, a3, a4, _, a6⟩ := lower_facts x
    obtain ⟨_, _, c3, c4, _, c6⟩ := lower_facts c
    rw [he] at a3 a4 a6
    exact ⟨c6.1 (a6.2 p1), fun hh => p2 (a3.1 (c3.2 hh)), fun hh => p3 (a4.1 (c4.2 hh))⟩

/-! ### A database in memory that can be saved -/

/-- A table that can be saved. -/
structure GoodTbl (e : Env) (v : Time.Env) (nm : Bytes) (tb : Tbl) (f : Dyn.Field) : Prop where
  name : TabName nm
  plain : (42 : UInt8) ∉ nm ∧ (44 : UInt8) ∉ nm
  usual : Sdb.Usual tb.db
  index : tb.db.mindex.isSome = true
  time : Sdb.timeField tb.db = some f
  style : TimeStyle f.style
  zone : f.style = .minu → v.tz % 60 = 0
  ts : ∀ r : Bytes, r.length = tb.db.size → (table e tb).ts r = Sdb.timeOf f r

/-- A series that can be saved. -/
structure GoodSer (e : Env) (v : Time.Env) (key : Bytes) (s : Ser) (f : Dyn.Field) : Prop where
  dot : (46 : UInt8) ∈ key
  name : KeyName (keyName key)
  plain : (42 : UInt8) ∉ keyName key
  cstr : CStr (keyName key)
  ne : s.unit.recs ≠ []
  whole : ∀ r ∈ s.unit.recs, r.length = s.tbl.db.size
  sorted : Sorted (table e s.tbl).ts s.unit.recs
  len : s.unit.recs.flatten.length < 2 ^ 31
  times : ∀ r ∈ s.unit.recs, UsualTime f.style ((table e s.tbl).ts r)
  fits : (∀ r ∈ s.unit.recs, (table e s.tbl).ts r < 2 ^ 31) ∨
    ∀ r ∈ s.unit.recs, ∀ r' ∈ s.unit.recs, periodNum v s.tbl.db ((table e s.tbl).ts r) = periodNum v s.tbl.db ((table e s.tbl).ts r')
  moved : ∀ x ∈ s.unit.fidxs, x.moved = false

/-- A database that can be saved. -/
structure Kept (e : Env) (v : Time.Env) (c : Cxt) : Prop where
  tabs : ∀ x ∈ c.tabs, ∃ f, GoodTbl e v x.1 x.2 f
  tapart : c.tabs.Pairwise fun a b => sameN a.1 b.1 = false
  sers : ∀ x ∈ c.sers, getN c.tabs (tabOfKey x.1) = some x.2.tbl ∧ ∀ f, Sdb.timeField x.2.tbl.db = some f → GoodSer e v x.1 x.2 f
  sapart : c.sers.Pairwise fun a b => sameN a.1 b.1 = false

theorem kept_ser {e : Env} {v : Time.Env} {c : Cxt} (h : Kept e v c) {x : Bytes × Ser} (hx : x ∈ c.sers) :
    ∃ f, GoodTbl e v (tabOfKey x.1) x.2.tbl f ∧ GoodSer e v x.1 x.2 f := by
  obtain ⟨h1, h2⟩ := h.sers x hx
  obtain ⟨i, y, g1, g2, g3⟩ := getN_some h1
  obtain ⟨f, gt⟩ := h.tabs y (List.mem_of_getElem? g1)
  rw [g2] at gt
  have hf := (Sdb.fold_same.1 g3).symm
  refine ⟨f, ⟨tabName_fold hf gt.name, ⟨fun hm => gt.plain.1 (mem_of_fold hf.symm (fun x => (lower_facts x).2.1) hm),
    fun hm => gt.plain.2 (mem_of_fold hf.symm (fun x => (lower_facts x).1) hm)⟩, gt.usual, gt.index, gt.time, gt.style, gt.zone, gt.ts⟩, h2 f gt.time⟩

theorem usual_size {db : Db} (h : Sdb.Usual db) : 0 < db.size := by
  obtain ⟨ds, h1, -⟩ := h
  exact (Sdb.made_shape h1).2.2.2.2

/-- The records of a series are a block that may be written. -/
theorem block_ok {e : Env} {v : Time.Env} (hz : Zone v) {key : Bytes} {s : Ser} {f : Dyn.Field} (gt : GoodTbl e v (tabOfKey key) s.tbl f) (g : GoodSer e v key s f) :
    Sdb.recordsOf s.tbl.db s.unit.recs.flatten = s.unit.recs ∧ Sdb.BlockOk v s.tbl.db s.unit.recs.flatten := by
  have hsz := usual_size gt.usual
  have hrec := Sdb.recordsOf_flatten hsz g.whole
  have hlen := Sdb.flatten_length s.tbl.db.size s.unit.recs g.whole
  have hst := timeStyle_field gt.time
  have hts : ∀ r ∈ s.unit.recs, Sdb.timeOf f r = (table e s.tbl).ts r := fun r hr => (gt.ts r (g.whole r hr)).symm
  refine ⟨hrec, ?_, ?_, g.len, ?_, ?_, ?_⟩
  · intro h
    have := congrArg List.length h
    rw [hlen] at this
    have h0 : 0 < s.unit.recs.length := List.length_pos_iff.2 g.ne
    have := Nat.mul_pos h0 hsz
    simp at *
    omega
  · rw [hlen]; exact Nat.mul_mod_left _ _
  · intro f' hf' r hr
    rw [gt.time] at hf'
    cases hf'
    rw [hrec] at hr
    have hu := g.times r hr
    rw [← hts r hr] at hu
    obtain ⟨day, d1, d2, d3, _⟩ := period_eq hz hst hu
    refine ⟨?_, ?_, day, d1, d2, d3⟩
    · rcases gt.style with h | h | h | h <;> rw [h] at hu
      · exact Nat.lt_of_lt_of_le (by decide) hu.1
      · exact Nat.lt_of_lt_of_le (by decide) hu.1
      · exact Nat.lt_of_lt_of_le (by decide) hu.1
      · exact Nat.lt_of_lt_of_le (by decide) hu.1
    · rcases gt.style with h | h | h | h <;> rw [h] at hu
      · exact Nat.lt_trans hu.2 (by decide)
      · exact Nat.lt_trans hu.2 (by decide)
      · exact Nat.lt_trans hu.2 (by decide)
      · exact Nat.lt_trans hu.2.1 (by decide)
  · intro f' hf'
    rw [gt.time] at hf'
    cases hf'
    rw [hrec]
    have hs := g.sorted
    unfold Sorted at hs
    refine hs.imp_of_mem fun {x y} hx hy hxy => ?_
    rw [hts x hx, hts y hy]
    refine ⟨hxy, fun m n hm hn => ?_⟩
    by_cases hd : f.style = .date
    · have e1 : ∀ t, Sdb.dayOf v f t = some t := by intro t; unfold Sdb.dayOf; rw [hd]; rfl
      rw [e1] at hm hn
      cases hm; cases hn
      exact hxy
    · obtain ⟨m', a1, _, _, a2⟩ := period_eq hz hst (g.times x hx)
      obtain ⟨n', b1, _, _, b2⟩ := period_eq hz hst (g.times y hy)
      rw [if_neg hd] at a2 b2
      rw [a1] at hm
      rw [b1] at hn
      cases hm; cases hn
      have := period_mono (v := v) hst gt.style hxy
      rw [a2, b2] at this
      exact_mod_cast this
  · intro f' hf'
    rw [gt.time] at hf'
    cases hf'
    rw [hrec]
    rcases g.fits with h | h
    · left
      intro r hr
      rw [hts r hr]; exact h r hr
    · right
      intro r hr r' hr'
      have hu := g.times r hr
      have hu' := g.times r' hr'
      rw [← hts r hr] at hu
      rw [← hts r' hr'] at hu'
      rw [(place_eq hz hst hu).1, (place_eq hz hst hu').1, hts r hr, hts r' hr', h r hr r' hr']

/-! ### The calls of the writer -/

/-- How often a series is written. -/
def times (s : Ser) : Nat := (s.unit.fidxs.filter (·.writed)).length

def rowAct (x : Bytes × Ser) : Sdb.Act := .rows (keyName x.1) (tabOfKey x.1) x.2.unit.recs.flatten

theorem save_unit {e : Env} {v : Time.Env} {x : Bytes × Ser} {f : Dyn.Field} (hi : x.2.tbl.db.mindex.isSome = true) (g : GoodSer e v x.1 x.2 f) :
    saveUnit x = (List.replicate (times x.2) x).map fun y => (rowAct y).cmd := by
  unfold saveUnit
  rw [if_pos (show indexed x.2.tbl = true from hi)]
  have : Fmap.saveSdb x.2.unit = List.replicate (times x.2) (.write x.2.unit.recs) := by
    unfold Fmap.saveSdb times
    have hm := g.moved
    have hne : x.2.unit.recs.length > 0 := List.length_pos_iff.2 g.ne
    generalize x.2.unit.recs = R at hne
    generalize x.2.unit.fidxs = fs at hm
    clear g hi
    induction fs with
    | nil => rfl
    | cons y fs ih =>
      rw [List.flatMap_cons, ih fun z hz => hm z (by simp [hz])]
      have h1 := hm y (by simp)
      cases hw : y.writed with
      | false => simp [hw]
      | true => simp [hw, h1, hne, List.replicate_succ]
  rw [this, List.map_replicate, List.map_replicate]
  rfl

/-- The names of the keys. -/
theorem push_names (l : List Bytes) (hl : ∀ k ∈ l, CStr k) : ∀ acc : List Bytes, (∀ k ∈ acc, CStr k) →
    (∀ k ∈ l.foldl pushOnly acc, k ∈ acc ∨ k ∈ l) ∧ ∀ k, k ∈ acc ∨ k ∈ l → ∃ n ∈ l.foldl pushOnly acc, fold n = fold k := by
  induction l with
  | nil => intro acc _; exact ⟨fun k h => .inl h, fun k h => ⟨k, by simpa using h, rfl⟩⟩
  | cons x l ih =>
    intro acc ha
    rw [List.foldl_cons]
    have hsub : ∀ k ∈ pushOnly acc x, k ∈ acc ∨ k = x := by
      intro k hk
      unfold pushOnly at hk
      split at hk
      · exact .inl hk
      · simpa using hk
    obtain ⟨i1, i2⟩ := ih (fun k hk => hl k (by simp [hk])) (pushOnly acc x) fun k hk => by
      rcases hsub k hk with h | h
      · exact ha k h
      · rw [h]; exact hl x (by simp)
    have hsup : ∀ k ∈ acc, k ∈ pushOnly acc x := by
      intro k hk
      unfold pushOnly
      split
      · exact hk
      · simp [hk]
    have hx : ∃ n ∈ pushOnly acc x, fold n = fold x := by
      unfold pushOnly
      split
      · rename_i h
        obtain ⟨n, h1, h2⟩ := List.any_eq_true.1 h
        exact ⟨n, h1, (caseEq_iff (ha n h1) (hl x (by simp))).1 h2⟩
      · exact ⟨x, by simp, rfl⟩
    refine ⟨fun k hk => ?_, fun k hk => ?_⟩
    · rcases i1 k hk with h | h
      · rcases hsub k h with h | h
        · exact .inl h
        · exact .inr (by simp [h])
      · exact .inr (by simp [h])
    · rcases hk with h | h
      · exact i2 k (.inl (hsup k h))
      · rcases List.mem_cons.1 h with rfl | h
        · obtain ⟨n, h1, h2⟩ := hx
          obtain ⟨n', h3, h4⟩ := i2 n (.inl h1)
          exact ⟨n', h3, h4.trans h2⟩
        · exact i2 k (.inr h)

end Sis.Io
