import Verif.Io.SaveCal
import Verif.Io.RowLemmas
import Verif.Sdb.RangeTheorems
import Verif.Sdb.SplitLemmas
/- The blocks a server with files reads. -/
namespace Sis.Io
open Sis
open Sis.Dyn (Db getN setN)
open Sis.Fmap (Fidx Sorted)
open Sis.Time (Zone)

theorem split_records {db : Db} (b : Bytes) : split db.size b = Sdb.recordsOf db b := by
  unfold Sdb.recordsOf
  apply List.ext_getElem?
  intro i
  by_cases h : i < b.length / db.size
  · rw [split_get h, Sdb.records_get _ _ _ _ h]
  · rw [List.getElem?_eq_none (by rw [split_length]; omega), List.getElem?_eq_none (by rw [Sdb.records_length]; omega)]

theorem split_flatten {db : Db} (hz : 0 < db.size) {rs : List Bytes} (h : ∀ r ∈ rs, r.length = db.size) : split db.size rs.flatten = rs := by
  rw [split_records, Sdb.recordsOf_flatten hz h]

theorem usual_style {st : Dyn.St} {t : Nat} (h : UsualTime st t) : TimeStyle st := by
  unfold TimeStyle
  cases st <;> first | exact h.elim | simp

/-- A usual time is on a day, and the period of the server is the one of the files. -/
theorem period_eq {v : Time.Env} (hz : Zone v) {db : Db} {f : Dyn.Field} (h : timeStyle db = some f.style) {t : Nat} (ht : UsualTime f.style t) :
    ∃ day, Sdb.dayOf v f t = some day ∧ 10000 ≤ day ∧ day < 10 ^ 8 ∧ periodNum v db t = ((if f.style = .date then day / 10000 else day : Nat) : Int) := by
  have key : ∀ s : Nat, 172800 ≤ s → s < 127000000000 → ∃ day, Time.getIdate v (Time.time_t s) = some day ∧ 10000 ≤ day ∧ day < 10 ^ 8 ∧ day = dateNum (dayNum v s) := by
    intro s h1 h2
    obtain ⟨n, e1, e2⟩ := Time.idate_eq v hz (t := s) (by omega) (by omega)
    obtain ⟨z1, z2⟩ := hz
    rw [Time.time_t_eq (by omega)]
    refine ⟨_, e2, ?_, ?_, ?_⟩
    · have := Time.number_mono (a := Time.epoch) (b := n) (by omega)
      rw [Time.civil_epoch] at this
      have e : Time.number (1970, 1, 1) = 19700101 := rfl
      omega
    · have hy := Time.year_bound n
      obtain ⟨⟨g1, g2, g3, g4⟩, _⟩ := Time.civil_spec n
      have hb := Time.monthDays_bounds (Time.civil n).1 (Time.civil n).2.1
      unfold Time.epoch at e1
      unfold Time.number
      omega
    · rw [dateNum_eq]
      have : n = dayNum v s := by unfold dayNum; unfold Time.epoch at *; omega
      rw [this]
  rcases usual_style ht with hst | hst | hst | hst
  · rw [hst] at ht h
    have ht : 172800 ≤ t ∧ t < 127000000000 := ht
    obtain ⟨day, g1, g2, g3, g4⟩ := key t (by omega) (by omega)
    refine ⟨day, by unfold Sdb.dayOf; rw [hst]; exact g1, g2, g3, ?_⟩
    rw [period_day h (.inl rfl) (by simp), if_neg (by rw [hst]; simp), g4]
    rfl
  · rw [hst] at ht h
    have ht : 172800000 ≤ t ∧ t < 127000000000000 := ht
    obtain ⟨day, g1, g2, g3, g4⟩ := key (t / 1000) (by omega) (by omega)
    refine ⟨day, by unfold Sdb.dayOf; rw [hst]; exact g1, g2, g3, ?_⟩
    rw [period_day h (.inr (.inl rfl)) (by simp), if_neg (by rw [hst]; simp), g4]
    rfl
  · rw [hst] at ht h
    have ht : 2880 ≤ t ∧ t < 2116666666 := ht
    obtain ⟨day, g1, g2, g3, g4⟩ := key (t * 60) (by omega) (by omega)
    refine ⟨day, ?_, g2, g3, ?_⟩
    · have e : t * 60 % 2 ^ 64 = t * 60 := Nat.mod_eq_of_lt (by omega)
      have e2 : Sdb.dayOf v f t = Time.getIdate v (Time.time_t (t * 60 % 2 ^ 64)) := by unfold Sdb.dayOf; rw [hst]; rfl
      rw [e2, e]
      exact g1
    rw [period_day h (.inr (.inr (.inl rfl))) (by simp), if_neg (by rw [hst]; simp), g4]
    rfl
  · rw [hst] at ht h
    have ht : 19710000 ≤ t ∧ t < 59940000 ∧ 101 ≤ t % 10000 := ht
    refine ⟨t, by unfold Sdb.dayOf; rw [hst]; rfl, by omega, by omega, ?_⟩
    rw [period_date h, if_pos hst]

/-- The file of a period. -/
def fileOf (f : Dyn.Field) (p : Int) : Sdb.Uid := if f.style = .date then .year p.toNat else .date p.toNat

theorem place_eq {v : Time.Env} (hz : Zone v) {db : Db} {f : Dyn.Field} (h : timeStyle db = some f.style) {r : Bytes} (ht : UsualTime f.style (Sdb.timeOf f r)) :
    Sdb.placeOf v f r = some (fileOf f (periodNum v db (Sdb.timeOf f r))) ∧ Sdb.periodOf v f r = some (periodNum v db (Sdb.timeOf f r)).toNat ∧
      0 ≤ periodNum v db (Sdb.timeOf f r) ∧ periodNum v db (Sdb.timeOf f r) < 10 ^ 8 := by
  obtain ⟨day, g1, g2, g3, g4⟩ := period_eq hz h ht
  rw [g4]
  unfold Sdb.placeOf Sdb.periodOf fileOf
  rw [g1, Int.toNat_natCast]
  refine ⟨?_, rfl, by omega, ?_⟩
  · by_cases hd : f.style = .date <;> simp [hd]
  · split <;> omega

theorem u64_eq {x : Int} {n : Nat} (h : x = n) (hn : n < 2 ^ 47) : Time.u64 x = n := by
  unfold Time.u64
  have h64 : (n : Int) < 2 ^ 64 := by
    have : (2 : Int) ^ 47 < 2 ^ 64 := by decide
    have : (n : Int) < 2 ^ 47 := by exact_mod_cast hn
    omega
  rw [h, Int.emod_eq_of_lt (by omega) h64, Int.toNat_natCast]

theorem z00 : (0 / 10000 * 3600 + 0 % 10000 / 100 * 60 + 0 % 100 : Nat) = 0 := by decide
theorem z23 : (235959 / 10000 * 3600 + 235959 % 10000 / 100 * 60 + 235959 % 100 : Nat) = 86399 := by decide

/-- A period with a usual time in it. -/
theorem pair_of {v : Time.Env} (hz : Zone v) {db : Db} {st : Dyn.St} (h : timeStyle db = some st) (hst : TimeStyle st) {t : Nat} (ht : UsualTime st t) :
    ∃ lo hi A B : Nat, pairOf v (decide (timeStyle db = some .date)) (periodNum v db t) = some (lo, hi) ∧ 1000 ≤ lo ∧ lo ≤ hi ∧ hi < 2 ^ 47 ∧
      (A : Int) = (((lo / 1000 : Nat) : Int) + v.tz) / 86400 ∧ (B : Int) = (((hi / 1000 : Nat) : Int) + v.tz) / 86400 ∧
      (if st = .date then (Time.since1970 A).1 = (periodNum v db t).toNat ∧ (Time.since1970 B).1 = (periodNum v db t).toNat
        else A = B ∧ Time.number (Time.since1970 A) = (periodNum v db t).toNat) := by
  by_cases hd : st = .date
  · subst hd
    have hy : 19710000 ≤ t ∧ t < 59940000 ∧ 101 ≤ t % 10000 := ht
    rw [period_date h]
    generalize hyy : t / 10000 = y
    have y1 : 1971 ≤ y := by omega
    have y2 : y ≤ 5993 := by omega
    have d1 : Time.IsDate (y, 1, 1) := ⟨Nat.le_refl 1, (by decide : 1 ≤ 12), Nat.le_refl 1, by have := Time.monthDays_bounds y 1; show 1 ≤ Time.monthDays y 1; omega⟩
    have d2 : Time.IsDate (y, 12, 31) := ⟨(by decide : 1 ≤ 12), Nat.le_refl 12, (by decide : 1 ≤ 31), by show 31 ≤ Time.monthDays y 12; unfold Time.monthDays; simp⟩
    have n1 : Time.daysOf y 1 1 = Time.beforeYear y := by unfold Time.daysOf; rw [Time.beforeMonth_one]; omega
    have n2 : Time.daysOf y 12 31 + 1 = Time.beforeYear (y + 1) := by
      have := Time.beforeMonth_last y
      have e : Time.monthDays y 12 = 31 := by unfold Time.monthDays; simp
      unfold Time.daysOf
      omega
    have b1 := Time.beforeYear_mono y1
    have b2 := Time.beforeYear_le (y + 1)
    have b3 := Time.le_beforeYear (y + 1)
    have b4 : Time.beforeYear 1971 = Time.epoch + 365 := by decide +kernel
    have b5 : Time.beforeYear y + 365 ≤ Time.beforeYear (y + 1) := by rw [Time.beforeYear_succ]; omega
    obtain ⟨z1, z2⟩ := hz
    have m1 := Time.makeTime_eq v d1 0
    have m2 := Time.makeTime_eq v d2 235959
    have k1 : Time.number (y, 1, 1) = y * 10000 + 101 := by unfold Time.number; simp only
    have k2 : Time.number (y, 12, 31) = y * 10000 + 1231 := by unfold Time.number; simp only
    rw [k1] at m1
    rw [k2] at m2
    simp only at m1 m2
    rw [z00] at m1
    rw [z23] at m2
    have s1 : Time.since1970 (Time.beforeYear y - Time.epoch) = (y, 1, 1) := by
      rw [Time.since_civil, show Time.epoch + (Time.beforeYear y - Time.epoch) = Time.daysOf y 1 1 by rw [n1]; omega]
      exact Time.civil_daysOf d1
    have s2 : Time.since1970 (Time.daysOf y 12 31 - Time.epoch) = (y, 12, 31) := by
      rw [Time.since_civil, show Time.epoch + (Time.daysOf y 12 31 - Time.epoch) = Time.daysOf y 12 31 by omega]
      exact Time.civil_daysOf d2
    rw [n1] at m1
    generalize Time.daysOf y 12 31 = E at *
    generalize Time.beforeYear y = S at *
    generalize Time.beforeYear (y + 1) = S' at *
    have he : Time.epoch = 719528 := rfl
    rw [he] at m1 m2 s1 s2 b4
    refine ⟨((S : Int) * 86400 - 719528 * 86400 - v.tz).toNat * 1000, ((E : Int) * 86400 - 719528 * 86400 + 86399 - v.tz).toNat * 1000 + 999,
      S - 719528, E - 719528, ?_, ?_, ?_, ?_, ?_, ?_, ?_⟩
    · unfold pairOf
      rw [if_neg (by omega), if_pos (by simpa using h), Int.toNat_natCast]
      rw [m1, m2]
      simp only [Option.bind_some, Option.map_some]
      rw [u64_eq (n := ((S : Int) * 86400 - 719528 * 86400 - v.tz).toNat * 1000) (by omega) (by omega), u64_eq (n := ((E : Int) * 86400 - 719528 * 86400 + 86399 - v.tz).toNat * 1000 + 999) (by omega) (by omega)]
    · omega
    · omega
    · omega
    · omega
    · omega
    · rw [if_pos rfl, s1, s2]
      simp
  · obtain ⟨s1, s2⟩ : 172800 ≤ secOf st t ∧ secOf st t < 127000000000 := by
      rcases hst with rfl | rfl | rfl | rfl
      · have ht : 172800 ≤ t ∧ t < 127000000000 := ht
        exact ht
      · have ht : 172800000 ≤ t ∧ t < 127000000000000 := ht
        simp only [secOf]; omega
      · have ht : 2880 ≤ t ∧ t < 2116666666 := ht
        simp only [secOf]; omega
      · exact absurd rfl hd
    rw [period_day h hst hd]
    generalize secOf st t = s at *
    obtain ⟨z1, z2⟩ := hz
    have he : Time.epoch = 719528 := rfl
    have hn : ((dayNum v s : Nat) : Int) = 719528 + ((s : Int) + v.tz) / 86400 := by unfold dayNum; rw [he]; omega
    generalize dayNum v s = n at *
    have hd1 : 719529 ≤ n := by omega
    have hd2 : n < 719528 + 1470000 := by omega
    have m1 := Time.makeTime_eq v (Time.civil_spec n).1 0
    have m2 := Time.makeTime_eq v (Time.civil_spec n).1 235959
    rw [(Time.civil_spec n).2, ← dateNum_eq, he] at m1 m2
    rw [z00] at m1
    rw [z23] at m2
    refine ⟨((n : Int) * 86400 - 719528 * 86400 - v.tz).toNat * 1000, ((n : Int) * 86400 - 719528 * 86400 + 86399 - v.tz).toNat * 1000 + 999,
      n - 719528, n - 719528, ?_, ?_, ?_, ?_, ?_, ?_, ?_⟩
    · unfold pairOf
      have hne : ¬ (timeStyle db = some .date) := by rw [h]; simpa using hd
      rw [if_neg (by omega), if_neg (by simpa using hne), Int.toNat_natCast]
      rw [m1, m2]
      simp only [Option.bind_some, Option.map_some]
      rw [u64_eq (n := ((n : Int) * 86400 - 719528 * 86400 - v.tz).toNat * 1000) (by omega) (by omega), u64_eq (n := ((n : Int) * 86400 - 719528 * 86400 + 86399 - v.tz).toNat * 1000 + 999) (by omega) (by omega)]
    · omega
    · omega
    · omega
    · omega
    · omega
    · rw [if_neg hd]
      refine ⟨rfl, ?_⟩
      rw [Time.since_civil, he, show 719528 + (n - 719528) = n by omega, ← dateNum_eq]
      simp

theorem timeStyle_field {db : Db} {f : Dyn.Field} (hf : Sdb.timeField db = some f) : timeStyle db = some f.style := by
  unfold timeStyle
  unfold Sdb.timeField at hf
  rw [hf]; rfl

/-- What the reader returns for a period with records. -/
theorem read_period {lib : Sdb.Lib} {v : Time.Env} {P : Db → Prop} (ht : lib.trace = false) (L : Sdb.Restores lib) (T : Sdb.Readable lib P) (K : Sdb.Tables P)
    {d : Sdb.Disk} {a : Sdb.Abs} (h : Sdb.Hist lib v P d a) {name : Bytes} (hk : Sdb.KeyName (keyName name)) (hn : Sdb.TabName (tabOfKey name))
    (hks : (42 : UInt8) ∉ keyName name) (hts : (42 : UInt8) ∉ tabOfKey name ∧ (44 : UInt8) ∉ tabOfKey name)
    {tb : Tbl} (hsz : 0 < tb.db.size) (hone : ∀ o, a.was (Sdb.fold (tabOfKey name)) o → o = tb.db) {f : Dyn.Field} (hf : Sdb.timeField tb.db = some f) (hz : Zone v)
    {t : Nat} (hu : UsualTime f.style t) {m : Bytes} (hne : m ≠ [])
    (hm : Sdb.rowsIn lib d (keyName name) (tabOfKey name) (fileOf f (periodNum v tb.db t)) = some (some m)) :
    readPeriod lib v d name tb (periodNum v tb.db t) = some (some (split tb.db.size m)) := by
  obtain ⟨lo, hi, A, B, g1, g2, g3, g4, g5, g6, g7⟩ := pair_of hz (timeStyle_field hf) (usual_style hu) hu
  obtain ⟨file, f1, out, f2, f3⟩ := Sdb.C81_files_partial ht L T K h hk hn hks hts hone hf hz g2 g3 g4 g5 g6
  have hout : out = m := by
    rw [f2]
    unfold fileOf at hm
    by_cases hd : f.style = .date
    · rw [if_pos hd] at g7 hm ⊢
      rw [g7.1, g7.2, Nat.add_sub_cancel_left]
      have := f1 (periodNum v tb.db t).toNat
      rw [if_pos hd, hm] at this
      have := Option.some.inj this
      simp [← this]
    · rw [if_neg hd] at g7 hm ⊢
      rw [← g7.1, Nat.add_sub_cancel_left]
      have := f1 A
      rw [if_neg hd, g7.2, hm] at this
      have := Option.some.inj this
      simp [← this]
  unfold readPeriod
  rw [if_neg (by omega), g1]
  simp only [Option.bind_some]
  rw [if_neg (by omega), f3, hout, if_neg hne]
  rfl

theorem every_map {α β : Type} {g : α → Option β} {h : α → β} : ∀ {l : List α}, (∀ x ∈ l, g x = some (h x)) → Sdb.every (l.map g) = some (l.map h)
  | [], _ => rfl
  | x :: l, hx => by
    rw [List.map_cons, hx x (by simp), Sdb.every, every_map fun y hy => hx y (by simp [hy])]
    rfl

/-! ### A series -/

/-- What is read of the files of a series whose records are `R`. -/
def readsOf (v : Time.Env) (db : Db) (ts : Bytes → Nat) (R : List Bytes) (ps : List Int) (p : Int) : Option (List Bytes) :=
  ((ps.map fun p => (p, some (R.filter fun r => decide (periodNum v db (ts r) = p)))).find? fun x => x.1 == p).bind (·.2)

theorem reads_of {v : Time.Env} {db : Db} {ts : Bytes → Nat} {R : List Bytes} {p : Int} : ∀ {ps : List Int}, p ∈ ps →
    readsOf v db ts R ps p = some (R.filter fun r => decide (periodNum v db (ts r) = p)) := by
  intro ps
  induction ps with
  | nil => intro h; cases h
  | cons q ps ih =>
    intro h
    unfold readsOf
    rw [List.map_cons, List.find?_cons]
    by_cases he : q = p
    · subst he; simp
    · have : (q == p) = false := by simpa using he
      simp only [this]
      rcases List.mem_cons.1 h with rfl | h
      · exact absurd rfl he
      · exact ih h

/-- A series of a server with files, of which some periods are loaded: the records on the files are `R`, in the periods `ps`. -/
structure Holds (e : Env) (v : Time.Env) (st : Dyn.St) (R : List Bytes) (ps : List Int) (b : Back) : Prop where
  timed : b.timed = true
  view : b.unit.fidxs.map Fmap.view = ps.map fun p => (p, false)
  lazy : Fmap.LazyInv (table e b.tbl) (calendar v b.tbl.db) (Period st) (readsOf v b.tbl.db (table e b.tbl).ts R ps) b.unit
  stored : Fmap.storedRecords (readsOf v b.tbl.db (table e b.tbl).ts R ps) b.unit.fidxs = R

theorem stored_all {v : Time.Env} {db : Db} {ts : Bytes → Nat} {R : List Bytes} {ps : List Int} (hs : R.Pairwise fun a b => periodNum v db (ts a) ≤ periodNum v db (ts b))
    (ho : ps.Pairwise (· < ·)) (hall : ∀ r ∈ R, periodNum v db (ts r) ∈ ps) {fs : List Fidx} (hv : fs.map Fmap.view = ps.map fun p => (p, false)) :
    Fmap.storedRecords (readsOf v db ts R ps) fs = R := by
  have e : Fmap.storedRecords (readsOf v db ts R ps) fs = (fs.map Fmap.view).flatMap fun x => if x.2 then [] else (readsOf v db ts R ps x.1).getD [] := by
    unfold Fmap.storedRecords; rw [List.flatMap_map]; rfl
  rw [e, hv, List.flatMap_map]
  have : (ps.flatMap fun p => if (p, false).2 = true then [] else (readsOf v db ts R ps (p, false).1).getD []) =
      ps.flatMap fun p => R.filter fun r => decide (periodNum v db (ts r) = p) := by
    rw [List.flatMap_def, List.flatMap_def]
    congr 1
    apply List.map_congr_left
    intro p hp
    simp only [Bool.false_eq_true, if_false]
    rw [reads_of hp]; rfl
  simp only at this ⊢
  rw [this]
  exact flat_periods (per := fun r => periodNum v db (ts r)) hs ho hall

/-- The series made of the entries of the map. -/
theorem holds_new {e : Env} {v : Time.Env} (he : e.sign = periodNum v) {tb : Tbl} {st : Dyn.St} (h : timeStyle tb.db = some st) (hst : TimeStyle st) (hz : Zone v)
    (hm : st = .minu → v.tz % 60 = 0) {R : List Bytes} (hs : Sorted (table e tb).ts R) (hu : ∀ r ∈ R, UsualTime st ((table e tb).ts r)) {ps : List Int}
    (ho : ps.Pairwise (· < ·)) (hp : ∀ p, p ∈ ps ↔ ∃ r ∈ R, periodNum v tb.db ((table e tb).ts r) = p) :
    Holds e v st R ps ⟨tb, true, .ofMap (ps.map fun p => (p, true))⟩ := by
  have hview : (Fmap.Unit.ofMap (α := Bytes) (ps.map fun p => (p, true))).fidxs.map Fmap.view = ps.map fun p => (p, false) := by
    unfold Fmap.Unit.ofMap
    simp only [List.map_map]
    apply List.map_congr_left
    intro p _
    rfl
  have hsign : ∀ f ∈ (Fmap.Unit.ofMap (α := Bytes) (ps.map fun p => (p, true))).fidxs, f.isign ∈ ps ∧ f.start = -1 ∧ f.moved = false := by
    intro f hf
    unfold Fmap.Unit.ofMap at hf
    simp only [List.map_map, List.mem_map] at hf
    obtain ⟨p, h1, rfl⟩ := hf
    exact ⟨h1, rfl, rfl⟩
  refine ⟨rfl, hview, ⟨?_, ?_, ?_⟩, ?_⟩
  · refine disk_ok he h hst hz hm hs hu ?_ ?_ ?_
    · have h1 : ((Fmap.Unit.ofMap (α := Bytes) (ps.map fun p => (p, true))).fidxs.map Fmap.view).Pairwise fun a b => a.1 < b.1 := by
        rw [hview, List.pairwise_map]; exact ho
      rw [List.pairwise_map] at h1
      exact h1
    · intro f hf
      obtain ⟨r, _, h2⟩ := (hp _).1 (hsign f hf).1
      rw [← h2]
      exact period_valid h hst _
    · intro f hf
      exact reads_of (hsign f hf).1
  · unfold Fmap.Loaded
    show [] = _
    symm
    rw [List.flatMap_eq_nil_iff]
    intro f hf
    unfold Fmap.content
    rw [if_pos (.inl (hsign f hf).2.1)]
  · intro f hf _
    exact (hsign f hf).2.2
  · refine stored_all (hs.imp fun hx => period_mono h hst hx) ho (fun r hr => (hp _).2 ⟨r, hr, rfl⟩) hview

/-- A query of a range of times is answered from the records on the files, and the series goes on to be one like this. -/
theorem holds_read {e : Env} {v : Time.Env} {st : Dyn.St} {R : List Bytes} {ps : List Int} {b : Back} (h : Holds e v st R ps b) (hs : Sorted (table e b.tbl).ts R)
    {x y : Nat} (hx : 0 < x) (hy : 0 < y) {s : Ser} (hd : s.tbl.db = b.tbl.db) (hr : s.unit.recs = R) :
    ∃ u', Fmap.lazyRead (table e b.tbl) e.goto (calendar v b.tbl.db) (readsOf v b.tbl.db (table e b.tbl).ts R ps) b.unit (.range x y false) =
        (Fmap.tsdbRead (table e s.tbl) e.goto s.unit (.range x y false), u') ∧ Holds e v st R ps { b with unit := u' } := by
  have hts : (table e s.tbl).ts = (table e b.tbl).ts := by unfold table; rw [hd]
  obtain ⟨g1, g2, g3⟩ := Fmap.readData_range e.goto h.lazy x y hx hy
  refine ⟨_, Prod.ext ?_ rfl, h.timed, ?_, g1, g2.trans h.stored⟩
  · show Fmap.tsdbRead (table e b.tbl) e.goto (Fmap.readData (table e b.tbl) e.goto (calendar v b.tbl.db) (readsOf v b.tbl.db (table e b.tbl).ts R ps) b.unit x y) (.range x y false) = _
    have hsr : Sorted (table e b.tbl).ts (Fmap.readData (table e b.tbl) e.goto (calendar v b.tbl.db) (readsOf v b.tbl.db (table e b.tbl).ts R ps) b.unit x y).recs := by
      rw [g1.loaded]; exact Fmap.flat_sorted g1.ok
    rw [Fmap.C12_range_returns_exactly_the_range _ _ _ hsr x y false (by simp),
      Fmap.C12_range_returns_exactly_the_range _ _ _ (by rw [hts, hr]; exact hs) x y false (by simp)]
    have key : ∀ l : List Bytes, Fmap.rangeSpec (table e b.tbl).ts l x y false = Fmap.recordsIn (table e b.tbl).ts l x y := by
      intro l
      have h1 : Fmap.startTs (table e b.tbl).ts l x = x := by unfold Fmap.startTs; rw [if_neg (by omega)]; simp
      have h2 : Fmap.stopTs (table e b.tbl).ts l x y = y := by unfold Fmap.stopTs; rw [if_neg (by omega), if_neg (by omega)]; simp
      simp [Fmap.rangeSpec, h1, h2]
    rw [hts, key, key, g3, h.stored, hr]
  · have e0 : Fmap.readData (table e b.tbl) e.goto (calendar v b.tbl.db) (readsOf v b.tbl.db (table e b.tbl).ts R ps) b.unit x y =
        Fmap.getData (table e b.tbl) e.goto (calendar v b.tbl.db) (readsOf v b.tbl.db (table e b.tbl).ts R ps) ((table e b.tbl).sign x) ((table e b.tbl).sign y) b.unit 0 b.unit.fidxs.length := by
      unfold Fmap.readData Fmap.loadBounds
      rw [if_neg (by omega)]
      simp
    have g := Fmap.getData_spec (table e b.tbl) e.goto (calendar v b.tbl.db) (Period st) (readsOf v b.tbl.db (table e b.tbl).ts R ps) ((table e b.tbl).sign x) ((table e b.tbl).sign y) b.unit 0
      b.unit.fidxs.length h.lazy (h.lazy.ok.validTs x) rfl
    show (Fmap.readData _ _ _ _ _ _ _).fidxs.map Fmap.view = _
    show (Fmap.readData (table e b.tbl) e.goto (calendar v b.tbl.db) (readsOf v b.tbl.db (table e b.tbl).ts R ps) b.unit x y).fidxs.map Fmap.view = _
    rw [e0, g.2.1.1]
    exact h.view

/-- The blocks read are those of the records. -/
theorem blocks_of {lib : Sdb.Lib} {v : Time.Env} {d : Sdb.Disk} {name : Bytes} {tb : Tbl} {ts : Bytes → Nat} {R : List Bytes} {ps : List Int} {fs : List Fidx}
    (hv : fs.map Fmap.view = ps.map fun p => (p, false))
    (hp : ∀ p ∈ ps, readPeriod lib v d name tb p = some (some (R.filter fun r => decide (periodNum v tb.db (ts r) = p)))) :
    blocks lib v d name tb fs = some (ps.map fun p => (p, some (R.filter fun r => decide (periodNum v tb.db (ts r) = p)))) := by
  unfold blocks
  have hmv : ∀ f ∈ fs, f.moved = false ∧ f.isign ∈ ps := by
    intro f hf
    have : Fmap.view f ∈ fs.map Fmap.view := List.mem_map.2 ⟨f, hf, rfl⟩
    rw [hv, List.mem_map] at this
    obtain ⟨p, h1, h2⟩ := this
    have e1 : p = f.isign := congrArg Prod.fst h2
    have e2 : false = f.moved := congrArg Prod.snd h2
    exact ⟨e2.symm, e1 ▸ h1⟩
  have e1 : (fs.filter fun f => !f.moved) = fs := by
    rw [List.filter_eq_self]
    intro f hf
    rw [(hmv f hf).1]; rfl
  have e2 : ps = fs.map (·.isign) := by
    have := congrArg (List.map Prod.fst) hv
    simp only [List.map_map] at this
    have e3 : ps.map (Prod.fst ∘ fun p => (p, false)) = ps := by
      conv => rhs; rw [← List.map_id ps]
      rfl
    rw [e3] at this
    exact this.symm
  rw [e1, every_map (h := fun f => (f.isign, some (R.filter fun r => decide (periodNum v tb.db (ts r) = f.isign))))]
  · rw [e2, List.map_map]; rfl
  · intro f hf
    rw [hp _ (hmv f hf).2]
    rfl

end Sis.Io
