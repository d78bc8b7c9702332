import Verif.Sdb.RowTheorems
import Verif.Time.CalendarTheorems
/- C81: reading records of a time range from a database on disk. -/
namespace Sis.Sdb
open Sis
open Sis.Dyn (Db)
open Sis.Time (number since1970 Zone)

/-! ### Lemmas -/

private theorem years_eq {lib : Lib} {d : Disk} {k t : Bytes} {M : Nat → Option Bytes} (h : ∀ y, rowsIn lib d k t (.year y) = some (M y)) (n : Nat) :
    ∀ y, rowsYears lib d k t n y = some ((List.range' y n).flatMap fun i => (M i).toList) := by
  induction n with
  | zero => intro y; rfl
  | succ n ih =>
    intro y
    unfold rowsYears
    rw [h y, Option.bind_some, ih, Option.map_some]
    rfl

private theorem next_day (v : Time.Env) (hz : Zone v) {i : Nat} (hi : i + 1 < 2 ^ 22) :
    Time.nextWorkDay v (number (since1970 i)) 1 = some (number (since1970 (i + 1))) := by
  by_cases hw : (4 + i) % 7 < 5
  · exact (Time.C55_work_day_partial v hz hi hw).1
  · exact (Time.C55_violated v hz hi (by omega)).1

private theorem day_lt {i : Nat} (hi : i + 1 < 2 ^ 22) : number (since1970 i) < number (since1970 (i + 1)) := by
  have hz : Zone ⟨0, 0⟩ := ⟨by decide, by decide⟩
  obtain ⟨j, h1, h2, h3⟩ := Time.C55_later_partial ⟨0, 0⟩ hz hi
  rw [next_day _ hz hi] at h2
  rw [Option.some.inj h2]
  exact h3

private theorem day_le {i j : Nat} (h : i ≤ j) (hj : j < 2 ^ 22) : number (since1970 i) ≤ number (since1970 j) := by
  induction j with
  | zero => have : i = 0 := by omega
            subst this; exact Nat.le_refl _
  | succ j ih =>
    by_cases he : i = j + 1
    · subst he; exact Nat.le_refl _
    · exact Nat.le_trans (ih (by omega) (by omega)) (Nat.le_of_lt (day_lt hj))

private theorem days_eq {lib : Lib} {v : Time.Env} (hz : Zone v) {d : Disk} {k t : Bytes} {M : Nat → Option Bytes}
    (h : ∀ i, rowsIn lib d k t (.date (number (since1970 i))) = some (M i)) {B : Nat} (hB : B + 1 < 2 ^ 22) (c : Nat) :
    ∀ i n, i + c = B + 1 → number (since1970 B) + 1 - number (since1970 i) ≤ n →
      rowsDays lib v d k t (number (since1970 B)) n (number (since1970 i)) = some ((List.range' i c).flatMap fun j => (M j).toList) := by
  induction c with
  | zero =>
    intro i n hi hn
    have hi : i = B + 1 := by omega
    subst hi
    cases n with
    | zero => rfl
    | succ n =>
      unfold rowsDays
      rw [if_neg (by have := day_lt hB; omega)]
      rfl
  | succ c ih =>
    intro i n hi hn
    have hle := day_le (i := i) (j := B) (by omega) (by omega)
    obtain ⟨n, rfl⟩ : ∃ m, n = m + 1 := ⟨n - 1, by omega⟩
    have hlt := day_lt (i := i) (by omega)
    unfold rowsDays
    rw [if_pos hle, h i, Option.bind_some, next_day v hz (by omega), Option.bind_some, ih (i + 1) n (by omega) (by omega), Option.map_some]
    rfl

private theorem idate_of {v : Time.Env} (hz : Zone v) {ms A : Nat} (h0 : 1000 ≤ ms) (h1 : ms < 2 ^ 47) (hA : (A : Int) = (((ms / 1000 : Nat) : Int) + v.tz) / 86400) :
    Time.getIdate v (Time.time_t (ms / 1000)) = some (number (since1970 A)) ∧ A + 1 < 2 ^ 22 := by
  refine ⟨(Time.C54_date_partial v hz (t := ms / 1000) (by omega) (by omega) hA).1, ?_⟩
  obtain ⟨z1, z2⟩ := hz
  omega

private theorem mult_not {k : Bytes} (h : (42 : UInt8) ∉ k ∧ (44 : UInt8) ∉ k) : multiple k = false := by
  unfold multiple
  rw [List.any_eq_false]
  intro c hc
  simp only [Bool.or_eq_true, beq_iff_eq, not_or]
  exact ⟨fun he => h.1 (he ▸ hc), fun he => h.2 (he ▸ hc)⟩

private theorem place_kind {v : Time.Env} {f : Dyn.Field} {r : Bytes} {u : Uid} (h : placeOf v f r = some u) :
    (f.style = .date ∧ ∃ y, u = .year y) ∨ (f.style ≠ .date ∧ ∃ n, u = .date n) := by
  unfold placeOf at h
  obtain ⟨day, _, h⟩ := Option.map_eq_some_iff.1 h
  by_cases hs : f.style = .date
  · rw [if_pos hs] at h; exact .inl ⟨hs, _, h.symm⟩
  · rw [if_neg hs] at h; exact .inr ⟨hs, _, h.symm⟩

private theorem kind_of {v : Time.Env} {P : Db → Prop} {a : Abs} (hC : Content v P a) {k t : Bytes} {db : Db} (hone : ∀ o, a.was t o → o = db) {f : Dyn.Field}
    (hf : timeField db = some f) {u : Uid} {l : List (Nat × Nat × Bytes)} (hl : a.rows k t u = some l) :
    (f.style = .date ∧ ∃ y, u = .year y) ∨ (f.style ≠ .date ∧ ∃ n, u = .date n) := by
  by_cases hu : u = .nots
  · subst hu
    obtain ⟨db', h1, h2⟩ := hC.nots _ _ _ hl
    rw [hone db' h1, hf] at h2
    cases h2
  · obtain ⟨hne, hall⟩ := hC.rows _ _ u l hu hl
    cases l with
    | nil => exact absurd rfl hne
    | cons o l =>
      obtain ⟨db', f', rs, h1, h2, h3⟩ := hall o (by simp)
      rw [hone db' h1, hf] at h2
      cases h2
      obtain ⟨x, hx, _⟩ := h3.first
      exact place_kind (h3.place x (List.mem_of_head? hx))

private theorem toList_flatten (l : List Nat) (M : Nat → Option Bytes) : (l.flatMap fun i => (M i).toList).flatten = l.flatMap fun i => (M i).getD [] := by
  induction l with
  | nil => rfl
  | cons i l ih =>
    rw [List.flatMap_cons, List.flatMap_cons, List.flatten_append, ih]
    cases M i <;> simp

private theorem records_flat {db : Db} (hz : 0 < db.size) (l : List Nat) (M : Nat → Option Bytes)
    (h : ∀ i ∈ l, ∀ m, M i = some m → (recordsOf db m).flatten = m ∧ ∀ r ∈ recordsOf db m, r.length = db.size) :
    recordsOf db (l.flatMap fun i => (M i).getD []) = l.flatMap fun i => recordsOf db ((M i).getD []) := by
  have e : (l.flatMap fun i => (M i).getD []) = (l.flatMap fun i => recordsOf db ((M i).getD [])).flatten := by
    induction l with
    | nil => rfl
    | cons i l ih =>
      rw [List.flatMap_cons, List.flatMap_cons, List.flatten_append, ← ih fun j hj => h j (by simp [hj])]
      congr 1
      cases hm : M i with
      | none => simp [recordsOf, records]
      | some m => exact ((h i (by simp) m hm).1).symm
  rw [e, recordsOf_flatten hz]
  intro r hr
  obtain ⟨i, hi, hr⟩ := List.mem_flatMap.1 hr
  cases hm : M i with
  | none => rw [hm] at hr; simp [recordsOf, records] at hr
  | some m => rw [hm] at hr; exact (h i hi m hm).2 r hr

private theorem year_step (i : Nat) : (since1970 i).1 ≤ (since1970 (i + 1)).1 ∧ (since1970 (i + 1)).1 ≤ (since1970 i).1 + 1 := by
  show (since1970 i).1 ≤ (Time.dayAfter (since1970 i)).1 ∧ (Time.dayAfter (since1970 i)).1 ≤ (since1970 i).1 + 1
  unfold Time.dayAfter
  split
  · exact ⟨Nat.le_refl _, Nat.le_succ _⟩
  · split
    · exact ⟨Nat.le_refl _, Nat.le_succ _⟩
    · exact ⟨Nat.le_succ _, Nat.le_refl _⟩

private theorem year_le {i j : Nat} (h : i ≤ j) : (since1970 i).1 ≤ (since1970 j).1 := by
  induction j with
  | zero => have : i = 0 := by omega
            subst this; exact Nat.le_refl _
  | succ j ih =>
    by_cases he : i = j + 1
    · subst he; exact Nat.le_refl _
    · exact Nat.le_trans (ih (by omega)) (year_step j).1

private theorem year_between {A y : Nat} (c : Nat) (h1 : (since1970 A).1 ≤ y) (h2 : y ≤ (since1970 (A + c)).1) : ∃ i, A ≤ i ∧ i ≤ A + c ∧ (since1970 i).1 = y := by
  induction c with
  | zero => exact ⟨A, Nat.le_refl _, Nat.le_refl _, Nat.le_antisymm h1 h2⟩
  | succ c ih =>
    by_cases he : y ≤ (since1970 (A + c)).1
    · obtain ⟨i, g1, g2, g3⟩ := ih he
      exact ⟨i, g1, by omega, g3⟩
    · have := (year_step (A + c)).2
      rw [Nat.add_assoc] at this
      exact ⟨A + (c + 1), by omega, Nat.le_refl _, by omega⟩

private theorem idate_year {v : Time.Env} (hz : Zone v) {ms A : Nat} (h0 : 1000 ≤ ms) (h1 : ms < 2 ^ 47) (hA : (A : Int) = (((ms / 1000 : Nat) : Int) + v.tz) / 86400) :
    number (since1970 A) / 10000 = (since1970 A).1 := by
  obtain ⟨e1, e2⟩ := Time.C54_date_partial v hz (t := ms / 1000) (by omega) (by omega) hA
  have e1 : Time.getIdate v (Time.time_t (ms / 1000)) = some (number (since1970 A)) := e1
  have e2 : (Time.getIdate v (Time.time_t (ms / 1000))).map (· / 10000) = some (since1970 A).1 := e2
  rw [e1] at e2
  exact Option.some.inj e2

/-! ### C81 -/

/-- C81: a read of a key and a table for a time range, in milliseconds, gives the bytes of the files of the days (or years) the
range has a part of, one after the other in the order of time.  `A` and `B` are the days of both ends, counted from 1970. -/
theorem C81_files_partial {lib : Lib} {v : Time.Env} {P : Db → Prop} (ht : lib.trace = false) (L : Restores lib) (T : Readable lib P) (K : Tables P) {d : Disk} {a : Abs}
    (h : Hist lib v P d a) {k t : Bytes} (hk : KeyName k) (hn : TabName t) (hks : (42 : UInt8) ∉ k) (hts : (42 : UInt8) ∉ t ∧ (44 : UInt8) ∉ t)
    {db : Db} (hone : ∀ o, a.was (fold t) o → o = db) {f : Dyn.Field} (hf : timeField db = some f)
    (hz : Zone v) {lo hi A B : Nat} (hlo : 1000 ≤ lo) (hlh : lo ≤ hi) (hhi : hi < 2 ^ 47)
    (hA : (A : Int) = (((lo / 1000 : Nat) : Int) + v.tz) / 86400) (hB : (B : Int) = (((hi / 1000 : Nat) : Int) + v.tz) / 86400) :
    ∃ file : Nat → Option Bytes,
      (∀ i, rowsIn lib d k t (if f.style = .date then .year i else .date (number (since1970 i))) = some (file i)) ∧
      ∃ out, out = ((if f.style = .date then List.range' (since1970 A).1 ((since1970 B).1 + 1 - (since1970 A).1) else List.range' A (B + 1 - A)).flatMap fun i => (file i).getD []) ∧
        getRows lib v d k t lo hi = some (if out = [] then none else some out) := by
  have hC := hist_content K h
  have hR := C24_rows_partial ht L T K h hk hn
  have hnots : rowsIn lib d k t .nots = some none := by
    rw [hR]
    cases hl : a.rows (fold k) (fold t) .nots with
    | none => rfl
    | some l =>
      rcases kind_of hC hone hf hl with ⟨_, y, hy⟩ | ⟨_, y, hy⟩ <;> cases hy
  have hAB : A ≤ B := by omega
  obtain ⟨iA, _⟩ := idate_of hz hlo (by omega) hA
  obtain ⟨iB, hB22⟩ := idate_of hz (by omega) hhi hB
  have yA := idate_year hz hlo (by omega) hA
  have yB := idate_year hz (by omega) hhi hB
  have hstart : getRows lib v d k t lo hi = ((rowsYears lib d k t ((since1970 B).1 + 1 - (since1970 A).1) (since1970 A).1).bind fun ys =>
      if ys ≠ [] then some ys else rowsDays lib v d k t (number (since1970 B)) (number (since1970 B) + 1 - number (since1970 A)) (number (since1970 A))).map fun (l : List Bytes) =>
      if l.flatten = [] then none else some l.flatten := by
    unfold getRows
    rw [mult_not ⟨hks, hk.comma⟩, mult_not hts, hnots]
    simp only [Bool.or_self, Bool.false_eq_true, if_false, Option.bind_some]
    rw [iA, iB]
    simp only [Option.bind_some]
    rw [yA, yB]
  rw [hstart]
  by_cases hs : f.style = .date
  · refine ⟨fun y => (a.rows (fold k) (fold t) (.year y)).map allBytes, fun i => by rw [if_pos hs, hR], _, rfl, ?_⟩
    rw [if_pos hs, years_eq (fun y => hR (.year y)), Option.bind_some]
    have hdays : rowsDays lib v d k t (number (since1970 B)) (number (since1970 B) + 1 - number (since1970 A)) (number (since1970 A)) = some [] := by
      rw [days_eq hz (M := fun _ => none) (fun i => by
        rw [hR]
        cases hl : a.rows (fold k) (fold t) (.date (number (since1970 i))) with
        | none => rfl
        | some l =>
          rcases kind_of hC hone hf hl with ⟨_, y, hy⟩ | ⟨hx, _⟩
          · cases hy
          · exact absurd hs hx) hB22 (B + 1 - A) A _ (by omega) (Nat.le_refl _)]
      simp
    rw [hdays]
    generalize hl : ((List.range' (since1970 A).1 ((since1970 B).1 + 1 - (since1970 A).1)).flatMap fun i => (((a.rows (fold k) (fold t) (.year i)).map allBytes).toList)) = ys
    have he : ys.flatten = (List.range' (since1970 A).1 ((since1970 B).1 + 1 - (since1970 A).1)).flatMap fun i => ((a.rows (fold k) (fold t) (.year i)).map allBytes).getD [] := by
      rw [← hl, toList_flatten]
    rw [← he]
    by_cases hy : ys = []
    · subst hy; rfl
    · rw [if_pos hy]; rfl
  · refine ⟨fun i => (a.rows (fold k) (fold t) (.date (number (since1970 i)))).map allBytes, fun i => by rw [if_neg hs, hR], _, rfl, ?_⟩
    rw [if_neg hs, years_eq (M := fun _ => none) (fun y => by
        rw [hR]
        cases hl : a.rows (fold k) (fold t) (.year y) with
        | none => rfl
        | some l =>
          rcases kind_of hC hone hf hl with ⟨hx, _⟩ | ⟨_, y, hy⟩
          · exact absurd hx hs
          · cases hy), Option.bind_some]
    rw [if_neg (by simp), days_eq hz (fun i => hR (.date (number (since1970 i)))) hB22 (B + 1 - A) A _ (by omega) (Nat.le_refl _), Option.map_some, toList_flatten]

/-- C81: a record comes out of a read of a time range exactly when it is stored and its day (or year) is one the range has a part
of; so every record with a time in the range comes out.  Missing: tables that were defined anew, see `C81_violated_redefined`,
and that only records with times in the range come out, see `C81_violated_whole`. -/
theorem C81_found_partial {lib : Lib} {v : Time.Env} {P : Db → Prop} (ht : lib.trace = false) (L : Restores lib) (T : Readable lib P) (K : Tables P) {d : Disk} {a : Abs}
    (h : Hist lib v P d a) {k t : Bytes} (hk : KeyName k) (hn : TabName t) (hks : (42 : UInt8) ∉ k) (hts : (42 : UInt8) ∉ t ∧ (44 : UInt8) ∉ t)
    {db : Db} (hd : a.defs (fold t) = some db) (hone : ∀ o, a.was (fold t) o → o = db) {f : Dyn.Field} (hf : timeField db = some f)
    (hz : Zone v) {lo hi A B : Nat} (hlo : 1000 ≤ lo) (hlh : lo ≤ hi) (hhi : hi < 2 ^ 47)
    (hA : (A : Int) = (((lo / 1000 : Nat) : Int) + v.tz) / 86400) (hB : (B : Int) = (((hi / 1000 : Nat) : Int) + v.tz) / 86400) :
    ∃ out, getRows lib v d k t lo hi = some out ∧ ∀ r, r ∈ recordsOf db (out.getD []) ↔
      ∃ u m i, rowsIn lib d k t u = some (some m) ∧ r ∈ recordsOf db m ∧ A ≤ i ∧ i ≤ B ∧
        placeOf v f r = some (if f.style = .date then .year (since1970 i).1 else .date (number (since1970 i))) := by
  obtain ⟨file, h1, out, h2, h3⟩ := C81_files_partial ht L T K h hk hn hks hts hone hf hz hlo hlh hhi hA hB
  have hC := hist_content K h
  have hp := hC.was _ _ (hC.defs _ _ hd)
  have hsz := (K.size db hp).1
  have hAB : A ≤ B := by omega
  have hplace : ∀ i m, file i = some m → (recordsOf db m).flatten = m ∧ ∀ r ∈ recordsOf db m, r.length = db.size ∧
      placeOf v f r = some (if f.style = .date then .year i else .date (number (since1970 i))) := by
    intro i m hm
    have := h1 i
    rw [hm] at this
    exact C27_place_partial ht L T K h hk hn hone hf this
  refine ⟨_, h3, fun r => ?_⟩
  have e0 : (if out = [] then none else some out).getD [] = out := by
    by_cases ho : out = []
    · rw [if_pos ho, ho]; rfl
    · rw [if_neg ho]; rfl
  rw [e0, h2, records_flat hsz _ file fun i _ m hm => ⟨(hplace i m hm).1, fun r hr => ((hplace i m hm).2 r hr).1⟩]
  constructor
  · intro hr
    obtain ⟨i, hi, hr⟩ := List.mem_flatMap.1 hr
    cases hm : file i with
    | none => rw [hm] at hr; simp [recordsOf, records] at hr
    | some m =>
      rw [hm] at hr
      have hpl := ((hplace i m hm).2 r hr).2
      have hrow := h1 i
      rw [hm] at hrow
      by_cases hs : f.style = .date
      · rw [if_pos hs, List.mem_range'] at hi
        obtain ⟨j, hj1, hj2⟩ := hi
        have yAB := year_le hAB
        obtain ⟨n, g1, g2, g3⟩ := year_between (A := A) (y := i) (B - A) (by omega) (by rw [show A + (B - A) = B by omega]; omega)
        refine ⟨_, m, n, hrow, hr, g1, by omega, ?_⟩
        rw [hpl, if_pos hs, if_pos hs, g3]
      · rw [if_neg hs, List.mem_range'] at hi
        obtain ⟨j, hj1, hj2⟩ := hi
        refine ⟨_, m, i, hrow, hr, by omega, by omega, ?_⟩
        rw [hpl, if_neg hs, if_neg hs]
  · rintro ⟨u, m, i, g1, g2, g3, g4, g5⟩
    have hpl := ((C27_place_partial ht L T K h hk hn hone hf g1).2 r g2).2
    rw [hpl] at g5
    have g5 := Option.some.inj g5
    subst g5
    by_cases hs : f.style = .date
    · rw [if_pos hs]
      have hrow := h1 (since1970 i).1
      rw [if_pos hs] at hrow g1
      rw [g1] at hrow
      refine List.mem_flatMap.2 ⟨(since1970 i).1, ?_, by rw [← Option.some.inj hrow]; exact g2⟩
      rw [List.mem_range']
      have a1 := year_le g3
      have a2 := year_le g4
      exact ⟨(since1970 i).1 - (since1970 A).1, by omega, by omega⟩
    · rw [if_neg hs]
      have hrow := h1 i
      rw [if_neg hs] at hrow g1
      rw [g1] at hrow
      refine List.mem_flatMap.2 ⟨i, ?_, by rw [← Option.some.inj hrow]; exact g2⟩
      rw [List.mem_range']
      exact ⟨i - A, by omega, by omega⟩

section
open Sample

/-- Two days of seconds in two files, read for a range in both days. -/
example : Hist (lib false) env (· ∈ dbs) disk2 abs2 ∧ KeyName (b "k2") ∧ TabName (b "sec") ∧ (42 : UInt8) ∉ b "k2" ∧ abs2.defs (fold (b "sec")) = some secDb ∧
    timeField secDb = some secField ∧ Zone env ∧ ((18783 : Nat) : Int) = (((1622900000000 / 1000 : Nat) : Int) + env.tz) / 86400 ∧
    getRows (lib false) env disk2 (b "k2") (b "sec") 1622900000000 1623026400000 = some (some (secRow 1622940000 ++ secRow 1623026400)) :=
  ⟨hist2, key2, tabSec, by decide +kernel, by decide +kernel, secField_eq, ⟨by decide, by decide⟩, by decide +kernel, by decide +kernel⟩

/-- Days of two years in two files. -/
example : Hist (lib false) env (· ∈ dbs) disk2 abs2 ∧ timeField dayDb = some dayField ∧ dayField.style = .date ∧
    getRows (lib false) env disk2 (b "k1") (b "day") 1609000000000 1622900000000 = some (some (dayRow 20201231 1 ++ dayRow 20210104 2 ++ dayRow 20210105 3)) :=
  ⟨hist2, dayField_eq, by decide +kernel, by decide +kernel⟩

private theorem sessions_of {ss : List (List Cmd)} (h : (sessions (lib false) env {} ss).isSome = true) : sessions (lib false) env {} ss = some ((sessions (lib false) env {} ss).getD {}) := by
  obtain ⟨x, hx⟩ := Option.isSome_iff_exists.1 h
  rw [hx]; rfl

/-- C81 fails for a table that had days and now has seconds: a read gives the old records, of another size, and not the ones
that were written last. -/
theorem C81_violated_redefined : ∃ d, sessions (lib false) env {} [[.keys (b "a"), .tabs [⟨b "x", dayDb⟩], .rows (b "a") (b "x") (dayRow 20210606 1)],
      [.tabs [⟨b "x", secDb⟩], .rows (b "a") (b "x") (secRow 1622940000)]] = some d ∧
    rowsIn (lib false) d (b "a") (b "x") (.date 20210606) = some (some (secRow 1622940000)) ∧
    getRows (lib false) env d (b "a") (b "x") 1622900000000 1623026400000 = some (some (dayRow 20210606 1)) :=
  ⟨_, sessions_of (by decide +kernel), by decide +kernel, by decide +kernel⟩

/-- C81: records with times outside of the range come out with it: all of the day. -/
theorem C81_violated_whole : ∃ d, sessions (lib false) env {} [[.keys (b "a"), .tabs [⟨b "x", secDb⟩], .rows (b "a") (b "x") (secRow 1622940000 ++ secRow 1622940009)]] = some d ∧
    getRows (lib false) env d (b "a") (b "x") 1622940001000 1622940002000 = some (some (secRow 1622940000 ++ secRow 1622940009)) :=
  ⟨_, sessions_of (by decide +kernel), by decide +kernel⟩

end

/-! ### C80 -/

/-- C80: what was written in sessions can be opened for writing again, and reading a key, or a key and a table, from any file is
defined.  Missing: keys that were not declared before records were written for them, see `C80_violated_undeclared`. -/
theorem C80_readable_partial {lib : Lib} {v : Time.Env} {P : Db → Prop} (ht : lib.trace = false) (L : Restores lib) (T : Readable lib P) (K : Tables P) {d : Disk} {a : Abs}
    (h : Hist lib v P d a) : (∃ w, openWriter lib d = some w) ∧
      ∀ k, KeyName k → getOne lib d k ≠ none ∧ getMul lib d k ≠ none ∧ ∀ t u, TabName t → rowsIn lib d k t u ≠ none := by
  obtain ⟨m, S, h1, h2⟩ := hist_rel ht L T K h
  refine ⟨⟨_, (open_good h1).1⟩, fun k hk => ⟨?_, ?_, fun t u hn => ?_⟩⟩
  · rw [ones_eq h1 h2 hk fun x hx => vals_short h _ _ hx]; simp
  · rw [muls_eq h1 h2 hk fun l hx => vals_short h _ _ hx]; simp
  · rw [rowsIn_eq h1 h2 hk hn u]; simp

/-- C80: declared keys, tables and values in two sessions. -/
example : Hist (Sample.lib false) Sample.env (· ∈ Sample.dbs) Sample.disk2 Sample.abs2 ∧ KeyName (Sample.b "k2") := ⟨Sample.hist2, Sample.key2⟩

open Sample in
/-- C80 fails for records of two keys that were not declared: the index of their file names a key that is not in the dictionary
in front of it.  Neither of the two can be read, and no later session can write to the file. -/
theorem C80_violated_undeclared : ∃ d, sessions (lib false) env {} [[.tabs [⟨b "info", infoDb⟩], .rows (b "a") (b "info") [1, 2, 3, 4], .rows (b "b") (b "info") [5, 6, 7, 8]]] = some d ∧
    rowsIn (lib false) d (b "a") (b "info") .nots = none ∧ rowsIn (lib false) d (b "b") (b "info") .nots = none ∧
    (session (lib false) env d [.one (b "a") [1]]).isNone = true :=
  ⟨_, sessions_of (by decide +kernel), by decide +kernel, by decide +kernel, by decide +kernel⟩

end Sis.Sdb
