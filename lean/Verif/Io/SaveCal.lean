import Verif.Io.SaveSpec
import Verif.Fmap.LoadTheorems
import Verif.Time.CalendarTheorems
import Verif.Sdb.WriterSpec
/- The calendar of a server with files. -/
namespace Sis.Io
open Sis
open Sis.Dyn (Db)
open Sis.Fmap (Fidx Sorted)

theorem dateNum_eq (n : Nat) : dateNum n = Time.number (Time.civil n) := rfl

theorem dayOfNum_date (n : Nat) : dayOfNum (dateNum n : Nat) = n := by
  obtain ⟨⟨h1, h2, h3, h4⟩, h5⟩ := Time.civil_spec n
  have hb := Time.monthDays_bounds (Time.civil n).1 (Time.civil n).2.1
  unfold dayOfNum
  rw [Int.toNat_natCast]
  have e1 : dateNum n / 10000 = (Time.civil n).1 := by unfold dateNum; omega
  have e2 : dateNum n / 100 % 100 = (Time.civil n).2.1 := by unfold dateNum; omega
  have e3 : dateNum n % 100 = (Time.civil n).2.2 := by unfold dateNum; omega
  rw [e1, e2, e3, h5]

theorem dateNum_lt {a b : Nat} : dateNum a < dateNum b ↔ a < b := by
  constructor
  · intro h
    rcases Nat.lt_or_ge a b with h1 | h1
    · exact h1
    · have := Time.number_mono h1
      rw [dateNum_eq, dateNum_eq] at h
      omega
  · exact Time.number_lt

/-- The second of a time. -/
def secOf : Dyn.St → Nat → Nat
  | .msec, t => t / 1000
  | .minu, t => t * 60
  | _, t => t

theorem secOf_mono (st : Dyn.St) {a b : Nat} (h : a ≤ b) : secOf st a ≤ secOf st b := by
  cases st <;> simp only [secOf] <;> omega

theorem dayNum_mono (v : Time.Env) {a b : Nat} (h : a ≤ b) : dayNum v a ≤ dayNum v b := by
  unfold dayNum
  have : ((a : Int) + v.tz + Time.epoch * 86400) / 86400 ≤ ((b : Int) + v.tz + Time.epoch * 86400) / 86400 := by omega
  omega

theorem period_date {v : Time.Env} {db : Db} (h : timeStyle db = some .date) (t : Nat) : periodNum v db t = (t / 10000 : Nat) := by
  unfold periodNum; rw [h]

theorem period_day {v : Time.Env} {db : Db} {st : Dyn.St} (h : timeStyle db = some st) (hst : TimeStyle st) (hd : st ≠ .date) (t : Nat) :
    periodNum v db t = (dateNum (dayNum v (secOf st t)) : Nat) := by
  unfold periodNum
  rw [h]
  rcases hst with rfl | rfl | rfl | rfl <;> first | rfl | exact absurd rfl hd

theorem period_mono {v : Time.Env} {db : Db} {st : Dyn.St} (h : timeStyle db = some st) (hst : TimeStyle st) {a b : Nat} (hab : a ≤ b) :
    periodNum v db a ≤ periodNum v db b := by
  by_cases hd : st = .date
  · rw [period_date (hd ▸ h), period_date (hd ▸ h)]
    have := Nat.div_le_div_right (c := 10000) hab
    omega
  · rw [period_day h hst hd, period_day h hst hd]
    have := Time.number_mono (dayNum_mono v (secOf_mono st hab))
    rw [← dateNum_eq, ← dateNum_eq] at this
    omega

/-- The periods there are. -/
def Period (st : Dyn.St) (p : Int) : Prop := if st = .date then 0 ≤ p else ∃ n : Nat, p = (dateNum n : Nat)

theorem period_valid {v : Time.Env} {db : Db} {st : Dyn.St} (h : timeStyle db = some st) (hst : TimeStyle st) (t : Nat) : Period st (periodNum v db t) := by
  unfold Period
  split
  · rename_i hd
    rw [period_date (hd ▸ h)]; omega
  · rename_i hd
    exact ⟨_, period_day h hst hd t⟩

theorem next_date {v : Time.Env} {db : Db} (h : timeStyle db = some .date) (p : Int) : (calendar v db).next p = p + 1 := by
  simp only [calendar, h, if_true]

theorem next_day {v : Time.Env} {db : Db} {st : Dyn.St} (h : timeStyle db = some st) (hd : st ≠ .date) (n : Nat) :
    (calendar v db).next (dateNum n : Nat) = (dateNum (n + 1) : Nat) := by
  have hne : ¬ (timeStyle db = some .date) := by rw [h]; simpa using hd
  simp only [calendar, if_neg hne]
  rw [dayOfNum_date]
  have : dateNum n < dateNum (n + 1) := dateNum_lt.2 (Nat.lt_succ_self n)
  omega

theorem valid_next {v : Time.Env} {db : Db} {st : Dyn.St} (h : timeStyle db = some st) {p : Int} (hp : Period st p) : Period st ((calendar v db).next p) := by
  unfold Period at hp ⊢
  by_cases hd : st = .date
  · rw [if_pos hd] at hp ⊢
    rw [next_date (hd ▸ h)]; omega
  · rw [if_neg hd] at hp ⊢
    obtain ⟨n, rfl⟩ := hp
    exact ⟨n + 1, next_day h hd n⟩

theorem next_reach {v : Time.Env} {db : Db} {st : Dyn.St} (h : timeStyle db = some st) {p q : Int} (hp : Period st p) (hq : Period st q) (hpq : p < q) :
    (calendar v db).next p ≤ q := by
  unfold Period at hp hq
  by_cases hd : st = .date
  · rw [next_date (hd ▸ h)]; omega
  · rw [if_neg hd] at hp hq
    obtain ⟨n, rfl⟩ := hp
    obtain ⟨m, rfl⟩ := hq
    rw [next_day h hd]
    have h1 : n < m := dateNum_lt.1 (by omega)
    have h2 := Time.number_mono (a := n + 1) (b := m) h1
    rw [← dateNum_eq, ← dateNum_eq] at h2
    omega

/-- A time is before a period exactly when its own period is. -/
theorem lower_iff {v : Time.Env} {db : Db} {st : Dyn.St} (h : timeStyle db = some st) (hst : TimeStyle st) (hz : Time.Zone v)
    (hm : st = .minu → v.tz % 60 = 0) {t : Nat} (ht : UsualTime st t) {p : Int} (hp : Period st p) :
    t < (calendar v db).lower p ↔ periodNum v db t < p := by
  unfold Period at hp
  by_cases hd : st = .date
  · subst hd
    rw [if_pos rfl] at hp
    rw [period_date h]
    simp only [calendar, h]
    have h1 : 101 ≤ t % 10000 := ht.2.2
    omega
  · rw [if_neg hd] at hp
    obtain ⟨n, rfl⟩ := hp
    rw [period_day h hst hd]
    have e : ((dateNum (dayNum v (secOf st t)) : Nat) : Int) < (dateNum n : Nat) ↔ dayNum v (secOf st t) < n := by
      rw [← dateNum_lt (b := n)]; omega
    rw [e]
    have hl : (secOf st t : Int) < dayStart v (dateNum n : Nat) ↔ dayNum v (secOf st t) < n := by
      unfold dayStart dayNum
      rw [dayOfNum_date]
      obtain ⟨h1, h2⟩ := hz
      have : 0 ≤ ((secOf st t : Nat) : Int) + v.tz + Time.epoch * 86400 := by unfold Time.epoch; omega
      generalize secOf st t = s at *
      omega
    rw [← hl]
    rcases hst with rfl | rfl | rfl | rfl
    · simp only [calendar, h, secOf]; omega
    · simp only [calendar, h, secOf]; omega
    · simp only [calendar, h, secOf]
      have h60 := hm rfl
      have : dayStart v (dateNum n : Nat) % 60 = 0 := by unfold dayStart; omega
      omega
    · exact absurd rfl hd

/-! ### Records in periods -/

theorem filter_first {α : Type} {per : α → Int} {p : Int} : ∀ {l : List α}, (l.Pairwise fun a b => per a ≤ per b) → (∀ r ∈ l, p ≤ per r) →
    l.filter (fun r => decide (per r = p)) ++ l.filter (fun r => decide (per r ≠ p)) = l := by
  intro l
  induction l with
  | nil => intro _ _; rfl
  | cons r l ih =>
    intro hs hp
    rw [List.pairwise_cons] at hs
    by_cases he : per r = p
    · rw [List.filter_cons_of_pos (by simpa using he), List.filter_cons_of_neg (by simpa using he), List.cons_append, ih hs.2 fun x hx => hp x (by simp [hx])]
    · have hlt : p < per r := by have := hp r (by simp); omega
      have e1 : (r :: l).filter (fun r => decide (per r = p)) = [] := by
        rw [List.filter_eq_nil_iff]
        intro x hx
        rcases List.mem_cons.1 hx with rfl | hx
        · simpa using he
        · have := hs.1 x hx
          simp; omega
      have e2 : (r :: l).filter (fun r => decide (per r ≠ p)) = r :: l := by
        rw [List.filter_eq_self]
        intro x hx
        rcases List.mem_cons.1 hx with rfl | hx
        · simpa using he
        · have := hs.1 x hx
          simp; omega
      rw [e1, e2]; rfl

/-- Sorted records are the records of their periods one behind the other. -/
theorem flat_periods {α : Type} {per : α → Int} : ∀ {ps : List Int} {l : List α}, (l.Pairwise fun a b => per a ≤ per b) → ps.Pairwise (· < ·) →
    (∀ r ∈ l, per r ∈ ps) → (ps.flatMap fun p => l.filter fun r => decide (per r = p)) = l := by
  intro ps
  induction ps with
  | nil =>
    intro l _ _ h
    cases l with
    | nil => rfl
    | cons r l => exact absurd (h r (by simp)) (by simp)
  | cons p ps ih =>
    intro l hs hp h
    rw [List.pairwise_cons] at hp
    have hge : ∀ r ∈ l, p ≤ per r := by
      intro r hr
      rcases List.mem_cons.1 (h r hr) with he | he
      · omega
      · have := hp.1 _ he; omega
    have e : (ps.flatMap fun q => l.filter fun r => decide (per r = q)) = l.filter fun r => decide (per r ≠ p) := by
      rw [← ih (l := l.filter fun r => decide (per r ≠ p)) (hs.filter _) hp.2 (by
        intro r hr
        obtain ⟨h1, h2⟩ := List.mem_filter.1 hr
        rcases List.mem_cons.1 (h r h1) with he | he
        · simp [he] at h2
        · exact he)]
      rw [List.flatMap_def, List.flatMap_def]
      congr 1
      apply List.map_congr_left
      intro q hq
      rw [List.filter_filter]
      apply List.filter_congr
      intro r _
      have := hp.1 q hq
      by_cases h1 : per r = q
      · simp [h1]; omega
      · simp [h1]
    rw [List.flatMap_cons, e]
    exact filter_first hs hge

/-- The files of sorted records with usual times are as they should be. -/
theorem disk_ok {v : Time.Env} {e : Env} (he : e.sign = periodNum v) {tb : Tbl} {st : Dyn.St} (h : timeStyle tb.db = some st) (hst : TimeStyle st) (hz : Time.Zone v)
    (hm : st = .minu → v.tz % 60 = 0) {R : List Bytes} (hs : Sorted (table e tb).ts R) (hu : ∀ r ∈ R, UsualTime st ((table e tb).ts r))
    {disk : Int → Option (List Bytes)} {fs : List Fidx} (ho : fs.Pairwise fun a b => a.isign < b.isign)
    (hp : ∀ f ∈ fs, Period st f.isign) (hd : ∀ f ∈ fs, disk f.isign = some (R.filter fun r => decide (periodNum v tb.db ((table e tb).ts r) = f.isign))) :
    Fmap.DiskOk (table e tb) (calendar v tb.db) (Period st) disk fs where
  ordered := ho
  valid := hp
  validTs t := by
    show Period st (e.sign tb.db t)
    rw [he]; exact period_valid h hst t
  step p := valid_next h
  reach p q := next_reach h
  mono a b hab := by
    show e.sign tb.db a ≤ e.sign tb.db b
    rw [he]; exact period_mono h hst hab
  lower := by
    intro f hf b hb r hr g hg
    rw [hd f hf] at hb
    rw [← Option.some.inj hb] at hr
    obtain ⟨h1, h2⟩ := List.mem_filter.1 hr
    rw [lower_iff h hst hz hm (hu r h1) (hp g hg), of_decide_eq_true h2]
  period := by
    intro f hf b hb r hr
    rw [hd f hf] at hb
    rw [← Option.some.inj hb] at hr
    show e.sign tb.db _ = _
    rw [he]
    exact of_decide_eq_true (List.mem_filter.1 hr).2
  sorted := by
    intro f hf b hb
    rw [hd f hf] at hb
    rw [← Option.some.inj hb]
    exact hs.filter _

end Sis.Io
