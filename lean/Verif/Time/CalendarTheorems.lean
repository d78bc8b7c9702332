import Verif.Time.CalendarLemmas
/-
C54 (time units), C55 (work days), C77 (stepping a date), C78 (date and time of day).
-/
namespace Sis.Time

/-! ### Specification -/

/-- The date `k` days after 1 January 1970. -/
def since1970 : Nat → Nat × Nat × Nat
  | 0 => (1970, 1, 1)
  | k + 1 => dayAfter (since1970 k)

/-- A time zone at most 14 hours from Greenwich. -/
def Zone (v : Env) : Prop := -50400 ≤ v.tz ∧ v.tz ≤ 50400

/-- `o` is a coarser unit than `i`, of those the conversion knows. -/
def Coarser : Style → Style → Prop
  | .msec, .tsec | .msec, .minu | .msec, .date | .msec, .year => True
  | .tsec, .minu | .tsec, .date | .tsec, .year => True
  | .minu, .date | .minu, .year => True
  | .date, .year => True
  | _, _ => False

/-- The value is a time from the first to the 2^42th second, or any date. -/
def Usual : Style → Nat → Prop
  | .msec, x => 1000 ≤ x ∧ x < 2 ^ 42 * 1000
  | .tsec, x => 1 ≤ x ∧ x < 2 ^ 42
  | .minu, x => 1 ≤ x ∧ x * 60 < 2 ^ 42
  | _, _ => True

/-! ### Lemmas -/

theorem since_civil (k : Nat) : since1970 k = civil (epoch + k) := by
  induction k with
  | zero => exact civil_epoch.symm
  | succ k ih => rw [since1970, ih, ← Nat.add_assoc, civil_succ]

theorem since_days (k : Nat) : IsDate (since1970 k) ∧ daysOf (since1970 k).1 (since1970 k).2.1 (since1970 k).2.2 = epoch + k := by
  rw [since_civil]; exact civil_spec _

private theorem localtime_eq {tz t : Int} {n s : Nat} (hl : t + tz + epoch * 86400 = (n * 86400 + s : Nat)) (hs : s < 86400)
    (hn : n < 78382655) : localtime tz t = some ⟨(civil n).1, (civil n).2.1, (civil n).2.2, s, (n + 6) % 7⟩ := by
  unfold localtime
  simp only [hl]
  rw [if_neg (by omega)]
  have e1 : ((n * 86400 + s : Nat) : Int).toNat = n * 86400 + s := Int.toNat_natCast _
  rw [e1]
  have e2 : (n * 86400 + s) / 86400 = n := by omega
  have e3 : (n * 86400 + s) % 86400 = s := by omega
  rw [e2, e3]
  have := year_bound n
  rw [if_pos (by omega)]

theorem makeTime_eq (v : Env) {c : Nat × Nat × Nat} (hc : IsDate c) (tt : Nat) : makeTime v (number c) tt =
    some ((daysOf c.1 c.2.1 c.2.2 : Int) * 86400 - epoch * 86400 + (tt / 10000 * 3600 + tt % 10000 / 100 * 60 + tt % 100 : Nat) - v.tz) := by
  obtain ⟨h1, h2, h3, h4⟩ := hc
  have hb := monthDays_bounds c.1 c.2.1
  have e1 : number c / 10000 = c.1 := by unfold number; omega
  have e2 : number c % 10000 / 100 = c.2.1 := by unfold number; omega
  have e3 : number c % 100 = c.2.2 := by unfold number; omega
  unfold makeTime
  simp only [e1, e2, e3]
  rw [if_neg (by omega)]
  have e4 : (c.1 * 12 + c.2.1 - 1) / 12 = c.1 := by omega
  have e5 : (c.1 * 12 + c.2.1 - 1) % 12 + 1 = c.2.1 := by omega
  rw [e4, e5, daysOf]
  congr 1
  generalize beforeYear c.1 = a at *
  generalize beforeMonth c.1 c.2.1 = b at *
  generalize (tt / 10000 * 3600 + tt % 10000 / 100 * 60 + tt % 100 : Nat) = s at *
  omega

/-- The day and second of day of a time, in the zone. -/
private theorem split_time (v : Env) (hz : Zone v) {t : Nat} (ht : t < 2 ^ 42) :
    ∃ n s, (t : Int) + v.tz + epoch * 86400 = (n * 86400 + s : Nat) ∧ s < 86400 ∧ n < 78382655 ∧
      (n : Int) = epoch + ((t : Int) + v.tz) / 86400 := by
  obtain ⟨h1, h2⟩ := hz
  have h0 : (0 : Int) ≤ (t : Int) + v.tz + epoch * 86400 := by unfold epoch; omega
  obtain ⟨l, hl⟩ := Int.eq_ofNat_of_zero_le h0
  refine ⟨l / 86400, l % 86400, ?_, Nat.mod_lt _ (by decide), ?_, ?_⟩
  · rw [hl]; congr 1; omega
  · unfold epoch at hl; omega
  · unfold epoch at hl ⊢; omega

theorem idate_eq (v : Env) (hz : Zone v) {t : Nat} (h0 : 1 ≤ t) (ht : t < 2 ^ 42) :
    ∃ n : Nat, (n : Int) = epoch + ((t : Int) + v.tz) / 86400 ∧ getIdate v t = some (number (civil n)) := by
  obtain ⟨n, s, e1, hs, hn, e2⟩ := split_time v hz ht
  refine ⟨n, e2, ?_⟩
  unfold getIdate timeCheck
  rw [if_neg (by omega), localtime_eq e1 hs hn]
  rfl

theorem time_t_eq {x : Nat} (h : x < 2 ^ 42) : time_t x = x := by
  unfold time_t; rw [if_pos (by omega)]

/-! ### C54 -/

/-- C54: from a finer to a coarser unit the order is kept.  Missing: the first second, see `C54_zero_violated`. -/
theorem C54_monotone_partial (v : Env) (hz : Zone v) {i o : Style} (hc : Coarser i o) {a b : Nat} (ha : Usual i a) (hb : Usual i b)
    (hab : a ≤ b) : ∃ x y, convert v i o a = some x ∧ convert v i o b = some y ∧ x ≤ y := by
  have key : ∀ {s t : Nat}, 1 ≤ s → s ≤ t → t < 2 ^ 42 → ∃ x y, getIdate v s = some x ∧ getIdate v t = some y ∧ x ≤ y := by
    intro s t h1 h2 h3
    obtain ⟨n, e1, d1⟩ := idate_eq v hz h1 (by omega)
    obtain ⟨m, e2, d2⟩ := idate_eq v hz (t := t) (by omega) h3
    exact ⟨_, _, d1, d2, number_mono (by omega)⟩
  have ky : ∀ {s t : Nat}, 1 ≤ s → s ≤ t → t < 2 ^ 42 → ∃ x y, (getIdate v s).map (· / 10000) = some x ∧
      (getIdate v t).map (· / 10000) = some y ∧ x ≤ y := by
    intro s t h1 h2 h3
    obtain ⟨x, y, d1, d2, h⟩ := key h1 h2 h3
    exact ⟨_, _, by rw [d1]; rfl, by rw [d2]; rfl, Nat.div_le_div_right h⟩
  cases i <;> cases o <;> first | exact hc.elim | skip
  · exact ⟨_, _, rfl, rfl, Nat.div_le_div_right hab⟩
  · exact ⟨_, _, rfl, rfl, Nat.div_le_div_right (Nat.div_le_div_right hab)⟩
  · obtain ⟨h1, h2⟩ := ha
    obtain ⟨h3, h4⟩ := hb
    simp only [convert]
    rw [time_t_eq (by omega), time_t_eq (by omega)]
    exact key (by omega) (by omega) (by omega)
  · obtain ⟨h1, h2⟩ := ha
    obtain ⟨h3, h4⟩ := hb
    simp only [convert]
    rw [time_t_eq (by omega), time_t_eq (by omega)]
    exact ky (by omega) (by omega) (by omega)
  · exact ⟨_, _, rfl, rfl, Nat.div_le_div_right hab⟩
  · obtain ⟨h1, h2⟩ := ha
    obtain ⟨h3, h4⟩ := hb
    simp only [convert]
    rw [time_t_eq (by omega), time_t_eq (by omega)]
    exact key (by omega) (by omega) (by omega)
  · obtain ⟨h1, h2⟩ := ha
    obtain ⟨h3, h4⟩ := hb
    simp only [convert]
    rw [time_t_eq (by omega), time_t_eq (by omega)]
    exact ky (by omega) (by omega) (by omega)
  · obtain ⟨h1, h2⟩ := ha
    obtain ⟨h3, h4⟩ := hb
    simp only [convert]
    rw [Nat.mod_eq_of_lt (by omega), Nat.mod_eq_of_lt (by omega), time_t_eq (by omega), time_t_eq (by omega)]
    exact key (by omega) (by omega) (by omega)
  · obtain ⟨h1, h2⟩ := ha
    obtain ⟨h3, h4⟩ := hb
    simp only [convert]
    rw [Nat.mod_eq_of_lt (by omega), Nat.mod_eq_of_lt (by omega), time_t_eq (by omega), time_t_eq (by omega)]
    exact ky (by omega) (by omega) (by omega)
  · exact ⟨_, _, rfl, rfl, Nat.div_le_div_right hab⟩

/-- C54: the date of a time in seconds is the date of the calendar in the time zone. -/
theorem C54_date_partial (v : Env) (hz : Zone v) {t : Nat} (h0 : 1 ≤ t) (ht : t < 2 ^ 42) {k : Nat}
    (hk : (k : Int) = ((t : Int) + v.tz) / 86400) :
    convert v .tsec .date t = some (number (since1970 k)) ∧ convert v .tsec .year t = some (since1970 k).1 := by
  obtain ⟨n, e1, d1⟩ := idate_eq v hz h0 ht
  have hn : n = epoch + k := by omega
  subst hn
  rw [← since_civil] at d1
  simp only [convert]
  rw [time_t_eq ht, d1]
  refine ⟨rfl, ?_⟩
  obtain ⟨⟨h1, h2, h3, h4⟩, -⟩ := since_days k
  have := monthDays_bounds (since1970 k).1 (since1970 k).2.1
  simp only [Option.map_some, number]
  congr 1
  omega

/-- C54: milliseconds and minutes are converted by way of the seconds. -/
theorem C54_seconds (v : Env) {x : Nat} (hx : x < 2 ^ 42) :
    (∀ o, o = .minu ∨ o = .date ∨ o = .year → convert v .msec o x = convert v .tsec o (x / 1000)) ∧
    (∀ o, o = .date ∨ o = .year → convert v .minu o x = convert v .tsec o (x * 60)) := by
  refine ⟨fun o ho => ?_, fun o ho => ?_⟩
  · rcases ho with rfl | rfl | rfl <;> rfl
  · rcases ho with rfl | rfl <;> simp only [convert] <;> rw [Nat.mod_eq_of_lt (by omega)]

/-- C54: seconds and minutes to a finer unit and back give the same value. -/
theorem C54_back_partial (v : Env) {i o : Style} (h : (i, o) = (.tsec, .msec) ∨ (i, o) = (.minu, .msec) ∨ (i, o) = (.minu, .tsec))
    {x : Nat} (hx : x < 2 ^ 42) : ∃ y, convert v i o x = some y ∧ convert v o i y = some x := by
  rcases h with h | h | h <;> cases h <;> refine ⟨_, rfl, ?_⟩ <;> simp only [convert, Option.some.injEq] <;> omega

/-- C54: a second or a minute in milliseconds is the last millisecond of it, so that a search from a time on in one unit finds the
same records as in the other. -/
theorem C54_last_partial (v : Env) {i : Style} (h : i = .tsec ∨ i = .minu) {x : Nat} (hx : x < 2 ^ 42) :
    ∃ y, convert v i .msec x = some y ∧ ∀ w, convert v .msec i w = some x → w ≤ y := by
  rcases h with rfl | rfl <;> refine ⟨_, rfl, fun w hw => ?_⟩ <;> simp only [convert, Option.some.injEq] at hw <;> omega

example : convert ⟨0, 0⟩ .minu .msec 7 = some 479999 ∧ convert ⟨0, 0⟩ .msec .minu 479999 = some 7 := by decide

/-- C54: a date to a finer unit and back is the same date; for minutes in zones that are whole minutes from Greenwich. -/
theorem C54_date_back_partial (v : Env) (hz : Zone v) {k : Nat} (hk : k < 2 ^ 22) {o : Style}
    (h : o = .msec ∨ o = .tsec ∨ o = .minu ∧ v.tz % 60 = 0) :
    ∃ y, convert v .date o (number (since1970 k)) = some y ∧ convert v o .date y = some (number (since1970 k)) := by
  obtain ⟨hd, e⟩ := since_days k
  have hn : number (since1970 k) < 2 ^ 31 := by
    have h1 := year_bound (epoch + k)
    rw [← since_civil] at h1
    obtain ⟨_, h3, _, h5⟩ := hd
    have := monthDays_bounds (since1970 k).1 (since1970 k).2.1
    unfold number
    unfold epoch at h1
    omega
  have em := makeTime_eq v hd 235959
  rw [e] at em
  have em' : makeTime64 v (number (since1970 k)) = some ((k : Int) * 86400 + 86399 - v.tz) := by
    unfold makeTime64
    rw [Nat.mod_eq_of_lt (by omega), if_pos hn, em]
    congr 1
    omega
  obtain ⟨z1, z2⟩ := hz
  obtain ⟨t, ht⟩ : ∃ t : Nat, (k : Int) * 86400 + 86399 - v.tz = t := ⟨((k : Int) * 86400 + 86399 - v.tz).toNat, by omega⟩
  by_cases ht0 : t = 0
  · omega
  have id_eq : ∀ {s : Nat}, 1 ≤ s → s ≤ t → (t : Int) < s + 60 → (k : Int) * 86400 ≤ s + v.tz → getIdate v s = some (number (since1970 k)) := by
    intro s h1 h2 h3 h4
    obtain ⟨n, e1, d1⟩ := idate_eq v ⟨z1, z2⟩ (t := s) h1 (by omega)
    have : n = epoch + k := by omega
    rw [d1, this, ← since_civil]
  have ut : u64 (t : Int) = t := by unfold u64; omega
  rcases h with rfl | rfl | ⟨rfl, h60⟩
  · refine ⟨t * 1000 + 999, ?_, ?_⟩
    · simp only [convert, em', Option.map_some, ht]
      have : u64 ((t : Int) * 1000 + 999) = t * 1000 + 999 := by unfold u64; omega
      rw [this]
    · simp only [convert]
      rw [show (t * 1000 + 999) / 1000 = t by omega, time_t_eq (by omega)]
      exact id_eq (by omega) (Nat.le_refl _) (by omega) (by omega)
  · refine ⟨t, ?_, ?_⟩
    · simp only [convert, em', Option.map_some, ht, ut]
    · simp only [convert]
      rw [time_t_eq (by omega)]
      exact id_eq (by omega) (Nat.le_refl _) (by omega) (by omega)
  · refine ⟨t / 60, ?_, ?_⟩
    · simp only [convert, em', Option.map_some, ht]
      congr 1
      have : (t : Int).tdiv 60 = (t / 60 : Nat) := rfl
      rw [this]
      unfold u64
      omega
    · simp only [convert]
      rw [Nat.mod_eq_of_lt (by omega), time_t_eq (by omega)]
      exact id_eq (by omega) (by omega) (by omega) (by omega)

/-- 4 June 2021, 15:00:00 in Shanghai, in all units. -/
example : Zone ⟨28800, 0⟩ ∧ Usual .msec 1622790000123 ∧ convert ⟨28800, 0⟩ .msec .date 1622790000123 = some 20210604 ∧
    convert ⟨28800, 0⟩ .msec .minu 1622790000123 = some 27046500 ∧ convert ⟨28800, 0⟩ .date .msec 20210604 = some 1622822399999 :=
  ⟨⟨by decide, by decide⟩, ⟨by decide, by decide⟩, by decide +kernel, by decide +kernel, by decide +kernel⟩

/-- C54 fails in the first second of 1970: the time 0 is converted to the date it is now, here 4 June 2021, which is
after the date of the time 1. -/
theorem C54_zero_violated : ∃ v, Zone v ∧ convert v .tsec .date 0 = some 20210604 ∧ convert v .tsec .date 1 = some 19700101 ∧
    convert v .msec .date 999 = some 20210604 ∧ convert v .msec .date 1000 = some 19700101 :=
  ⟨⟨28800, 1622790000⟩, ⟨by decide, by decide⟩, by decide +kernel, by decide +kernel, by decide +kernel, by decide +kernel⟩

/-- C54 fails for microseconds: nothing is converted, so two times in one second are two different seconds. -/
theorem C54_wsec_violated (v : Env) (o : Style) (x : Nat) : convert v .wsec o x = some x ∧ convert v o .wsec x = some x := by
  cases o <;> exact ⟨rfl, rfl⟩

/-- C54 fails for seconds that do not fit as milliseconds. -/
theorem C54_overflow_violated : ∃ v x y, x < 2 ^ 64 ∧ convert v .tsec .msec x = some y ∧ convert v .msec .tsec y ≠ some x :=
  ⟨⟨0, 0⟩, 2 ^ 60, _, by decide, rfl, by decide⟩

/-! ### C77 -/

private theorem offset_eq (v : Env) (hz : Zone v) {k : Nat} {j : Int} {m : Nat} (hm : (m : Int) = k + j) (hmb : m < 2 ^ 22)
    (h0 : (m : Int) * 86400 ≠ v.tz) : (makeTime v (number (since1970 k)) 0).bind (fun t => getIdate v (t + j * 86400)) =
    some (number (since1970 m)) := by
  obtain ⟨hd, e⟩ := since_days k
  rw [makeTime_eq v hd 0, e]
  simp only [Option.bind_some]
  unfold getIdate timeCheck
  have ht : ((epoch + k : Nat) : Int) * 86400 - epoch * 86400 + ((0 / 10000 * 3600 + 0 % 10000 / 100 * 60 + 0 % 100 : Nat) : Int) - v.tz + j * 86400 =
      (m : Int) * 86400 - v.tz := by simp only [Nat.zero_div, Nat.zero_mod, Nat.zero_mul, Nat.add_zero]; omega
  rw [ht, if_neg (by omega), localtime_eq (n := epoch + m) (s := 0) (by omega) (by decide) (by unfold epoch; omega), ← since_civil]
  rfl

/-- C77: `sis_time_get_offset_day` gives the date so many days later or earlier, unless that begins at time 0 of the
computer.  Missing: that one, see `C77_violated`. -/
theorem C77_partial (v : Env) (hz : Zone v) {k : Nat} {j : Int} {m : Nat} (hm : (m : Int) = k + j) (hmb : m < 2 ^ 22)
    (h0 : (m : Int) * 86400 ≠ v.tz) : offsetDay v (number (since1970 k)) j = some (number (since1970 m)) := offset_eq v hz hm hmb h0

/-- The end of February 2020, and back over the turn of a year. -/
example : offsetDay ⟨28800, 0⟩ 20200228 1 = some 20200229 ∧ offsetDay ⟨28800, 0⟩ 20210301 (-60) = some 20201231 :=
  ⟨by decide +kernel, by decide +kernel⟩

example : ∃ k, k < 2 ^ 22 ∧ since1970 k = (2020, 2, 28) := ⟨18320, by decide, by rw [since_civil]; decide +kernel⟩

/-- C77 fails in Greenwich: the day after 31 December 1969 is the date it is now, here 4 June 2021. -/
theorem C77_violated : offsetDay ⟨0, 1622790000⟩ 19691231 1 = some 20210604 ∧ offsetDay ⟨0, 1622790000⟩ 19700102 (-1) = some 20210604 :=
  ⟨by decide +kernel, by decide +kernel⟩

/-! ### C55.  1 January 1970 was a Thursday, so the `k`th day after it is day `(4 + k) % 7` of the week, Sunday being 0. -/

private theorem week_eq (v : Env) {k : Nat} (hk : k < 2 ^ 22) : weekOfday v (number (since1970 k)) = some ((4 + k) % 7) := by
  obtain ⟨hd, e⟩ := since_days k
  have hne : number (since1970 k) ≠ 0 := by obtain ⟨h1, -⟩ := hd; unfold number; omega
  unfold weekOfday
  rw [if_neg hne, makeTime_eq v hd 0, e]
  simp only [Option.bind_some]
  rw [localtime_eq (n := epoch + k) (s := 0) (by simp only [Nat.zero_div, Nat.zero_mod, Nat.zero_mul, Nat.add_zero]; omega)
    (by decide) (by unfold epoch; omega)]
  simp only [Option.map_some]
  congr 1
  unfold epoch
  omega

/-- C55: `sis_time_get_week_ofday` gives the day of the week. -/
theorem C55_week (v : Env) {k : Nat} (hk : k < 2 ^ 22) : weekOfday v (number (since1970 k)) = some ((4 + k) % 7) := week_eq v hk

private theorem next_eq (v : Env) (hz : Zone v) {k : Nat} (hk : k + 1 < 2 ^ 22) :
    nextWorkDay v (number (since1970 k)) 1 = some (number (since1970 (k + 1))) := by
  have h := offset_eq v hz (k := k) (j := 1) (m := k + 1) (by omega) hk (by obtain ⟨h1, h2⟩ := hz; omega)
  unfold nextWorkDay
  rw [Option.bind_eq_some_iff] at h ⊢
  obtain ⟨t, ht, hd⟩ := h
  refine ⟨t, ht, ?_⟩
  rw [hd]
  simp only [Option.bind_some]
  rw [week_eq v hk]
  rfl

/-- C55: the next work day is later.  (All dates from 1970 to the year 13452.) -/
theorem C55_later_partial (v : Env) (hz : Zone v) {k : Nat} (hk : k + 1 < 2 ^ 22) :
    ∃ j, k < j ∧ nextWorkDay v (number (since1970 k)) 1 = some (number (since1970 j)) ∧ number (since1970 k) < number (since1970 j) := by
  refine ⟨k + 1, Nat.lt_succ_self k, next_eq v hz hk, ?_⟩
  rw [since_civil, since_civil]
  exact number_lt (by omega)

/-- C55: from Sunday to Thursday the next work day is the next day, a work day.  Missing: Friday and Saturday, see
`C55_violated`. -/
theorem C55_work_day_partial (v : Env) (hz : Zone v) {k : Nat} (hk : k + 1 < 2 ^ 22) (hw : (4 + k) % 7 < 5) :
    nextWorkDay v (number (since1970 k)) 1 = some (number (since1970 (k + 1))) ∧ 1 ≤ (4 + (k + 1)) % 7 ∧ (4 + (k + 1)) % 7 ≤ 5 :=
  ⟨next_eq v hz hk, by omega, by omega⟩

/-- C55 fails on every Friday and every Saturday: the next work day is said to be the Saturday or the Sunday. -/
theorem C55_violated (v : Env) (hz : Zone v) {k : Nat} (hk : k + 1 < 2 ^ 22) (hw : (4 + k) % 7 = 5 ∨ (4 + k) % 7 = 6) :
    nextWorkDay v (number (since1970 k)) 1 = some (number (since1970 (k + 1))) ∧ ((4 + (k + 1)) % 7 = 6 ∨ (4 + (k + 1)) % 7 = 0) :=
  ⟨next_eq v hz hk, by omega⟩

/-- 4 June 2021 was a Friday; the work day after it was the 7th. -/
example : Zone ⟨28800, 0⟩ ∧ since1970 18782 = (2021, 6, 4) ∧ (4 + 18782) % 7 = 5 ∧ nextWorkDay ⟨28800, 0⟩ 20210604 1 = some 20210605 :=
  ⟨⟨by decide, by decide⟩, by rw [since_civil]; decide +kernel, by decide, by decide +kernel⟩

/-! ### C78 -/

private theorem hms {h m s : Nat} (hm : m < 60) (hs : s < 60) : (h * 10000 + m * 100 + s) / 10000 = h ∧
    (h * 10000 + m * 100 + s) % 10000 / 100 = m ∧ (h * 10000 + m * 100 + s) % 100 = s := by omega

private theorem hms' {h m s : Nat} (hm : m < 60) (hs : s < 60) : (h * 3600 + m * 60 + s) / 3600 = h ∧
    (h * 3600 + m * 60 + s) % 3600 / 60 = m ∧ (h * 3600 + m * 60 + s) % 60 = s := by omega

/-- C78: the time made of a date and a time of day has that date and time of day, unless it is time 0 of the computer.
Missing: that one, see `C78_violated`. -/
theorem C78_partial (v : Env) {k h m s : Nat} (hk : k < 2 ^ 22) (hh : h < 24) (hm : m < 60) (hs : s < 60) :
    ∃ t, makeTime v (number (since1970 k)) (h * 10000 + m * 100 + s) = some t ∧
      (t ≠ 0 → getIdate v t = some (number (since1970 k)) ∧ getItime v t = some (h * 10000 + m * 100 + s)) := by
  obtain ⟨hd, e⟩ := since_days k
  refine ⟨_, by rw [makeTime_eq v hd, e], fun h0 => ?_⟩
  obtain ⟨e1, e2, e3⟩ := hms (h := h) hm hs
  rw [e1, e2, e3] at h0 ⊢
  unfold getIdate getItime timeCheck
  rw [if_neg h0, localtime_eq (n := epoch + k) (s := h * 3600 + m * 60 + s) (by omega) (by omega) (by unfold epoch; omega), ← since_civil]
  refine ⟨rfl, ?_⟩
  simp only [Option.map_some]
  obtain ⟨e4, e5, e6⟩ := hms' (h := h) hm hs
  rw [e4, e5, e6]

/-- C78: a later date or time of day is a later time. -/
theorem C78_order (v : Env) {k h m s k' h' m' s' : Nat} (hm : m < 60) (hs : s < 60) (hh : h < 24)
    (hm' : m' < 60) (hs' : s' < 60)
    (hlt : k < k' ∨ k = k' ∧ h * 10000 + m * 100 + s < h' * 10000 + m' * 100 + s') :
    ∃ t t', makeTime v (number (since1970 k)) (h * 10000 + m * 100 + s) = some t ∧
      makeTime v (number (since1970 k')) (h' * 10000 + m' * 100 + s') = some t' ∧ t < t' := by
  obtain ⟨hd, e⟩ := since_days k
  obtain ⟨hd', e'⟩ := since_days k'
  refine ⟨_, _, by rw [makeTime_eq v hd, e], by rw [makeTime_eq v hd', e'], ?_⟩
  obtain ⟨e1, e2, e3⟩ := hms (h := h) hm hs
  obtain ⟨e1', e2', e3'⟩ := hms (h := h') hm' hs'
  rw [e1, e2, e3, e1', e2', e3']
  omega

example : makeTime ⟨28800, 0⟩ 20210604 150000 = some 1622790000 ∧ getIdate ⟨28800, 0⟩ 1622790000 = some 20210604 ∧
    getItime ⟨28800, 0⟩ 1622790000 = some 150000 := ⟨by decide +kernel, by decide +kernel, by decide +kernel⟩

/-- C78 fails for one time: in Shanghai 8:00:00 on 1 January 1970 has the date and time of day it is now. -/
theorem C78_violated : ∃ v, Zone v ∧ makeTime v 19700101 80000 = some 0 ∧ getIdate v 0 = some 20210604 ∧ getItime v 0 = some 150000 :=
  ⟨⟨28800, 1622790000⟩, ⟨by decide, by decide⟩, by decide +kernel, by decide +kernel, by decide +kernel⟩

end Sis.Time
