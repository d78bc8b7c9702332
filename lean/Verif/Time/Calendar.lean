/-
Model of the dates and times of day (src/core/sis_time.c:18-23, 30-35, 153-165, 183-198, 222-239), of the zero time
that stands for now (src/os/linux/os_time.c:32-43), and of the conversion of time units (src/core/sis_dynamic.c:347-390).

`localtime_r` and `mktime` belong to the C library.  They are modelled as the Gregorian calendar in a time zone with a
constant distance `tz` (seconds east of Greenwich), so without summer time.  Years before 0 and dates that do not fit an
`int` are left out: there the outcome is `none`.
-/
namespace Sis.Time

/-- A leap year of the Gregorian calendar (used by `localtime_r` and `mktime` as called in src/core/sis_time.c:18-35 and 153-165). -/
def leap (y : Nat) : Bool := y % 4 == 0 && (y % 100 != 0 || y % 400 == 0)

/-- The days before 1 January of the year `y`, counted from 1 January of the year 0 (used by `localtime_r` and `mktime` as called in src/core/sis_time.c:18-35 and 153-165). -/
def beforeYear (y : Nat) : Nat := 365 * y + (y + 3) / 4 - (y + 99) / 100 + (y + 399) / 400

/-- The days of the year before the first of the month (used by `localtime_r` and `mktime` as called in src/core/sis_time.c:18-35 and 153-165). -/
def beforeMonth (y m : Nat) : Nat :=
  (match m with
   | 1 => 0 | 2 => 31 | 3 => 59 | 4 => 90 | 5 => 120 | 6 => 151 | 7 => 181 | 8 => 212 | 9 => 243 | 10 => 273 | 11 => 304
   | _ => 334) + (if 2 < m ∧ leap y = true then 1 else 0)

/-- The number of a day (used by `localtime_r` and `mktime` as called in src/core/sis_time.c:18-35 and 153-165). -/
def daysOf (y m d : Nat) : Nat := beforeYear y + beforeMonth y m + (d - 1)

/-- From the year `y` on, the first whose last day is not before day `n` (used by `localtime_r` and `mktime` as called in src/core/sis_time.c:18-35 and 153-165). -/
def yearFrom (n : Nat) : Nat → Nat → Nat
  | 0, y => y
  | k + 1, y => if n < beforeYear (y + 1) then y else yearFrom n k (y + 1)

/-- The year of day `n` (used by `localtime_r` and `mktime` as called in src/core/sis_time.c:18-35 and 153-165). -/
def yearOf (n : Nat) : Nat := yearFrom n (n + 1) (n / 366)

/-- From the month `m` on, the one that day `n` of the year is in (used by `localtime_r` and `mktime` as called in src/core/sis_time.c:18-35 and 153-165). -/
def monthFrom (y r : Nat) : Nat → Nat
  | 0 => 1
  | m + 1 => if beforeMonth y (m + 1) ≤ r then m + 1 else monthFrom y r m

/-- The month of day `n` of the year (used by `localtime_r` and `mktime` as called in src/core/sis_time.c:18-35 and 153-165). -/
def monthOf (y r : Nat) : Nat := monthFrom y r 12

/-- Year, month and day of month of day `n` (used by `localtime_r` and `mktime` as called in src/core/sis_time.c:18-35 and 153-165). -/
def civil (n : Nat) : Nat × Nat × Nat :=
  let y := yearOf n
  let r := n - beforeYear y
  let m := monthOf y r
  (y, m, r - beforeMonth y m + 1)

/-- The number of 1 January 1970 (used by `localtime_r` and `mktime` as called in src/core/sis_time.c:18-35 and 153-165). -/
def epoch : Nat := 719528

/-- `struct tm`, with the month counted from 1 and the full year (src/core/sis_time.c:18-35). -/
structure Tm where
  y : Nat
  m : Nat
  d : Nat
  sec : Nat
  wday : Nat
deriving DecidableEq, Repr

/-- `localtime_r`; `sec` is the second of the day.  1 January 1970 was a Thursday (called by `sis_time_check`, src/os/linux/os_time.c:32-43). -/
def localtime (tz t : Int) : Option Tm :=
  let l := t + tz + epoch * 86400
  if l < 0 then none
  else
    let n := l.toNat / 86400
    let c := civil n
    if c.1 ≤ 214747 then some ⟨c.1, c.2.1, c.2.2, l.toNat % 86400, (n + 6) % 7⟩ else none

/-- The time zone and the time it is (`localtime_r` and `time(NULL)`, src/os/linux/os_time.c:32-43). -/
structure Env where
  tz : Int
  now : Int
deriving DecidableEq, Repr

/-- `sis_time_check` (src/os/linux/os_time.c:32-43): time zero stands for now. -/
def timeCheck (v : Env) (t : Int) : Option Tm := localtime v.tz (if t = 0 then v.now else t)

/-- `sis_time_get_idate` (src/core/sis_time.c:18-23). -/
def getIdate (v : Env) (t : Int) : Option Nat := (timeCheck v t).map fun m => m.y * 10000 + m.m * 100 + m.d

/-- `sis_time_get_itime` (src/core/sis_time.c:30-35). -/
def getItime (v : Env) (t : Int) : Option Nat :=
  (timeCheck v t).map fun m => m.sec / 3600 * 10000 + m.sec % 3600 / 60 * 100 + m.sec % 60

/-- `sis_time_make_time` (src/core/sis_time.c:153-165), for a date and a time that are not negative.  `mktime` counts
months, days, hours, minutes and seconds over their usual bounds on into the next. -/
def makeTime (v : Env) (tdate ttime : Nat) : Option Int :=
  let months := tdate / 10000 * 12 + tdate % 10000 / 100
  if months = 0 then none
  else
    let y := (months - 1) / 12
    let m := (months - 1) % 12 + 1
    some ((beforeYear y + beforeMonth y m + tdate % 100 : Int) * 86400 - 86400 - epoch * 86400 +
      (ttime / 10000 * 3600 + ttime % 10000 / 100 * 60 + ttime % 100 : Nat) - v.tz)

/-- `sis_time_get_week_ofday` (src/core/sis_time.c:183-198). -/
def weekOfday (v : Env) (today : Nat) : Option Nat :=
  if today = 0 then (localtime v.tz v.now).map Tm.wday
  else (makeTime v today 0).bind fun t => (localtime v.tz t).map Tm.wday

/-- `sis_time_get_offset_day` (src/core/sis_time.c:222-227). -/
def offsetDay (v : Env) (today : Nat) (offset : Int) : Option Nat :=
  (makeTime v today 0).bind fun t => getIdate v (t + offset * 86400)

/-- `sis_time_next_work_day` (src/core/sis_time.c:228-239).  On a Saturday or Sunday the function calls itself and drops
what that returns; the call changes nothing, so it is left out. -/
def nextWorkDay (v : Env) (today : Nat) (offset : Int) : Option Nat :=
  (makeTime v today 0).bind fun t => (getIdate v (t + offset * 86400)).bind fun d =>
  (weekOfday v d).map fun _ => d

/-- The styles of a time field (src/core/sis_dynamic.h:86-91). -/
inductive Style
  | wsec | msec | tsec | minu | date | year
deriving DecidableEq, Repr

/-- `time_t` or `int` as `uint64` (the conversions of src/core/sis_dynamic.c:347-390). -/
def u64 (t : Int) : Nat := (t % 2 ^ 64).toNat

/-- `uint64` as `time_t` (the conversions of src/core/sis_dynamic.c:347-390). -/
def time_t (n : Nat) : Int := if n < 2 ^ 63 then n else (n : Int) - 2 ^ 64

/-- `sis_time_make_time` with a date given as `uint64`, of which it takes the lower 32 bits (src/core/sis_time.c:153-165). -/
def makeTime64 (v : Env) (d : Nat) : Option Int := if d % 2 ^ 32 < 2 ^ 31 then makeTime v (d % 2 ^ 32) 235959 else none

/-- `sis_time_unit_convert` (src/core/sis_dynamic.c:347-390). -/
def convert (v : Env) (i o : Style) (x : Nat) : Option Nat := match i, o with
  | .tsec, .msec => some ((x * 1000 + 999) % 2 ^ 64)
  | .tsec, .minu => some (x / 60)
  | .tsec, .date => getIdate v (time_t x)
  | .tsec, .year => (getIdate v (time_t x)).map (· / 10000)
  | .msec, .tsec => some (x / 1000)
  | .msec, .minu => some (x / 1000 / 60)
  | .msec, .date => getIdate v (time_t (x / 1000))
  | .msec, .year => (getIdate v (time_t (x / 1000))).map (· / 10000)
  | .minu, .msec => some ((x * 60 * 1000 + 59999) % 2 ^ 64)
  | .minu, .tsec => some (x * 60 % 2 ^ 64)
  | .minu, .date => getIdate v (time_t (x * 60 % 2 ^ 64))
  | .minu, .year => (getIdate v (time_t (x * 60 % 2 ^ 64))).map (· / 10000)
  | .date, .msec => (makeTime64 v x).map fun t => u64 (t * 1000 + 999)
  | .date, .tsec => (makeTime64 v x).map u64
  | .date, .minu => (makeTime64 v x).map fun t => u64 (t.tdiv 60)
  | .date, .year => some (x / 10000)
  | _, _ => some x

end Sis.Time
