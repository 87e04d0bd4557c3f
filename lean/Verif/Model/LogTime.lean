import Verif.Model.LogText

/-!
# Model of the time of log entries, `include/pluto/logger.hpp` and `include/pluto/platform.hpp`

A time point of `clock_type` (logger.hpp, line 38: `std::chrono::system_clock`) is a number of ticks
since 1970-01-01 00:00:00 UTC. The number of ticks in a microsecond depends on the implementation
(1000, 10 or 1) and is a parameter. There are no leap seconds, as in POSIX.
-/

namespace Pluto.LogTime
open LogText

/-- Whether a year has 366 days; part of `gmtime_r`, platform.hpp line 77. -/
def leap (y : Nat) : Bool := y % 4 == 0 && (y % 100 != 0 || y % 400 == 0)

/-- The number of days of a year; part of `gmtime_r`, platform.hpp line 77. -/
def yearDays (y : Nat) : Nat := if leap y then 366 else 365

/-- The year and the day in it, when `n` days have passed since the first of year `y`; at most
`fuel` years are looked at. Part of `gmtime_r`, platform.hpp line 77. -/
def yearFrom : Nat → Nat → Nat → Nat × Nat
  | 0, y, n => (y, n)
  | fuel + 1, y, n => if n < yearDays y then (y, n) else yearFrom fuel (y + 1) (n - yearDays y)

/-- The lengths of the months; part of `gmtime_r`, platform.hpp line 77. -/
def monthLengths (y : Nat) : List Nat :=
  [31, if leap y then 29 else 28, 31, 30, 31, 30, 31, 31, 30, 31, 30, 31]

/-- The month and the day in it, when `n` days have passed since the first of month `m` and the
months from then on have the given lengths. Part of `gmtime_r`, platform.hpp line 77. -/
def monthFrom : List Nat → Nat → Nat → Nat × Nat
  | [], m, n => (m, n)
  | l :: ls, m, n => if n < l then (m, n) else monthFrom ls (m + 1) (n - l)

/-- `gm_time`, platform.hpp lines 71-80: `gmtime_r` (77) for seconds since 1970. 719528 days are from the
first day of year 0 to 1970, 146097 days are in 400 years. Simplified: the result is `none` before year 0,
and years that do not fit into an `int` are not told apart (the code would return an empty `std::tm`). -/
def gmTime (s : Int) : Option Tm :=
  let s' := s + 719528 * 86400
  if s' < 0 then none
  else
    let n := s'.toNat
    let days := n / 86400
    let second := n % 86400
    let (y, d) := yearFrom 400 0 (days % 146097)
    let year := 400 * (days / 146097) + y
    let (month, day) := monthFrom (monthLengths year) 1 d
    some ⟨year, month, day + 1, second / 3600, second / 60 % 60, second % 60⟩

/-- `local_time`, platform.hpp lines 60-69, when `zone s` is the number of seconds by which local time is
ahead of UTC at second `s`. -/
def localTime (zone : Int → Int) (s : Int) : Option Tm := gmTime (s + zone s)

/-- `clock_type::to_time_t`, logger.hpp line 423, when a microsecond has `k` ticks. Fractions of a second are
cut off; the standard also allows rounding. -/
def toTimeT (k t : Int) : Int := t.tdiv (k * 1000000)

/-- `duration_cast<microseconds>`, logger.hpp lines 425-426. -/
def toMicros (k t : Int) : Int := t.tdiv k

/-- The entry that `default_log_writer`, logger.hpp lines 421-443, writes for an entry with time `t`;
`log` has the rest of the entry. -/
def stamped (k : Int) (zone : Int → Int) (t : Int) (log : Record) : Option Record :=
  (localTime zone (toTimeT k t)).map fun tm => { log with localTime := tm, micros := toMicros k t }

end Pluto.LogTime
