import Verif.Model.LogText
import Verif.Spec.LogRead

/-!
# Dates and times

The Gregorian calendar in closed form; of the model only the type of dates is used.
-/

namespace Pluto.LogTimeSpec
open LogText

/-- A year with 366 days. -/
def LeapYear (y : Nat) : Prop := 4 ∣ y ∧ (100 ∣ y → 400 ∣ y)

instance (y : Nat) : Decidable (LeapYear y) := inferInstanceAs (Decidable (_ ∧ _))

/-- The days before the first day of a year, counted from the year 0. -/
def daysBeforeYear (y : Nat) : Nat := 365 * y + (y + 3) / 4 - (y + 99) / 100 + (y + 399) / 400

/-- The days of a year before the first of a month. -/
def daysBeforeMonth (y m : Nat) : Nat :=
  [0, 31, 59, 90, 120, 151, 181, 212, 243, 273, 304, 334].getD (m - 1) 0 + if 2 < m ∧ LeapYear y then 1 else 0

/-- The length of a month: thirty days have September, April, June and November. -/
def daysInMonth (y m : Nat) : Nat :=
  if m = 2 then (if LeapYear y then 29 else 28) else if m = 4 ∨ m = 6 ∨ m = 9 ∨ m = 11 then 30 else 31

/-- A date and time that exist. -/
structure Exists (tm : Tm) : Prop where
  month : 1 ≤ tm.month ∧ tm.month ≤ 12
  day : 1 ≤ tm.day ∧ tm.day ≤ daysInMonth tm.year tm.month
  hour : tm.hour < 24
  minute : tm.minute < 60
  second : tm.second < 60

/-- The seconds from 1970-01-01 00:00:00 to a date and time. -/
def seconds (tm : Tm) : Int :=
  ((daysBeforeYear tm.year + daysBeforeMonth tm.year tm.month + (tm.day - 1) : Nat) : Int) * 86400 - 62167219200 +
    (tm.hour * 3600 + tm.minute * 60 + tm.second : Nat)

/-- The date and time in a line of a log. -/
def date (f : LogReadSpec.Fields) : Tm := ⟨f.year, f.month, f.day, f.hour, f.minute, f.second⟩

/-- The time at which an entry was logged, in microseconds since 1970, for a reader who sees the line and knows
that local time was `offset` seconds ahead of UTC. -/
def when (hide : Bool) (line : List Char) (offset : Int) : Int :=
  let f := LogReadSpec.readLine hide line
  (seconds (date f) - offset) * 1000000 + f.micros

/-- The time stamp of a line. -/
def stamp (line : List Char) : List Char := line.take 26

end Pluto.LogTimeSpec
