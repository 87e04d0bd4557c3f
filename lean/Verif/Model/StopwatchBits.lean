import Verif.Model.Stopwatch

/-!
# Model of `include/pluto/stopwatch.hpp` with integers of 64 bits

`Stopwatch.lean` has integers without bounds.  Here clock readings and durations are signed integers of 64 bits; a sum, a
difference or a product that does not fit is undefined behaviour (`none`).  `count` is for any duration type: a period that
is any ratio, and a representation that is a signed integer type with at most 64 bits.

Simplification: the ratios that the compiler computes fit (otherwise the program is not compiled).
-/

namespace Pluto.StopwatchBits
open Pluto.Stopwatch

/-- Whether a signed integer type with `bits` bits has the value `n`, [basic.fundamental].  For `stopwatch.hpp` 28-29. -/
def fits (bits : Nat) (n : Int) : Bool := decide (-2 ^ (bits - 1) ≤ n ∧ n < 2 ^ (bits - 1))

/-- The result of an operation on signed integers of 64 bits, [expr.pre]: undefined if it does not fit.
For `stopwatch.hpp` 43 and 150. -/
def checked (n : Int) : Option Int := if fits 64 n then some n else none

/-- Conversion to a signed integer type with `bits` bits, [conv.integral]: the value modulo `2 ^ bits`.
For `stopwatch.hpp` 49. -/
def narrow (bits : Nat) (n : Int) : Int := Int.bmod n (2 ^ bits)

/-- `time`, lines 41-44. -/
def timeAt (s : State) (now : Int) : Option Int :=
  if s.running then
    match checked (now - s.start) with
    | some d => checked (s.time + d)
    | none => none
  else some s.time

/-- `stop`, lines 146-153. -/
def stop (s : State) (now : Int) : Option State :=
  if s.running then
    match checked (now - s.start) with
    | some d =>
      match checked (s.time + d) with
      | some t => some { s with time := t, running := false }
      | none => none
    | none => none
  else some s

/-- `stop_and_time`, lines 155-159. -/
def stopAndTime (s : State) (now : Int) : Option (State × Int) :=
  match stop s now with
  | some s => some (s, s.time)
  | none => none

/-- A call at the clock reading `now`; `start`, `reset` and `restart`, lines 123-144, do not compute anything. -/
def call (s : State) : Call → Int → Option State
  | .start, now => some (Stopwatch.start s now)
  | .stop, now => stop s now
  | .stopAndTime, now =>
    match stopAndTime s now with
    | some r => some r.1
    | none => none
  | .reset, _ => some (Stopwatch.reset s)
  | .restart, now => some (Stopwatch.restart s now)

/-- A history of calls, each with its clock reading.  `stopwatch.hpp` 33-39 and 123-159. -/
def run (s : State) : List (Int × Call) → Option State
  | [] => some s
  | e :: history =>
    match call s e.2 e.1 with
    | some s => run s history
    | none => none

/-- A period, as `std::ratio`: `num / den` seconds.  For `stopwatch.hpp` 49. -/
structure Ratio where
  num : Nat
  den : Nat
deriving DecidableEq, Repr

/-- `std::ratio_divide`, [ratio.arithmetic]: the quotient in lowest terms.  For `stopwatch.hpp` 49. -/
def ratioDivide (a b : Ratio) : Ratio :=
  let n := a.num * b.den
  let d := a.den * b.num
  ⟨n / n.gcd d, d / n.gcd d⟩

/-- `std::chrono::duration_cast`, [time.duration.cast], to a representation with `bits` bits: it computes with 64 bits
and multiplies and divides only if it has to.  `stopwatch.hpp` 49. -/
def durationCast (tick unit : Ratio) (bits : Nat) (d : Int) : Option Int :=
  let cf := ratioDivide tick unit
  if cf.num = 1 ∧ cf.den = 1 then some (narrow bits d)
  else if cf.den = 1 then
    match checked (d * cf.num) with
    | some n => some (narrow bits n)
    | none => none
  else if cf.num = 1 then some (narrow bits (d.tdiv cf.den))
  else
    match checked (d * cf.num) with
    | some n => some (narrow bits (n.tdiv cf.den))
    | none => none

/-- `count`, lines 46-50. -/
def count (tick unit : Ratio) (bits : Nat) (s : State) (now : Int) : Option Int :=
  match timeAt s now with
  | some d => durationCast tick unit bits d
  | none => none

/-- `%` of C++ for `long long`, [expr.mul]: undefined for zero and if the quotient does not fit.  `stopwatch.hpp` 55. -/
def remainder (a b : Int) : Option Int :=
  if b = 0 then none else if fits 64 (a.tdiv b) then some (a.tmod b) else none

/-- `count` with `rollover`, lines 52-56. -/
def countRollover (tick unit : Ratio) (bits : Nat) (rollover : Int) (s : State) (now : Int) : Option Int :=
  match count tick unit bits s now with
  | some n => remainder n rollover
  | none => none

/-- The tick of `std::chrono::steady_clock`, a nanosecond.  `stopwatch.hpp` 17. -/
def nano : Ratio := ⟨1, 1000000000⟩

/-- The periods of the functions in lines 58-116. -/
def micro : Ratio := ⟨1, 1000000⟩
/-- A millisecond, line 70. -/
def milli : Ratio := ⟨1, 1000⟩
/-- A second, line 75. -/
def second : Ratio := ⟨1, 1⟩
/-- A minute, line 80. -/
def minute : Ratio := ⟨60, 1⟩
/-- An hour, line 85. -/
def hour : Ratio := ⟨3600, 1⟩

end Pluto.StopwatchBits
