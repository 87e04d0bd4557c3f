import Verif.Model.StopwatchBits
import Verif.Model.FloatRange

/-!
# Model of `count` of `include/pluto/stopwatch.hpp` for floating-point and unsigned durations

`count<Duration>()` (lines 46-50) is `duration_cast<Duration>(time()).count()`.  `StopwatchBits.lean` has signed
representations; here are floating-point ones, as in `count<std::chrono::duration<double>>()`, and unsigned ones.
`duration_cast` computes in the common type of the two representations and `std::intmax_t`, [time.duration.cast]: a
floating-point type if one is, `unsigned long long` for unsigned integers of 64 bits, and `long long` for narrower ones.

Simplification: a floating-point result that is too large would be stored as the largest number instead of infinity.
-/

namespace Pluto.StopwatchBits
open Pluto.Stopwatch Pluto.FloatText

/-- `std::chrono::duration_cast`, [time.duration.cast], to a floating-point representation: every conversion and operation
rounds.  `stopwatch.hpp` 49. -/
def durationCastReal (t : Format) (tick unit : Ratio) (d : Int) : ℚ :=
  let cf := ratioDivide tick unit
  let x := t.round d
  if cf.num = 1 ∧ cf.den = 1 then x
  else if cf.den = 1 then t.round (x * t.round cf.num)
  else if cf.num = 1 then t.round (x / t.round cf.den)
  else t.round (t.round (x * t.round cf.num) / t.round cf.den)

/-- `count`, lines 46-50, for a floating-point representation. -/
def countReal (t : Format) (tick unit : Ratio) (s : State) (now : Int) : Option ℚ :=
  match timeAt s now with
  | some d => some (durationCastReal t tick unit d)
  | none => none

/-- `std::chrono::duration_cast`, [time.duration.cast], to an unsigned representation with `bits` bits, at most 64.
`stopwatch.hpp` 49. -/
def durationCastUnsigned (tick unit : Ratio) (bits : Nat) (d : Int) : Option Int :=
  let cf := ratioDivide tick unit
  if bits < 64 then
    match durationCast tick unit 64 d with
    | some n => some (n % 2 ^ bits)
    | none => none
  else if cf.num = 1 ∧ cf.den = 1 then some (d % 2 ^ 64)
  else if cf.den = 1 then some (d % 2 ^ 64 * cf.num % 2 ^ 64)
  else if cf.num = 1 then some (d % 2 ^ 64 / cf.den)
  else some (d % 2 ^ 64 * cf.num % 2 ^ 64 / cf.den)

/-- `count`, lines 46-50, for an unsigned representation. -/
def countUnsigned (tick unit : Ratio) (bits : Nat) (s : State) (now : Int) : Option Int :=
  match timeAt s now with
  | some d => durationCastUnsigned tick unit bits d
  | none => none

/-- `count` with `rollover`, lines 52-56, for an unsigned representation: `%` of `unsigned long long` and `long long` converts
the `rollover`; `%` of a narrower unsigned type and `long long` converts the count.  With floating-point representations the
function does not compile. -/
def countUnsignedRollover (tick unit : Ratio) (bits : Nat) (rollover : Int) (s : State) (now : Int) : Option Int :=
  match countUnsigned tick unit bits s now with
  | some n =>
    if rollover = 0 then none
    else if bits < 64 then some (n.tmod rollover)
    else some (n % (rollover % 2 ^ 64))
  | none => none

end Pluto.StopwatchBits
