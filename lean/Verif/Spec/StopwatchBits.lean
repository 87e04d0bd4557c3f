import Verif.Spec.Stopwatch
import Verif.Model.StopwatchBits

/-! # What the functions of a stopwatch return with integers of 64 bits (C143) -/

namespace Pluto.StopwatchSpec
open Pluto.Stopwatch (Call)
open Pluto.StopwatchBits (Ratio)

/-- `d` ticks are `c` units, rounded towards zero. -/
def InUnits (tick unit : Ratio) (d c : Int) : Prop :=
  c.natAbs * (tick.den * unit.num) ≤ d.natAbs * (tick.num * unit.den) ∧
    d.natAbs * (tick.num * unit.den) < (c.natAbs + 1) * (tick.den * unit.num) ∧ 0 ≤ c * d

/-- The tick is `n / m` units, in lowest terms. -/
def LowestTerms (tick unit : Ratio) (n m : Nat) : Prop :=
  n.Coprime m ∧ n * (tick.den * unit.num) = m * (tick.num * unit.den)

/-- Neither numerator nor denominator is zero. -/
def Proper (r : Ratio) : Prop := 0 < r.num ∧ 0 < r.den

/-- The values of a signed integer type with `bits` bits. -/
def Representable (bits : Nat) (n : Int) : Prop := -2 ^ (bits - 1) ≤ n ∧ n < 2 ^ (bits - 1)

end Pluto.StopwatchSpec
