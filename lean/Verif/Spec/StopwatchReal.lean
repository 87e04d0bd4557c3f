import Verif.Spec.StopwatchBits
import Verif.Spec.FloatRange

/-! # What a stopwatch returns as floating-point or unsigned numbers (C153) -/

namespace Pluto.StopwatchSpec
open Pluto.StopwatchBits (Ratio)

/-- `d` ticks, exactly in units. -/
def exactUnits (tick unit : Ratio) (d : Int) : ℚ :=
  d * ((tick.num : ℚ) / tick.den) / ((unit.num : ℚ) / unit.den)

/-- A floating-point type with `bits` significant bits that has exponents enough for all times. -/
def WideEnough (bits : Nat) (low high : Int) : Prop :=
  1 ≤ bits ∧ low + bits + 62 ≤ 0 ∧ 0 ≤ high ∧ 128 ≤ high + bits

end Pluto.StopwatchSpec
