import Mathlib.Algebra.Order.Field.Rat

/-!
# Specification of decimal numbers with few digits
-/

namespace Pluto.FloatTextSpec

/-- The number has at most six significant decimal digits. -/
def SixDigits (x : ℚ) : Prop := ∃ (d : ℤ) (k : ℤ), |d| < 10 ^ 6 ∧ x = d * 10 ^ k

/-- The number has at most `p` significant bits: it is a value of a floating-point type with that precision. -/
def Bits (p : ℕ) (x : ℚ) : Prop := ∃ (m : ℤ) (k : ℤ), |m| < 2 ^ p ∧ x = m * 2 ^ k

/-- `t` is nearest to `x` among the numbers with at most six significant decimal digits. -/
def NearestSixDigits (x t : ℚ) : Prop := SixDigits t ∧ ∀ z, SixDigits z → |t - x| ≤ |z - x|

end Pluto.FloatTextSpec
