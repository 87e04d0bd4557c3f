/-!
# Model of `pow` and `round` of `value.hpp`, lines 63-98

Numbers are exact: infinities, NaN and the limits of the exponent are not modelled (no integer of
at most 64 bits, and no rounding of a finite number, reaches them).  The rounding mode is the
default one, to nearest.
-/

namespace Pluto.Float

/-- Conversion of a natural number to a binary floating-point type with `p` significant bits,
[conv.fpint]: the nearest number of the type, of two equally near ones the one with an even
significand (IEEE 754).  The `static_cast` in `value.hpp` 89. -/
def natToFloat (p n : Nat) : Nat :=
  if n < 2 ^ p then n
  else
    let k := n.log2 + 1 - p
    let q := n / 2 ^ k
    let r := n % 2 ^ k
    if 2 ^ k < 2 * r ∨ (2 * r = 2 ^ k ∧ q % 2 = 1) then (q + 1) * 2 ^ k else q * 2 ^ k

/-- Conversion of an integer.  The `static_cast` in `value.hpp` 89. -/
def toFloat (p : Nat) (v : Int) : Int :=
  if v < 0 then -(natToFloat p v.natAbs : Int) else natToFloat p v.natAbs

/-- A finite floating-point number: `m * 2^e`.  For `value.hpp` 63-96. -/
structure Num where
  m : Int
  e : Int
deriving DecidableEq, Repr

/-- `std::round` of `|m| * 2^(-s)`: to the nearest integer, halfway cases away from zero.  `value.hpp` 95. -/
def roundNat (m s : Nat) : Nat := (2 * m + 2 ^ s) / 2 ^ (s + 1)

/-- `round`, `value.hpp` 94-98, of a floating-point number. -/
def round (x : Num) : Int :=
  if 0 ≤ x.e then x.m * 2 ^ x.e.toNat
  else if x.m < 0 then -(roundNat x.m.natAbs (-x.e).toNat : Int) else roundNat x.m.natAbs (-x.e).toNat

/-- `round`, `value.hpp` 94-98, of an integer: the overload of `std::round` for integers converts
its argument to `double` (`p = 53`), [cmath.syn]. -/
def roundInt (v : Int) : Int := round ⟨toFloat 53 v, 0⟩

/-- `pow` of two values of the same type other than `float`, `double` and `long double`,
`value.hpp` 84-90: both are converted to `double`.  `stdPow` is `std::pow`, whose result the
standard does not fix. -/
def pow {β : Type} (stdPow : Int → Int → β) (value power : Int) : β :=
  stdPow (toFloat 53 value) (toFloat 53 power)

end Pluto.Float
