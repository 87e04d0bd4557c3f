import Verif.Model.FloatText

/-!
# Model of `str_to` of `include/pluto/string.hpp` for `float` and `double`, with the limits of the exponent

In `Verif.Model.FloatText` a floating-point type is its number of significant bits.  Here it has also a smallest and a
largest exponent, so there are subnormal numbers and a largest number.  A decimal number that is too large makes
`istringstream >> value` fail, which `str_to` does not look at, after `numeric_limits<Value>::max()` has been stored
([facet.num.get.virtuals]); one that is too small is rounded, in the end to 0, as in glibc and libstdc++.  Not modelled:
negative zero, hexadecimal input.
-/

namespace Pluto.FloatText
open Pluto.Num

/-- A floating-point type: the number of significant bits, and the exponents of the last bit of the smallest and of the
largest numbers.  The type `Value` of `str_to`, `string.hpp` 295-301. -/
structure Format where
  bits : ℕ
  low : ℤ
  high : ℤ
deriving DecidableEq, Repr

/-- `float` (IEC 60559 binary32).  A `Value` of `string.hpp` 295-301. -/
def float : Format := ⟨24, -149, 104⟩

/-- `double` (IEC 60559 binary64).  A `Value` of `string.hpp` 295-301. -/
def double : Format := ⟨53, -1074, 971⟩

/-- `numeric_limits<Value>::max()`.  The type `Value` of `str_to`, `string.hpp` 295-301. -/
def Format.max (t : Format) : ℚ := (2 ^ t.bits - 1) * 2 ^ t.high

/-- A positive number rounded to the bits that numbers of this size have, as `strtod` does if it does not find the result
too large: halfway cases to the even one.  The type `Value` of `str_to`, `string.hpp` 295-301. -/
def Format.nearest (t : Format) (x : ℚ) : ℚ :=
  let e := Max.max (Int.log 2 x - (t.bits - 1)) t.low
  roundEven (x / 2 ^ e) * 2 ^ e

/-- What is stored for a positive number.  The type `Value` of `str_to`, `string.hpp` 295-301. -/
def Format.store (t : Format) (x : ℚ) : ℚ := if t.max < t.nearest x then t.max else t.nearest x

/-- What is stored for a number.  The type `Value` of `str_to`, `string.hpp` 295-301. -/
def Format.round (t : Format) (x : ℚ) : ℚ := if x = 0 then 0 else if x < 0 then -t.store (-x) else t.store x

/-- `str_to<Value>(string)`, `string.hpp` 295-301, for a floating-point type with limits. -/
def strToReal (t : Format) (s : List Char) : Res ℚ :=
  match readNumber s with
  | .error e => .error e
  | .ok x => .ok (t.round x)

end Pluto.FloatText
