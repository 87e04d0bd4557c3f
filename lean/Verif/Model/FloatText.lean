import Verif.Model.Num
import Mathlib.Data.Int.Log
import Mathlib.Data.Rat.Floor

/-!
# Model of `str` and `str_to` of `include/pluto/string.hpp` for floating-point numbers

`str(value)` (237-243) is `ostringstream << value`, which is `%.6g` ([facet.num.put.virtuals]: the default precision is
6, no flags are set); `str_to<Value>(string)` (295-301) is `istringstream >> value`, which is `strtod`
([facet.num.get.virtuals]).  A number is a rational number; a floating-point type is its number of significant bits.
Not modelled: infinities, NaN, negative zero (`FloatSpecial`), the limits of the exponent (`FloatRange`), hexadecimal
input.  Both directions are
correctly rounded, as the C standard recommends and the usual libraries do.  Reading stops at the first character that
cannot belong to a decimal number, as in libstdc++ (the standard lets letters `a` to `f` be collected and then fail).
-/

namespace Pluto.FloatText
open Pluto.Num

/-- The nearest integer, halfway cases to the even one.  For `string.hpp` 237-243 and 295-301. -/
def roundEven (y : ℚ) : ℤ :=
  let f := ⌊y⌋
  if y - f < 1 / 2 then f else if 1 / 2 < y - f then f + 1 else if f % 2 = 0 then f else f + 1

/-- The number with `p` significant bits nearest to a positive number.  For `str_to`, `string.hpp` 295-301. -/
def nearest (p : ℕ) (x : ℚ) : ℚ :=
  let e := Int.log 2 x - (p - 1)
  roundEven (x / 2 ^ e) * 2 ^ e

/-- The number with `p` significant bits nearest to a number.  For `str_to`, `string.hpp` 295-301. -/
def toBinary (p : ℕ) (x : ℚ) : ℚ := if x = 0 then 0 else if x < 0 then -nearest p (-x) else nearest p x

/-- Rounding of a positive number to six significant decimal digits: the digits as a number and the exponent of the first
digit.  For `str`, `string.hpp` 237-243. -/
def decimal (x : ℚ) : ℕ × ℤ :=
  let e := Int.log 10 x
  let d := (roundEven (x / 10 ^ (e - 5))).toNat
  if d = 10 ^ 6 then (10 ^ 5, e + 1) else (d, e)

/-- `%g` removes trailing zeros.  For `str`, `string.hpp` 237-243. -/
def stripZeros (s : List Char) : List Char := (s.reverse.dropWhile (· == '0')).reverse

/-- The decimal point is written only if digits follow.  For `str`, `string.hpp` 237-243. -/
def point (s : List Char) : List Char := if s.isEmpty then [] else '.' :: s

/-- The exponent, with a sign and at least two digits.  For `str`, `string.hpp` 237-243. -/
def exponentText (e : ℤ) : List Char :=
  'e' :: (if e < 0 then '-' else '+') ::
    (if e.natAbs < 10 then '0' :: Nat.toDigits 10 e.natAbs else Nat.toDigits 10 e.natAbs)

/-- `%.6g` of a positive number, of which the digits `d` and the exponent `e` are given: scientific notation if the
exponent is less than -4 or at least 6.  For `string.hpp` 237-243. -/
def general (d : ℕ) (e : ℤ) : List Char :=
  let ds := Nat.toDigits 10 d
  if e < -4 ∨ 6 ≤ e then ds.take 1 ++ point (stripZeros (ds.drop 1)) ++ exponentText e
  else if e < 0 then '0' :: point (stripZeros (List.replicate (-e - 1).toNat '0' ++ ds))
  else ds.take (e + 1).toNat ++ point (stripZeros (ds.drop (e + 1).toNat))

/-- `str(value)`, `string.hpp` 237-243, for a floating-point number. -/
def strFloat (x : ℚ) : List Char :=
  if x = 0 then ['0']
  else if x < 0 then '-' :: general (decimal (-x)).1 (decimal (-x)).2
  else general (decimal x).1 (decimal x).2

/-- A sign, if there is one: whether it is a minus, and the rest.  For `str_to`, `string.hpp` 295-301. -/
def readSign : List Char → Bool × List Char
  | '-' :: s => (true, s)
  | '+' :: s => (false, s)
  | s => (false, s)

/-- The digits behind a decimal point, and the rest.  For `str_to`, `string.hpp` 295-301. -/
def readFraction : List Char → List Char × List Char
  | '.' :: s => (s.takeWhile Char.isDigit, s.dropWhile Char.isDigit)
  | s => ([], s)

/-- The exponent: 0 if there is none, and `none` if there is an `e` without digits, in which case nothing is
converted.  For `string.hpp` 295-301. -/
def readExponent : List Char → Option ℤ
  | [] => some 0
  | c :: s =>
    if c = 'e' ∨ c = 'E' then
      let r := readSign s
      let m := readDigits r.2 false 0
      if m.1 then some (if r.1 then -(m.2 : ℤ) else m.2) else none
    else some 0

/-- The decimal number without sign at the beginning of a text, exactly; 0 if there is none.  For `string.hpp` 295-301. -/
def readDecimal (s : List Char) : ℚ :=
  let a := s.takeWhile Char.isDigit
  let r := readFraction (s.dropWhile Char.isDigit)
  if (a ++ r.1).isEmpty then 0
  else match readExponent r.2 with
    | none => 0
    | some e => (readDigits (a ++ r.1) false 0).2 * 10 ^ (e - r.1.length)

/-- The number that `istringstream >> value` reads in `str_to<Value>(string)`, `string.hpp` 298-299, exactly: white space
is skipped; if nothing follows, `value` stays indeterminate. -/
def readNumber (s : List Char) : Res ℚ :=
  match s.dropWhile isSpace with
  | [] => .error .undefined
  | c :: s =>
    let r := readSign (c :: s)
    .ok (if r.1 then -readDecimal r.2 else readDecimal r.2)

/-- `str_to<Value>(string)`, `string.hpp` 295-301, for a floating-point type with `p` significant bits. -/
def strToFloat (p : ℕ) (s : List Char) : Res ℚ :=
  match readNumber s with
  | .error e => .error e
  | .ok x => .ok (toBinary p x)

end Pluto.FloatText
