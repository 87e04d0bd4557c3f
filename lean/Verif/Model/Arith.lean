import Verif.Model.Num
import Verif.Model.FloatText

/-!
# Model of `sum`, `count` and the comparison objects for the arithmetic types of C++

`sum(container, value)` (`container.hpp` 294-305) is `value += elem` for each element, where `Value` and the type of the
elements may be different arithmetic types; `count` and `is_equal` to `is_greater_equal` (`compare.hpp` 40-45, which are
`std::equal_to<>` and so on) compare values of different types.  In `Verif.Model.Seq` the addition and the comparison are
parameters; here they are those of the language, with the integral promotions and the usual arithmetic conversions
([conv.prom], [expr.arith.conv]).  `int` has 32 bits.  An integer type is its width and signedness, which suffices: types
of the same width and different rank have the same values.  Characters count as integers, `bool` is separate.
Floating-point numbers are as in `Verif.Model.FloatText` (no limits of the exponent, no infinities, no NaN).
-/

namespace Pluto.Arith
open Pluto.Num

/-- `int`.  The type of `bool` and narrow operands in `container.hpp` 301. -/
def int : IntType := ⟨32, true⟩

/-- Integral promotion, [conv.prom]: `int` can hold all values of a narrower type.
For `+=` in `container.hpp` 294-305 and the comparisons in `compare.hpp` 40-45. -/
def promote (t : IntType) : IntType := if t.bits < 32 then int else t

/-- The type to which both operands are converted, [expr.arith.conv]: with the same signedness the wider one, otherwise the
unsigned one unless the signed one is wider.
For `+=` in `container.hpp` 294-305 and the comparisons in `compare.hpp` 40-45. -/
def common (t u : IntType) : IntType :=
  let t := promote t
  let u := promote u
  if t.signed = u.signed then (if t.bits < u.bits then u else t)
  else if t.signed then (if u.bits < t.bits then t else u)
  else (if t.bits < u.bits then u else t)

/-- Conversion to an integer type, [conv.integral]: modulo `2^bits` (C++20; before that implementation-defined for signed
types, and this on every compiler the library supports).  For `container.hpp` 301. -/
def toType (t : IntType) (v : Int) : Int :=
  if t.signed then (v + 2 ^ (t.bits - 1)) % 2 ^ t.bits - 2 ^ (t.bits - 1) else v % 2 ^ t.bits

/-- `value + elem` in the type `c`, [expr.pre]: a signed overflow is undefined.
For `+=` in `container.hpp` 294-305 and the comparisons in `compare.hpp` 40-45. -/
def add (c : IntType) (a b : Int) : Res Int :=
  if c.signed then (if a + b < c.min ∨ c.max < a + b then .error .undefined else .ok (a + b))
  else .ok ((a + b) % 2 ^ c.bits)

/-- `sum(container, value)`, `container.hpp` 294-305, for a value of the integer type `t` and elements of type `u`. -/
def sum (t u : IntType) : List Int → Int → Res Int
  | [], value => .ok value
  | elem :: elems, value =>
    match add (common t u) (toType (common t u) value) (toType (common t u) elem) with
    | .error e => .error e
    | .ok r => sum t u elems (toType t r)

/-- A `bool` as an `int`.  For `+=` in `container.hpp` 294-305 and the comparisons in `compare.hpp` 40-45. -/
def ofBool (b : Bool) : Int := if b then 1 else 0

/-- `sum(container, value)`, `container.hpp` 294-305, for `bool`: the sum of two `int`s is converted to `bool`. -/
def sumBool : List Bool → Bool → Bool
  | [], value => value
  | elem :: elems, value => sumBool elems (ofBool value + ofBool elem != 0)

/-- `sum(container, value)`, `container.hpp` 294-305, for a floating-point type with `p` significant bits. -/
def sumFloat (p : Nat) : List ℚ → ℚ → ℚ
  | [], value => value
  | elem :: elems, value => sumFloat p elems (FloatText.toBinary p (value + elem))

/-- Conversion of a floating-point number to an integer type, [conv.fpint]: the fraction is dropped, and it is undefined if
the type does not have the result.  For `+=` in `container.hpp` 294-305 and the comparisons in `compare.hpp` 40-45. -/
def truncate (t : IntType) (x : ℚ) : Res Int :=
  let n : Int := if x < 0 then -⌊-x⌋ else ⌊x⌋
  if n < t.min ∨ t.max < n then .error .undefined else .ok n

/-- `sum(container, value)`, `container.hpp` 294-305, for a value of the integer type `t` and elements of a floating-point
type with `p` significant bits, in which they are added. -/
def sumTruncated (t : IntType) (p : Nat) : List ℚ → Int → Res Int
  | [], value => .ok value
  | elem :: elems, value =>
    match truncate t (FloatText.toBinary p (FloatText.toBinary p value + elem)) with
    | .error e => .error e
    | .ok r => sumTruncated t p elems r

/-- `is_equal{}(left, right)`, `compare.hpp` 40, for values of the types `t` and `u`. -/
def isEqual (t u : IntType) (a b : Int) : Bool := decide (toType (common t u) a = toType (common t u) b)

/-- `is_not_equal{}(left, right)`, `compare.hpp` 41. -/
def isNotEqual (t u : IntType) (a b : Int) : Bool := decide (toType (common t u) a ≠ toType (common t u) b)

/-- `is_less{}(left, right)`, `compare.hpp` 42. -/
def isLess (t u : IntType) (a b : Int) : Bool := decide (toType (common t u) a < toType (common t u) b)

/-- `is_greater{}(left, right)`, `compare.hpp` 43. -/
def isGreater (t u : IntType) (a b : Int) : Bool := decide (toType (common t u) a > toType (common t u) b)

/-- `is_less_equal{}(left, right)`, `compare.hpp` 44. -/
def isLessEqual (t u : IntType) (a b : Int) : Bool := decide (toType (common t u) a ≤ toType (common t u) b)

/-- `is_greater_equal{}(left, right)`, `compare.hpp` 45. -/
def isGreaterEqual (t u : IntType) (a b : Int) : Bool := decide (toType (common t u) a ≥ toType (common t u) b)

/-- Loop of `count(container, value)`, `container.hpp` 266-272, for elements of type `t` and a value of type `u`. -/
def countLoop (t u : IntType) (value : Int) : List Int → Nat → Nat
  | [], result => result
  | elem :: elems, result => countLoop t u value elems (if isEqual t u elem value then result + 1 else result)

/-- `count(container, value)`, `container.hpp` 260-275. -/
def count (t u : IntType) (elems : List Int) (value : Int) : Nat := countLoop t u value elems 0

/-- `contains_elem(container, elem)`, `container.hpp` 112-118, by `std::find`, which compares `*it == elem`. -/
def containsElem (t u : IntType) (elems : List Int) (value : Int) : Bool := elems.any fun elem => isEqual t u elem value

end Pluto.Arith
