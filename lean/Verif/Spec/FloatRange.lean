import Verif.Spec.FloatText
import Verif.Spec.Num

/-!
# Specification of floating-point types with limits and of the texts of decimal numbers
-/

namespace Pluto.FloatTextSpec
open Pluto.NumSpec

/-- `x` is a finite value of the floating-point type with `p` significant bits whose last bit has an exponent from `low` to
`high`. -/
def IsValue (p : ℕ) (low high : ℤ) (x : ℚ) : Prop := ∃ m k : ℤ, |m| < 2 ^ p ∧ low ≤ k ∧ k ≤ high ∧ x = m * 2 ^ k

/-- `y` is nearest to `x` among the numbers with `P`. -/
def Nearest (P : ℚ → Prop) (x y : ℚ) : Prop := P y ∧ ∀ z, P z → |y - x| ≤ |z - x|

/-- A decimal number as it is written: an optional sign (`true` is minus), digits, optionally a point and more digits,
optionally an exponent: the letter, a sign and digits. -/
structure Numeral where
  sign : Option Bool := none
  whole : List Char
  fraction : Option (List Char) := none
  exponent : Option (Char × Option Bool × List Char) := none

/-- The text of a sign. -/
def signText : Option Bool → List Char
  | none => []
  | some true => ['-']
  | some false => ['+']

/-- The text of an exponent. -/
def exponentText : Option (Char × Option Bool × List Char) → List Char
  | none => []
  | some (c, s, ds) => c :: (signText s ++ ds)

/-- The text of a point and the digits behind it. -/
def fractionText : Option (List Char) → List Char
  | none => []
  | some ds => '.' :: ds

/-- The text. -/
def Numeral.text (n : Numeral) : List Char :=
  signText n.sign ++ n.whole ++ fractionText n.fraction ++ exponentText n.exponent

/-- The exponent as a number. -/
def exponentValue : Option (Char × Option Bool × List Char) → ℤ
  | none => 0
  | some (_, s, ds) => if s = some true then -(value 10 ds : ℤ) else value 10 ds

/-- The number that is written. -/
def Numeral.number (n : Numeral) : ℚ :=
  (if n.sign = some true then -1 else 1) *
    (value 10 (n.whole ++ n.fraction.getD []) * 10 ^ (exponentValue n.exponent - (n.fraction.getD []).length))

/-- Digits are digits, there is at least one, and one in the exponent if there is an exponent. -/
structure Numeral.Good (n : Numeral) : Prop where
  whole : ∀ c ∈ n.whole, c.isDigit = true
  fraction : ∀ c ∈ n.fraction.getD [], c.isDigit = true
  digit : n.whole ++ n.fraction.getD [] ≠ []
  exponent : ∀ c s ds, n.exponent = some (c, s, ds) → (c = 'e' ∨ c = 'E') ∧ ds ≠ [] ∧ ∀ d ∈ ds, d.isDigit = true

/-- What follows does not go on with the numeral. -/
def Numeral.Ends (n : Numeral) (rest : List Char) : Prop :=
  ∀ c, rest.head? = some c → c.isDigit = false ∧ (n.exponent = none → c ≠ 'e' ∧ c ≠ 'E' ∧ (n.fraction = none → c ≠ '.'))

end Pluto.FloatTextSpec
