import Verif.Model.NumLocale

/-!
# What is assumed of locales, and two examples

The separator of a locale is neither a digit nor a sign.
-/

namespace Pluto.Num

/-- The separator is neither a digit nor a sign. -/
structure Punct.Sane (p : Punct) : Prop where
  digit : p.sep.isDigit = false
  minus : p.sep ≠ '-'
  plus : p.sep ≠ '+'

/-- Neither is the decimal point, nor is one of them the other or the letter that begins an exponent. -/
structure Punct.SanePoint (p : Punct) : Prop extends p.Sane where
  point : p.point.isDigit = false
  other : p.sep ≠ p.point
  exponent : p.sep ≠ 'e' ∧ p.point ≠ 'e'

/-- A number of which no digits are separated: the locale has no groups, or the first one holds all digits. -/
def Punct.Short (p : Punct) (n : Nat) : Prop := ∀ g, p.grouping.head? = some g → g = 0 ∨ n < 10 ^ g

/-- "en_US": a comma after every three digits. -/
def american : Punct := { sep := ',', grouping := [3] }

/-- "de_DE": a period after every three digits, and a comma for the decimal point. -/
def german : Punct := { sep := '.', grouping := [3], point := ',' }

/-- "en_IN": a comma after three digits, then after every two. -/
def indian : Punct := { sep := ',', grouping := [3, 2] }

end Pluto.Num
