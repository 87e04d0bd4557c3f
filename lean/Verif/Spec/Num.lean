/-!
# Reading numbers

Independent of the model: the value of a numeral.
-/

namespace Pluto.NumSpec

/-- The value of a digit: `'0'..'9'` are 0 to 9, `'a'..'f'` are 10 to 15. -/
def digitValue (c : Char) : Nat :=
  if c.isDigit then c.toNat - '0'.toNat else c.toNat - 'a'.toNat + 10

/-- The value of a numeral in base `b`, most significant digit first. -/
def value (b : Nat) (s : List Char) : Nat :=
  s.foldl (fun acc c => acc * b + digitValue c) 0

end Pluto.NumSpec
