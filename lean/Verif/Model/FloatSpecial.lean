import Verif.Model.Float
import Verif.Model.FloatText
import Verif.Model.Seq
import Verif.Model.Value

/-!
# Floating-point numbers with zeros of both signs, infinities and NaN

A binary floating-point type of IEEE 754.  Every finite number is a multiple of the smallest positive number `2^-u` of
the type (`u` is 149 for `float` and 1074 for `double`); which multiples the type has does not matter here.  The sign of
a NaN is not modelled.
-/

namespace Pluto.FloatSpecial

/-- A value of the type.  A `Value` of `value.hpp` 17-96, or an element in `container.hpp` and `iterator.hpp` 16-250. -/
inductive Fl where
  | nan
  | inf (neg : Bool)
  /-- `mag` times the smallest positive number, with a sign, which zero has too -/
  | fin (neg : Bool) (mag : Nat)
deriving DecidableEq, Repr

/-- The sign bit.  A `Value` of `value.hpp` 17-96, or an element in `container.hpp` and `iterator.hpp` 16-250. -/
def Fl.neg : Fl → Bool
  | .nan => false
  | .inf n => n
  | .fin n _ => n

/-- `<` of the type, IEEE 754 (trusted): false if there is a NaN; zeros are equal.  Used in `value.hpp` 20, 34, 51. -/
def less : Fl → Fl → Bool
  | .fin false a, .fin false b => a < b
  | .fin true a, .fin true b => b < a
  | .fin true a, .fin false b => a != 0 || b != 0
  | .fin false _, .fin true _ => false
  | .inf true, .inf false => true
  | .inf true, .fin _ _ => true
  | .fin _ _, .inf false => true
  | _, _ => false

/-- `==` of the type, IEEE 754 (trusted).  Used in `container.hpp` 268. -/
def equal : Fl → Fl → Bool
  | .fin m a, .fin n b => a == b && (m == n || a == 0)
  | .inf m, .inf n => m == n
  | _, _ => false

/-- `-x`, IEEE 754 (trusted).  Used in `value.hpp` 20. -/
def negate : Fl → Fl
  | .nan => .nan
  | .inf n => .inf !n
  | .fin n m => .fin (!n) m

/-- The comparisons of the type are the ones templates of the library use.
A `Value` of `value.hpp` 17-96, or an element in `container.hpp` and `iterator.hpp` 16-250. -/
instance : LT Fl := ⟨fun a b => less a b = true⟩

/-- `<=` of the type.  A `Value` of `value.hpp` 17-96, or an element in `container.hpp` and `iterator.hpp` 16-250. -/
instance : LE Fl := ⟨fun a b => less a b = true ∨ equal a b = true⟩

/-- `==` is not the equality of values: a NaN differs from itself, the zeros do not.
A `Value` of `value.hpp` 17-96, or an element in `container.hpp` and `iterator.hpp` 16-250. -/
instance (priority := high) : BEq Fl := ⟨equal⟩

/-- A `Value` of `value.hpp` 17-96, or an element in `container.hpp` and `iterator.hpp` 16-250. -/
instance : DecidableLT Fl := fun a b => inferInstanceAs (Decidable (less a b = true))

/-- A `Value` of `value.hpp` 17-96, or an element in `container.hpp` and `iterator.hpp` 16-250. -/
instance : DecidableLE Fl := fun a b => inferInstanceAs (Decidable (less a b = true ∨ equal a b = true))

/-- `abs`, `value.hpp` 17-21; the 0 is converted. -/
def abs (value : Fl) : Fl := if value < .fin false 0 then negate value else value

/-- `min`, `value.hpp` 29-35: the value the result refers to. -/
def min (left right : Fl) : Fl := (Value.min less left right).get left right

/-- `max`, `value.hpp` 46-52. -/
def max (left right : Fl) : Fl := (Value.max less left right).get left right

/-- `round`, `value.hpp` 94-98: `std::round` keeps the sign, NaN and infinities, [C, F.10.6.6]. -/
def round (u : Nat) : Fl → Fl
  | .fin n m => .fin n (Float.roundNat m u * 2 ^ u)
  | x => x

/-- `str`, `string.hpp` 237-243: `printf` writes `inf` and `nan` (the sign of a NaN, which may be written too, is not
modelled). -/
def str (u : Nat) : Fl → List Char
  | .nan => ['n', 'a', 'n']
  | .inf n => if n then ['-', 'i', 'n', 'f'] else ['i', 'n', 'f']
  | .fin n m => (if n then ['-'] else []) ++ FloatText.strFloat (m / 2 ^ u)

end Pluto.FloatSpecial
