import Mathlib.Algebra.BigOperators.Group.List.Basic
import Mathlib.Algebra.Order.Ring.Int
import Mathlib.Data.Rat.Defs
import Mathlib.Algebra.Order.Ring.Rat

/-!
# Specification of sums and comparisons of C++ integers
-/

namespace Pluto.ArithSpec

/-- `v` is a value of the integer type with `bits` bits. -/
def Holds (bits : Nat) (signed : Bool) (v : Int) : Prop :=
  if signed then -2 ^ bits ≤ 2 * v ∧ 2 * v < 2 ^ bits else 0 ≤ v ∧ v < 2 ^ bits

/-- The two types have at most 16 bits: `char`, `short` and so on. -/
def Narrow (bits bits' : Nat) : Prop := bits ≤ 16 ∧ bits' ≤ 16

/-- The first type is unsigned, not narrower than `int` and not narrower than the second type. -/
def Unsigned (bits : Nat) (signed : Bool) (bits' : Nat) : Prop := signed = false ∧ 32 ≤ bits ∧ bits' ≤ bits

/-- The numbers are added as unsigned numbers: one of the types is unsigned, not narrower than `int` and not narrower than
the other. -/
def AddsUnsigned (bits : Nat) (signed : Bool) (bits' : Nat) (signed' : Bool) : Prop :=
  Unsigned bits signed bits' ∨ Unsigned bits' signed' bits

/-- All partial sums, the whole one too, have `P`. -/
def Partial (P : Int → Prop) (v : Int) (xs : List Int) : Prop := ∀ k ≤ xs.length, P (v + (xs.take k).sum)

end Pluto.ArithSpec
