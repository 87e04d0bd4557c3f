import Verif.Spec.Unicode

/-! # The order of strings (C155) -/

namespace Pluto.Spec

/-- `std::basic_string::operator<`: by the first unit that differs, and a proper prefix comes first.  `num` is the number of
a unit in the order of `std::char_traits`, which is that of unsigned numbers for `char`, `char16_t` and `char32_t`. -/
inductive Below {α : Type} (num : α → Nat) : List α → List α → Prop
  | nil (b : α) (y : List α) : Below num [] (b :: y)
  | head (a b : α) (x y : List α) : num a < num b → Below num (a :: x) (b :: y)
  | tail (a : α) (x y : List α) : Below num x y → Below num (a :: x) (a :: y)

/-- The number of a UTF-32 unit as `wchar_t` of 32 bits, which is signed. -/
def signed32 (x : UInt32) : Int := if x.toNat < 2 ^ 31 then x.toNat else x.toNat - 2 ^ 32

/-- A character that UTF-16 encodes by one unit above those of all pairs. -/
def High (c : Char) : Prop := 0xE000 ≤ c.toNat ∧ c.toNat < 0x10000

/-- A character that UTF-16 encodes by two units. -/
def Pair (c : Char) : Prop := 0x10000 ≤ c.toNat

/-- The first characters in which the texts differ are of the two kinds. -/
def Mixed (s t : List Char) : Prop :=
  ∃ p c d s' t', s = p ++ c :: s' ∧ t = p ++ d :: t' ∧ (High c ∧ Pair d ∨ Pair c ∧ High d)

end Pluto.Spec
