/-!
# Specification of floating-point numbers and of rounding
-/

namespace Pluto.FloatSpec

/-- The integers that a binary floating-point type with `p` significant bits can hold. -/
def Representable (p : Nat) (d : Int) : Prop := ∃ (m : Int) (e : Nat), m.natAbs < 2 ^ p ∧ d = m * 2 ^ e

/-- `r` is an integer nearest to `m / 2^s`, and if there are two, the one farther from zero. -/
def IsRound (m : Int) (s : Nat) (r : Int) : Prop :=
  (∀ t : Int, (r * 2 ^ s - m).natAbs ≤ (t * 2 ^ s - m).natAbs) ∧
    ∀ t : Int, t ≠ r → (r * 2 ^ s - m).natAbs = (t * 2 ^ s - m).natAbs → t.natAbs < r.natAbs

end Pluto.FloatSpec
