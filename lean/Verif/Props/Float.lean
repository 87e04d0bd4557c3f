import Verif.Proofs.Float

/-!
# Properties of `round` and `pow` (C101)
-/

namespace Pluto.Props
open Pluto.FloatSpec Pluto.Float

/-- C101. `round` of a floating-point number is the nearest integer, halfway cases away from zero,
and a number of the same type. -/
theorem C101_round (p : Nat) (hp : 0 < p) (x : Num) (hx : x.m.natAbs < 2 ^ p) :
    (0 ≤ x.e → round x = x.m * 2 ^ x.e.toNat) ∧
      (x.e < 0 → IsRound x.m (-x.e).toNat (round x)) ∧ Representable p (round x) := by
  refine ⟨fun h => by simp [round, h], ?_, ?_⟩
  · intro h
    unfold round
    rw [if_neg (by omega)]
    split
    · have := isRound_neg (isRound_nat x.m.natAbs (-x.e).toNat)
      rwa [show -(x.m.natAbs : Int) = x.m by omega] at this
    · have := isRound_nat x.m.natAbs (-x.e).toNat
      rwa [show (x.m.natAbs : Int) = x.m by omega] at this
  · unfold round
    split
    · exact ⟨x.m, x.e.toNat, hx, rfl⟩
    · have hle : roundNat x.m.natAbs (-x.e).toNat ≤ 2 ^ p := roundNat_le _ _ _ hx
      have hrep := representable_le (k := 0) hp hle
      rw [Nat.pow_zero, Nat.mul_one] at hrep
      split
      · exact representable_neg hrep
      · exact hrep

/-- C101. An integer that `round` and `pow` convert to a floating-point type becomes the nearest
number of that type, with a relative error of at most `2^-p`; it is kept exactly if and only if it
has at most `p` significant bits. -/
theorem C101_convert (p : Nat) (hp : 0 < p) (v : Int) :
    Representable p (toFloat p v) ∧
      (∀ d, Representable p d → (toFloat p v - v).natAbs ≤ (d - v).natAbs) ∧
      (toFloat p v - v).natAbs * 2 ^ p ≤ v.natAbs ∧ (toFloat p v = v ↔ Representable p v) := by
  refine ⟨toFloat_representable p v hp, toFloat_nearest p v hp, ?_, ?_, ?_⟩
  · have := natToFloat_error p v.natAbs hp
    rcases toFloat_cases p v with ⟨h, hv⟩ | ⟨h, hv⟩
    · rwa [h, show ((natToFloat p v.natAbs : Int) - v) = (natToFloat p v.natAbs : Int) - v.natAbs by omega]
    · rwa [h, show (-(natToFloat p v.natAbs : Int) - v).natAbs =
        ((natToFloat p v.natAbs : Int) - v.natAbs).natAbs by omega]
  · intro h; rw [← h]; exact toFloat_representable p v hp
  · intro h
    have := toFloat_nearest p v hp v h
    omega

/-- C101 (partial: integers with more than 53 significant bits are missing). `round` of an integer
is that integer, and `pow` of integers is `std::pow` of them, in particular for all integers of at
most 32 bits. -/
theorem C101_int_partial :
    (∀ v, roundInt v = v ↔ Representable 53 v) ∧
      (∀ {β : Type} (stdPow : Int → Int → β) (v w : Int), Representable 53 v → Representable 53 w →
        pow stdPow v w = stdPow v w) ∧
      ∀ v : Int, v.natAbs ≤ 2 ^ 53 → Representable 53 v := by
  refine ⟨?_, ?_, ?_⟩
  · intro v
    have : roundInt v = toFloat 53 v := by simp [roundInt, round]
    rw [this]
    exact (C101_convert 53 (by omega) v).2.2.2
  · intro β stdPow v w hv hw
    simp only [pow]
    rw [((C101_convert 53 (by omega) v).2.2.2).2 hv, ((C101_convert 53 (by omega) w).2.2.2).2 hw]
  · intro v hv
    have hrep := representable_le (k := 0) (by omega) hv
    rw [Nat.pow_zero, Nat.mul_one] at hrep
    rcases show v = v.natAbs ∨ v = -(v.natAbs : Int) by omega with h | h
    · rw [h]; exact hrep
    · rw [h]; exact representable_neg hrep

/-- C101 fails for larger integers: `round` changes them, and whatever `std::pow` is, `pow` cannot
tell different integers apart. -/
theorem C101_fails :
    roundInt (2 ^ 53 + 1) = 2 ^ 53 ∧ roundInt (2 ^ 63 - 1) = 2 ^ 63 ∧
      ∀ {β : Type} (stdPow : Int → Int → β) (w : Int), pow stdPow (2 ^ 53 + 1) w = pow stdPow (2 ^ 53) w := by
  have h1 : toFloat 53 (2 ^ 53 + 1) = 2 ^ 53 := by decide
  have h2 : toFloat 53 (2 ^ 53) = 2 ^ 53 := by decide
  refine ⟨by decide, by decide, ?_⟩
  intro β stdPow w
  simp only [pow]
  rw [h1, h2]

/-- 2.5 and -2.5 are rounded away from zero, 2.25 and -2.75 to the nearest integer. -/
example : round ⟨5, -1⟩ = 3 ∧ round ⟨-5, -1⟩ = -3 ∧ round ⟨9, -2⟩ = 2 ∧ round ⟨-11, -2⟩ = -3 := by decide

/-- Halfway cases of the conversion go to the even significand. -/
example : toFloat 53 (2 ^ 53 + 3) = 2 ^ 53 + 4 ∧ toFloat 53 (-(2 ^ 53 + 1)) = -2 ^ 53 ∧
    toFloat 24 16777219 = 16777220 := by decide

end Pluto.Props
