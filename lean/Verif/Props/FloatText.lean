import Verif.Proofs.FloatText

/-!
# Properties of the texts of floating-point numbers (C103)

`strFloat x` is `str(x)`, `strToFloat p s` is `str_to<Value>(s)` for a floating-point type with `p` significant bits
(24 for `float`, 53 for `double`).
-/

namespace Pluto.Props
open Pluto.FloatText Pluto.FloatTextSpec Pluto.Num

/-- C103. The text of a number denotes a nearest one among the numbers with at most six significant decimal digits; what
is read back, in whichever type, is that number rounded to the type. -/
theorem C103_digits (x : ℚ) :
    ∃ t, NearestSixDigits x t ∧ ∀ p, strToFloat p (strFloat x) = .ok (toBinary p t) :=
  ⟨shown x, shown_best x, fun p => strToFloat_strFloat p x⟩

/-- C103. The text of a number halfway between two with six digits is that of the one whose last digit is even. -/
theorem C103_even (d : ℕ) (k : ℤ) (h1 : 10 ^ 5 ≤ d) (h2 : d < 10 ^ 6) :
    strFloat (((d : ℚ) + 1 / 2) * 10 ^ k) = strFloat ((if d % 2 = 0 then d else d + 1) * 10 ^ k) := by
  rw [← strFloat_shown (((d : ℚ) + 1 / 2) * 10 ^ k), decimal_half d k h1 h2]

/-- C103. What is read back differs from the number by less than a hundred-thousandth of it. -/
theorem C103_error (p : ℕ) (hp : 21 ≤ p) (x : ℚ) :
    ∃ y, strToFloat p (strFloat x) = .ok y ∧ |y - x| ≤ |x| / 10 ^ 5 := by
  refine ⟨_, strToFloat_strFloat p x, ?_⟩
  have h1 := toBinary_err p (shown x)
  have h2 := shown_err x
  have h3 : |shown x| ≤ 2 * |x| := by
    have := abs_sub_abs_le_abs_sub (shown x) x
    have := abs_nonneg x
    linarith
  have h4 : |shown x| / 2 ^ p ≤ |shown x| / 2 ^ 21 := by
    have := pow_le_pow_right₀ (show (1 : ℚ) ≤ 2 by norm_num) hp
    gcongr
  have h5 := abs_sub_le (toBinary p (shown x)) (shown x) x
  have := abs_nonneg x
  norm_num at h2 h4 ⊢
  linarith

/-- C103. The text of what is read back is the same text: nothing more is lost. -/
theorem C103_stable (p : ℕ) (hp : 21 ≤ p) (x y : ℚ) (h : strToFloat p (strFloat x) = .ok y) :
    strFloat y = strFloat x := by
  rw [strToFloat_strFloat] at h
  cases h
  exact strFloat_toBinary p hp x

/-- C103 (partial: only for numbers with at most six significant digits). The value of a floating-point type nearest to
such a number is read back from its text unchanged. -/
theorem C103_round_trip_partial (p : ℕ) (hp : 21 ≤ p) (z : ℚ) (hz : SixDigits z) :
    strToFloat p (strFloat (toBinary p z)) = .ok (toBinary p z) := by
  rw [strToFloat_strFloat, shown_toBinary p hp z hz]

/-- C103 (partial: only for integers below a million). An integer is read back unchanged. -/
theorem C103_integer_partial (p : ℕ) (hp : 21 ≤ p) (v : ℤ) (hv : |v| < 10 ^ 6) :
    strToFloat p (strFloat v) = .ok (v : ℚ) := by
  have hb : Bits p v := bits_int p v (lt_of_lt_of_le hv (by
    calc (10 : ℤ) ^ 6 ≤ 2 ^ 21 := by norm_num
      _ ≤ 2 ^ p := pow_le_pow_right₀ (by norm_num) hp))
  have := C103_round_trip_partial p hp v ⟨v, 0, hv, by simp⟩
  rwa [toBinary_exact p v hb] at this

/-- C103. Different numbers with at most six significant digits have different texts. -/
theorem C103_distinct (p : ℕ) (hp : 21 ≤ p) (y z : ℚ) (hy : SixDigits y) (hz : SixDigits z)
    (h : strFloat (toBinary p y) = strFloat (toBinary p z)) : y = z := by
  have e1 := shown_toBinary p hp y hy
  have e2 := shown_toBinary p hp z hz
  have hq : ∀ q, toBinary q y = toBinary q z := by
    intro q
    have h1 := strToFloat_strFloat q (toBinary p y)
    have h2 := strToFloat_strFloat q (toBinary p z)
    rw [h, h2, e1, e2] at h1
    exact (Except.ok.inj h1).symm
  have := hq p
  rw [← e1, this, e2]

/-- C103. Reading is undefined exactly if the text is blank. -/
theorem C103_blank (p : ℕ) (s : List Char) :
    strToFloat p s = .error .undefined ↔ ∀ c ∈ s, isSpace c = true := by
  rw [← dropWhile_nil]
  unfold strToFloat readNumber
  cases s.dropWhile isSpace <;> simp

/-- C103 fails for numbers with more digits: 1234567 and 1234568, which are values of `float` and `double`, have the same
text, and what is read back is neither. -/
theorem C103_fails (p : ℕ) (hp : 21 ≤ p) :
    Bits p 1234567 ∧ Bits p 1234568 ∧ strFloat 1234567 = strFloat 1234568 ∧
      strToFloat p (strFloat 1234567) = .ok 1234570 := by
  have h2 : (2 : ℤ) ^ 21 ≤ 2 ^ p := pow_le_pow_right₀ (by norm_num) hp
  have b : ∀ v : ℤ, |v| < 2 ^ 21 → Bits p v := fun v hv => bits_int p v (lt_of_lt_of_le hv h2)
  have s1 : shown 1234567 = 1234570 := by
    rw [shown_of 1234567 123457 1 (by norm_num) (by norm_num) (by norm_num) (by rw [abs_lt]; norm_num)]; norm_num
  have s2 : shown 1234568 = 1234570 := by
    rw [shown_of 1234568 123457 1 (by norm_num) (by norm_num) (by norm_num) (by rw [abs_lt]; norm_num)]; norm_num
  refine ⟨by simpa using b 1234567 (by norm_num), by simpa using b 1234568 (by norm_num),
    strFloat_eq_of_shown (by rw [s1, s2]), ?_⟩
  rw [strToFloat_strFloat, s1, toBinary_exact p 1234570 (by simpa using b 1234570 (by norm_num))]

/-- The texts in the three forms. -/
example : general 123457 6 = "1.23457e+06".toList ∧ general 100000 (-5) = "1e-05".toList ∧
    general 123457 (-4) = "0.000123457".toList ∧ general 100000 2 = "100".toList ∧
    general 333333 (-1) = "0.333333".toList ∧ general 314159 0 = "3.14159".toList := by decide

/-- A tenth has one digit, and is not a value of a floating-point type. -/
example : SixDigits (1 / 10) := ⟨1, -1, by norm_num, by norm_num⟩

/-- -999999 is read back. -/
example : strToFloat 24 (strFloat (-999999 : ℤ)) = .ok ((-999999 : ℤ) : ℚ) :=
  C103_integer_partial 24 (by norm_num) _ (by norm_num)

/-- Of a text that does not begin with a number 0 is read, also of an exponent without digits. -/
example (p : ℕ) : strToFloat p "x1".toList = .ok 0 ∧ strToFloat p "1e".toList = .ok 0 := by
  constructor <;> simp [strToFloat, readNumber, readSign, readDecimal, readFraction, readExponent, toBinary, isSpace, readDigits]

end Pluto.Props
