import Verif.Proofs.FloatRange

/-!
# Properties of the texts of `float` and `double`, with the limits of the exponent (C137)

`strFloat x` is `str(x)`, `strToReal t s` is `str_to<Value>(s)` for a floating-point type `t` such as `float` and `double`.
-/

namespace Pluto.Props
open Pluto.FloatText Pluto.FloatTextSpec Pluto.Num

/-- C137. Of a text that begins, after white space, with a decimal number that does not go on, a value of the type is read
than which none is nearer to the number: also if the number is too large or too small for the type. -/
theorem C137_read (t : Format) (hp : 1 ≤ t.bits) (hlh : t.low ≤ t.high) (sp : List Char) (n : Numeral) (r : List Char)
    (hsp : ∀ c ∈ sp, isSpace c = true) (h : n.Good) (hr : n.Ends r) :
    ∃ y, strToReal t (sp ++ n.text ++ r) = .ok y ∧ Nearest (IsValue t.bits t.low t.high) n.number y := by
  refine ⟨t.round n.number, ?_, t.round_nearest hp hlh _⟩
  rw [strToReal, readNumber_numeral sp n r hsp h hr]

/-- C137. A number that is too large is read as the largest value, positive or negative, and one less than half the
smallest positive value as 0. -/
theorem C137_limit (t : Format) (hp : 1 ≤ t.bits) (hlh : t.low ≤ t.high) (sp : List Char) (n : Numeral) (r : List Char)
    (hsp : ∀ c ∈ sp, isSpace c = true) (h : n.Good) (hr : n.Ends r) :
    (t.max ≤ n.number → strToReal t (sp ++ n.text ++ r) = .ok t.max) ∧
      (n.number ≤ -t.max → strToReal t (sp ++ n.text ++ r) = .ok (-t.max)) ∧
      (|n.number| < 2 ^ t.low / 2 → strToReal t (sp ++ n.text ++ r) = .ok 0) := by
  rw [strToReal, readNumber_numeral sp n r hsp h hr]
  simp only
  obtain ⟨hv, hb⟩ := t.round_nearest hp hlh n.number
  have hmax := t.max_value hlh
  refine ⟨fun hx => ?_, fun hx => ?_, fun hx => ?_⟩ <;> congr 1
  · have h1 := t.value_le_max hv
    have h2 := hb _ hmax
    rw [abs_of_nonpos (by linarith), abs_of_nonpos (by linarith)] at h2
    linarith
  · have h1 := t.value_le_max (Format.value_neg hv)
    have h2 := hb _ (Format.value_neg hmax)
    rw [abs_of_nonneg (by linarith), abs_of_nonneg (by linarith)] at h2
    linarith
  · have hg := two_zpow_pos t.low
    obtain ⟨m, hm⟩ := Format.value_multiple hv
    have h2 := hb 0 ⟨0, t.low, by simp, le_refl _, hlh, by simp⟩
    rw [zero_sub, abs_neg] at h2
    have h3 := abs_sub_le (t.round n.number) n.number 0
    rw [sub_zero, sub_zero] at h3
    have h4 : |t.round n.number| < 2 ^ t.low := by linarith
    rw [hm, abs_mul, abs_of_pos hg] at h4
    have h5 : |(m : ℚ)| < 1 := by
      by_contra hc
      rw [not_lt] at hc
      nlinarith
    have h6 : |m| < 1 := by exact_mod_cast h5
    have h7 : m = 0 := by have := abs_lt.1 h6; omega
    rw [hm, h7]
    simp

/-- C137. Of two values that are equally near the even one is read. -/
theorem C137_even (t : Format) (hp : 1 ≤ t.bits) (hlh : t.low ≤ t.high) (sp : List Char) (n : Numeral) (r : List Char)
    (hsp : ∀ c ∈ sp, isSpace c = true) (h : n.Good) (hr : n.Ends r) (m : ℕ) (k : ℤ) (hk : t.low ≤ k) (hm : m < 2 ^ t.bits)
    (hmk : k = t.low ∨ 2 ^ (t.bits - 1) ≤ m) (hmax : ((m : ℚ) + 1 / 2) * 2 ^ k ≤ t.max)
    (hn : n.number = (m + 1 / 2) * 2 ^ k) :
    strToReal t (sp ++ n.text ++ r) = .ok ((if m % 2 = 0 then m else m + 1) * 2 ^ k) := by
  have hpos : (0 : ℚ) < (m + 1 / 2) * 2 ^ k := by have := two_zpow_pos k; positivity
  rw [strToReal, readNumber_numeral sp n r hsp h hr, hn]
  simp only
  rw [t.round_pos _ hpos, t.store_eq hp hlh _ hpos hmax, t.nearest_eq]
  have hu : t.unit ((m + 1 / 2) * 2 ^ k) = k := by
    have hup : ((m : ℚ) + 1 / 2) * 2 ^ k < 2 ^ (t.bits + k) := by
      rw [two_zpow_add, zpow_natCast]
      have h1 : (m : ℚ) + 1 ≤ 2 ^ t.bits := by exact_mod_cast hm
      have := two_zpow_pos k
      have : (m : ℚ) + 1 / 2 < 2 ^ t.bits := by linarith
      gcongr
    have h1 := log2_lt _ hpos _ hup
    rcases hmk with rfl | hmk
    · unfold Format.unit; omega
    · have hlo : (2 : ℚ) ^ ((t.bits - 1 : ℤ) + k) ≤ (m + 1 / 2) * 2 ^ k := by
        rw [two_zpow_add]
        have h1 : (2 : ℚ) ^ (t.bits - 1) ≤ m := by exact_mod_cast hmk
        have h2 : (2 : ℚ) ^ (t.bits - 1 : ℤ) = 2 ^ (t.bits - 1) := by
          rw [← zpow_natCast]; congr 1; omega
        have := two_zpow_pos k
        rw [h2]
        gcongr
        linarith
      have h2 := le_log2 _ hpos _ hlo
      unfold Format.unit
      omega
  rw [hu, mul_div_cancel_right₀ _ (two_zpow_pos k).ne', show (m : ℚ) = ((m : ℤ) : ℚ) by simp, roundEven_half]
  congr 2
  split
  · rw [if_pos (by omega)]; simp
  · rw [if_neg (by omega)]; simp

/-- C137. If something else than 0 is read, the text begins with such a number. -/
theorem C137_other (t : Format) (s : List Char) (y : ℚ) (h : strToReal t s = .ok y) (hy : y ≠ 0) :
    ∃ (sp : List Char) (n : Numeral) (r : List Char), s = sp ++ n.text ++ r ∧ (∀ c ∈ sp, isSpace c = true) ∧ n.Good ∧
      n.Ends r := by
  unfold strToReal at h
  split at h
  · cases h
  · rename_i x hx
    refine readNumber_split s x hx ?_
    rintro rfl
    apply hy
    have := Except.ok.inj h
    rw [← this]
    rfl

/-- C137. Reading is undefined exactly if the text is blank. -/
theorem C137_blank (t : Format) (s : List Char) : strToReal t s = .error .undefined ↔ ∀ c ∈ s, isSpace c = true := by
  rw [← dropWhile_nil]
  unfold strToReal readNumber
  cases s.dropWhile isSpace <;> simp

/-- C137. What is read from the text of a value differs from it by at most a hundred-thousandth of it, also near the limits
of the type. -/
theorem C137_error (t : Format) (hp : 1 ≤ t.bits) (hlh : t.low ≤ t.high) (x : ℚ) (hx : IsValue t.bits t.low t.high x) :
    ∃ y, strToReal t (strFloat x) = .ok y ∧ |y - x| ≤ |x| / 10 ^ 5 := by
  refine ⟨_, strToReal_strFloat t x, ?_⟩
  have h1 := (t.round_nearest hp hlh (shown x)).2 x hx
  have h2 := shown_err x
  have h3 := abs_sub_le (t.round (shown x)) (shown x) x
  rw [abs_sub_comm x (shown x)] at h1
  norm_num at h2 ⊢
  linarith

/-- C137. A number that consists of less than 100000 times the smallest positive value is read back unchanged. -/
theorem C137_small (t : Format) (hp : 17 ≤ t.bits) (hlh : t.low ≤ t.high) (m : ℤ) (hm : |m| < 10 ^ 5) :
    strToReal t (strFloat (m * 2 ^ t.low)) = .ok ((m : ℚ) * 2 ^ t.low) := by
  rw [strToReal_strFloat]
  congr 1
  have hg := two_zpow_pos t.low
  set x := (m : ℚ) * 2 ^ t.low with hx
  have hv : IsValue t.bits t.low t.high x := ⟨m, t.low, lt_of_lt_of_le hm (by
    calc (10 : ℤ) ^ 5 ≤ 2 ^ 17 := by norm_num
      _ ≤ 2 ^ t.bits := pow_le_pow_right₀ (by norm_num) hp), le_refl _, hlh, rfl⟩
  have hn := t.round_nearest (by omega) hlh (shown x)
  obtain ⟨n, hnv⟩ := Format.value_multiple hn.1
  have h1 := hn.2 x hv
  have h2 := shown_err x
  have h3 := abs_sub_le (t.round (shown x)) (shown x) x
  rw [abs_sub_comm x (shown x)] at h1
  have h4 : |x| = |(m : ℚ)| * 2 ^ t.low := by rw [hx, abs_mul, abs_of_pos hg]
  have h5 : |(m : ℚ)| ≤ 10 ^ 5 - 1 := by
    have : |m| ≤ 10 ^ 5 - 1 := by omega
    exact_mod_cast this
  have h6 : |t.round (shown x) - x| < 2 ^ t.low := by
    norm_num at h2 h5
    nlinarith
  rw [hnv, hx, ← sub_mul, abs_mul, abs_of_pos hg] at h6
  have h7 : |(n : ℚ) - m| < 1 := by
    by_contra hc
    rw [not_lt] at hc
    nlinarith
  have h8 : |n - m| < 1 := by exact_mod_cast h7
  have h9 : n = m := by have := abs_lt.1 h8; omega
  rw [hnv, h9]

/-- C137. If the text of a number with at most six significant digits that is not too large is read, what was read is read
back from its own text unchanged, also if digits were lost because the number is small. -/
theorem C137_round_trip (t : Format) (hp : 21 ≤ t.bits) (hlh : t.low ≤ t.high) (sp : List Char) (n : Numeral)
    (r : List Char) (hsp : ∀ c ∈ sp, isSpace c = true) (h : n.Good) (hr : n.Ends r) (h6 : SixDigits n.number)
    (hmax : |n.number| ≤ t.max) (x : ℚ) (hx : strToReal t (sp ++ n.text ++ r) = .ok x) : strToReal t (strFloat x) = .ok x := by
  rw [strToReal, readNumber_numeral sp n r hsp h hr] at hx
  cases hx
  rw [strToReal_strFloat]
  congr 1
  generalize n.number = z at h6 hmax
  rcases lt_trichotomy z 0 with hz | hz | hz
  · have := round_trip_pos t hp hlh (z := -z) (by linarith) (sixDigits_neg h6) (by rwa [abs_of_neg hz] at hmax)
    rw [t.round_neg, shown_neg, t.round_neg] at this
    linarith
  · subst hz
    simp [Format.round, shown]
  · exact round_trip_pos t hp hlh hz h6 (by rwa [abs_of_pos hz] at hmax)

/-- C137. The text of what is read back from the text of a `float` is the same text, also near the limits of the type. -/
theorem C137_stable_float (x : ℚ) (hx : IsValue 24 (-149) 104 x) (y : ℚ) (h : strToReal float (strFloat x) = .ok y) :
    strFloat y = strFloat x := by
  rw [strToReal_strFloat] at h
  cases h
  refine stable float (by decide) (by decide) (K := -44) (by norm_num [float]) (by norm_num [float]) hx (Or.inr ?_)
  have hpos : (0 : ℚ) < 10 ^ (-44 + 5 : ℤ) := by positivity
  rw [float.round_pos _ hpos, float.store_eq (by decide) (by decide) _ hpos (by norm_num [float, Format.max]),
    float.nearest_eq, float.unit_low _ hpos (by norm_num [float])]
  rw [roundEven_near _ 713624 (by norm_num [float, abs_lt])]
  norm_num [float]

set_option exponentiation.threshold 2000 in
/-- C137 (partial: except if the text is `1e-318` or `-1e-318`). The text of what is read back from the text of a `double`
is the same text, also near the limits of the type. -/
theorem C137_stable_double_partial (x : ℚ) (hx : IsValue 53 (-1074) 971 x) (h1 : strFloat x ≠ "1e-318".toList)
    (h2 : strFloat x ≠ "-1e-318".toList) (y : ℚ) (h : strToReal double (strFloat x) = .ok y) : strFloat y = strFloat x := by
  rw [strToReal_strFloat] at h
  cases h
  have hpos : (0 : ℚ) < 10 ^ (-323 + 5 : ℤ) := by positivity
  have hd : decimal (10 ^ (-323 + 5 : ℤ)) = (100000, -318) := by
    refine decimal_near 100000 (-323) (by norm_num) (by norm_num) _ ?_
    norm_num
  refine stable double (by decide) (by decide) (K := -323) (by norm_num [double]) (by norm_num [double]) hx (Or.inl ⟨?_, ?_⟩)
  · intro hs
    apply h1
    rw [← strFloat_shown, hs, strFloat, if_neg hpos.ne', if_neg (by linarith), hd]
    decide
  · intro hs
    apply h2
    rw [← strFloat_shown, hs, strFloat, if_neg (by linarith), if_pos (by linarith), neg_neg, hd]
    decide

set_option exponentiation.threshold 2000 in
/-- C137 fails for `double` otherwise: a value with the text `1e-318` is read back as the value below it, whose text is
`9.99999e-319`. -/
theorem C137_fails :
    IsValue 53 (-1074) 971 (202403 * 2 ^ (-1074 : ℤ)) ∧ strFloat (202403 * 2 ^ (-1074 : ℤ)) = "1e-318".toList ∧
      strToReal double "1e-318".toList = .ok (202402 * 2 ^ (-1074 : ℤ)) ∧
      strFloat (202402 * 2 ^ (-1074 : ℤ)) = "9.99999e-319".toList := by
  have s1 : shown (202403 * 2 ^ (-1074 : ℤ)) = (100000 : ℕ) * 10 ^ (-323 : ℤ) :=
    shown_of _ 100000 (-323) (by norm_num) (by norm_num) (by norm_num) (by rw [abs_lt]; norm_num)
  have s2 : shown (202402 * 2 ^ (-1074 : ℤ)) = (999999 : ℕ) * 10 ^ (-324 : ℤ) :=
    shown_of _ 999999 (-324) (by norm_num) (by norm_num) (by norm_num) (by rw [abs_lt]; norm_num)
  have t1 : strFloat (202403 * 2 ^ (-1074 : ℤ)) = "1e-318".toList := by
    rw [← strFloat_shown, s1, strFloat_digits _ _ (by norm_num) (by norm_num)]
    decide
  refine ⟨⟨202403, -1074, by norm_num, le_refl _, by norm_num, by norm_num⟩, t1, ?_, ?_⟩
  · have hpos : (0 : ℚ) < (100000 : ℕ) * 10 ^ (-323 : ℤ) := by positivity
    rw [← t1, strToReal_strFloat, s1]
    rw [double.round_pos _ hpos, double.store_eq (by decide) (by decide) _ hpos (by norm_num [double, Format.max]),
      double.nearest_eq, double.unit_low _ hpos (by norm_num [double])]
    rw [roundEven_near _ 202402 (by norm_num [double, abs_lt])]
    norm_num [double]
  · rw [← strFloat_shown, s2, strFloat_digits _ _ (by norm_num) (by norm_num)]
    decide

/-- The limits of `float` and `double`. -/
example : float.max = (2 - 1 / 2 ^ 23) * 2 ^ 127 ∧ IsValue 24 (-149) 104 float.max ∧ IsValue 24 (-149) 104 (2 ^ (-149 : ℤ)) ∧
    1 ≤ double.bits ∧ 21 ≤ double.bits ∧ double.low ≤ double.high :=
  ⟨by norm_num [float, Format.max], float.max_value (by decide), ⟨1, -149, by norm_num, le_refl _, by norm_num, by simp⟩,
    by decide, by decide, by decide⟩

/-- `  -12.50e-3x` is a number with white space before it and something else behind it. -/
def sample : Numeral := ⟨some true, "12".toList, some "50".toList, some ('e', some true, "3".toList)⟩

example : sample.Good ∧ sample.Ends "x".toList ∧ "  ".toList ++ sample.text ++ "x".toList = "  -12.50e-3x".toList ∧
    sample.number = -1 / 80 ∧ SixDigits sample.number := by
  have hn : sample.number = -1 / 80 := by
    have h : NumSpec.value 10 (sample.whole ++ sample.fraction.getD []) = 1250 := by decide
    have h' : exponentValue sample.exponent = -3 := by decide
    have h'' : (sample.fraction.getD []).length = 2 := by decide
    rw [Numeral.number, h, h', h'']
    norm_num [sample]
  refine ⟨⟨by decide, by decide, by decide, ?_⟩, ?_, by decide, hn, ?_⟩
  · rintro c s ds h
    simp only [sample, Option.some.injEq, Prod.mk.injEq] at h
    obtain ⟨rfl, rfl, rfl⟩ := h
    decide
  · intro c hc
    have : 'x' = c := by simpa using hc
    subst this
    exact ⟨by decide, fun h => by simp [sample] at h⟩
  · rw [hn]
    exact ⟨-125, -4, by norm_num, by norm_num⟩

/-- 16777217 is halfway between two values of `float`. -/
example : (⟨none, "16777217".toList, none, none⟩ : Numeral).number = (((2 ^ 23 : ℕ) : ℚ) + 1 / 2) * 2 ^ (1 : ℤ) ∧
    float.low ≤ 1 ∧ 2 ^ 23 < 2 ^ float.bits ∧ (((2 ^ 23 : ℕ) : ℚ) + 1 / 2) * 2 ^ (1 : ℤ) ≤ float.max := by
  refine ⟨?_, by decide, by decide, by norm_num [float, Format.max]⟩
  have h : NumSpec.value 10 ("16777217".toList ++ []) = 16777217 := by decide
  simp only [Numeral.number, Option.getD_none, h, exponentValue]
  norm_num
  simp

end Pluto.Props
