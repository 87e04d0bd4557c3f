import Verif.Model.StopwatchReal
import Verif.Spec.StopwatchReal
import Verif.Proofs.StopwatchBits
import Verif.Proofs.FloatRange
import Mathlib.Tactic.LinearCombination

/-! # Proofs about floating-point and unsigned durations -/

namespace Pluto.StopwatchBits
open Pluto.StopwatchSpec Pluto.FloatText Pluto.FloatTextSpec

theorem wide_low_high {t : Format} (h : WideEnough t.bits t.low t.high) : t.low ≤ t.high := by
  unfold WideEnough at h
  omega

theorem value_int {t : Format} (h : WideEnough t.bits t.low t.high) {n : Int} (hn : |n| < 2 ^ t.bits) :
    IsValue t.bits t.low t.high n := by
  unfold WideEnough at h
  exact ⟨n, 0, hn, by omega, by omega, by simp⟩

theorem round_mono {t : Format} (h : WideEnough t.bits t.low t.high) {a b : ℚ} (hab : a ≤ b) : t.round a ≤ t.round b := by
  rcases hab.lt_or_eq with hlt | rfl
  · exact nearest_mono (t.round_nearest h.1 (wide_low_high h) a) (t.round_nearest h.1 (wide_low_high h) b) hlt
  · exact le_refl _

theorem round_zero (t : Format) : t.round 0 = 0 := by simp [Format.round]

theorem round_one {t : Format} (h : WideEnough t.bits t.low t.high) : t.round 1 = 1 := by
  have := t.round_exact h.1 (wide_low_high h) (value_int h (n := 1) (by
    rw [abs_one]
    have : (2 : Int) ^ 1 ≤ 2 ^ t.bits := pow_le_pow_right₀ (by norm_num) h.1
    omega))
  simpa using this

theorem round_nonneg {t : Format} (h : WideEnough t.bits t.low t.high) {a : ℚ} (ha : 0 ≤ a) : 0 ≤ t.round a := by
  have := round_mono h ha
  rwa [round_zero] at this

theorem round_nat {t : Format} (h : WideEnough t.bits t.low t.high) {n : Nat} (hn : 0 < n) : 1 ≤ t.round n := by
  have := round_mono h (a := 1) (b := n) (by exact_mod_cast hn)
  rwa [round_one h] at this

theorem cast_mono {t : Format} (h : WideEnough t.bits t.low t.high) {tick unit : Ratio} (ht : Proper tick) (hu : Proper unit)
    {d e : Int} (hde : d ≤ e) : durationCastReal t tick unit d ≤ durationCastReal t tick unit e := by
  have hN : 0 < tick.num * unit.den := Nat.mul_pos ht.1 hu.2
  have hD : 0 < tick.den * unit.num := Nat.mul_pos ht.2 hu.1
  have hx : t.round (d : ℚ) ≤ t.round (e : ℚ) := round_mono h (by exact_mod_cast hde)
  have hn : 0 < (ratioDivide tick unit).num := by
    unfold ratioDivide
    exact Nat.div_pos (Nat.gcd_le_left _ hN) (Nat.gcd_pos_of_pos_left _ hN)
  have hm : 0 < (ratioDivide tick unit).den := by
    unfold ratioDivide
    exact Nat.div_pos (Nat.gcd_le_right _ hD) (Nat.gcd_pos_of_pos_left _ hN)
  have hn' := round_nat h hn
  have hm' := round_nat h hm
  unfold durationCastReal
  dsimp only
  generalize t.round ((ratioDivide tick unit).num : ℚ) = N at *
  generalize t.round ((ratioDivide tick unit).den : ℚ) = M at *
  have h1 : t.round (d : ℚ) * N ≤ t.round (e : ℚ) * N := mul_le_mul_of_nonneg_right hx (by linarith)
  split
  · exact hx
  · split
    · exact round_mono h h1
    · split
      · exact round_mono h (div_le_div_of_nonneg_right hx (by linarith))
      · exact round_mono h (div_le_div_of_nonneg_right (round_mono h h1) (by linarith))

theorem lowest_pos {tick unit : Ratio} (ht : Proper tick) (hu : Proper unit) {n m : Nat} (hl : LowestTerms tick unit n m) :
    0 < n ∧ 0 < m := by
  have h1 := Nat.mul_pos ht.2 hu.1
  have h2 := Nat.mul_pos ht.1 hu.2
  have h3 := hl.2
  have h4 := hl.1
  rcases Nat.eq_zero_or_pos n with rfl | hn
  · rw [Nat.zero_mul] at h3
    rcases Nat.mul_eq_zero.1 h3.symm with rfl | h
    · simp at h4
    · omega
  · refine ⟨hn, Nat.pos_of_ne_zero ?_⟩
    rintro rfl
    rw [Nat.zero_mul] at h3
    have := Nat.mul_pos hn h1
    omega

theorem exact_lowest {tick unit : Ratio} (ht : Proper tick) (hu : Proper unit) {n m : Nat} (hl : LowestTerms tick unit n m)
    (d : Int) : exactUnits tick unit d = d * n / m := by
  have h1 : (0 : ℚ) < tick.num := by exact_mod_cast ht.1
  have h2 : (0 : ℚ) < tick.den := by exact_mod_cast ht.2
  have h3 : (0 : ℚ) < unit.num := by exact_mod_cast hu.1
  have h4 : (0 : ℚ) < unit.den := by exact_mod_cast hu.2
  have hm0 : m ≠ 0 := (lowest_pos ht hu hl).2.ne'
  have h5 : (m : ℚ) ≠ 0 := by exact_mod_cast hm0
  have h6 : (n : ℚ) * (tick.den * unit.num) = m * (tick.num * unit.den) := by exact_mod_cast hl.2
  unfold exactUnits
  field_simp
  linear_combination (-(d : ℚ)) * h6

/-- Rounding of a number that is neither too small nor too large. -/
theorem round_err {t : Format} (h : WideEnough t.bits t.low t.high) {x : ℚ} (hlo : x = 0 ∨ 2 ^ (t.low + t.bits) ≤ |x|)
    (hhi : |x| ≤ t.max) : |t.round x - x| ≤ 1 / 2 ^ t.bits * |x| := by
  have hpos : ∀ y : ℚ, 0 < y → 2 ^ (t.low + t.bits) ≤ y → y ≤ t.max → |t.round y - y| ≤ 1 / 2 ^ t.bits * y := by
    intro y hy hl hm
    rw [t.round_pos y hy, t.store_eq h.1 (wide_low_high h) y hy hm, t.nearest_eq]
    have h1 := unit_err y (2 ^ t.unit y) (two_zpow_pos _)
    have h2 : t.unit y = Int.log 2 y - (t.bits - 1) := by
      have := le_log2 y hy _ hl
      unfold Format.unit
      omega
    refine le_trans h1 ?_
    have h3 := (log2_spec y hy).1
    have h4 : (2 : ℚ) ^ t.unit y / 2 = 1 / 2 ^ t.bits * 2 ^ Int.log 2 y := by
      rw [h2, show Int.log 2 y - ((t.bits : Int) - 1) = Int.log 2 y + (-(t.bits : Int) + 1) by ring, two_zpow_add, two_zpow_add,
        zpow_neg, zpow_natCast, zpow_one]
      field_simp
    rw [h4]
    exact mul_le_mul_of_nonneg_left h3 (by positivity)
  rcases lt_trichotomy x 0 with hx | rfl | hx
  · have := hpos (-x) (by linarith) (by
      rcases hlo with rfl | hlo
      · exact absurd hx (lt_irrefl _)
      · rwa [abs_of_neg hx] at hlo) (by rwa [abs_of_neg hx] at hhi)
    rw [t.round_neg] at this
    rw [abs_of_neg hx, ← abs_neg]
    convert this using 2
    ring
  · simp [round_zero]
  · have := hpos x hx (by
      rcases hlo with rfl | hlo
      · exact absurd hx (lt_irrefl _)
      · rwa [abs_of_pos hx] at hlo) (by rwa [abs_of_pos hx] at hhi)
    rwa [abs_of_pos hx]

/-- The largest number is large enough. -/
theorem max_large {t : Format} (h : WideEnough t.bits t.low t.high) : (2 : ℚ) ^ 127 ≤ t.max := by
  unfold Format.max
  have hb := h.1
  have h1 : (2 : ℚ) ^ 127 ≤ 2 ^ (t.bits - 1) * 2 ^ t.high := by
    rw [← zpow_natCast, ← zpow_natCast (2 : ℚ) (t.bits - 1), ← two_zpow_add]
    refine zpow_le_zpow_right₀ (by norm_num) ?_
    have := h.2.2.2
    omega
  have h2 : (2 : ℚ) ^ (t.bits - 1) ≤ 2 ^ t.bits - 1 := by
    have e : (2 : ℚ) ^ t.bits = 2 * 2 ^ (t.bits - 1) := by
      rw [← pow_succ']
      congr 1
      omega
    have : (1 : ℚ) ≤ 2 ^ (t.bits - 1) := one_le_pow₀ (by norm_num)
    linarith
  have h3 := two_zpow_pos t.high
  nlinarith

/-- One more rounding. -/
theorem err_step {u x y z A : ℚ} (hu : 0 ≤ u) (hxy : |y - x| ≤ A * |x|) (hyz : |z - y| ≤ u * |y|) :
    |z - x| ≤ ((1 + A) * (1 + u) - 1) * |x| := by
  have h1 : |z - x| ≤ |z - y| + |y - x| := by
    have := abs_add_le (z - y) (y - x)
    simpa using this
  have h2 : |y| ≤ |y - x| + |x| := by
    have := abs_add_le (y - x) x
    simpa using this
  have h3 : u * |y| ≤ u * (A * |x| + |x|) := mul_le_mul_of_nonneg_left (by linarith) hu
  nlinarith [abs_nonneg x]

theorem round_big {t : Format} (h : WideEnough t.bits t.low t.high) {x : ℚ} (hx : 1 ≤ |x|) : 1 ≤ |t.round x| := by
  rcases le_or_gt 0 x with h0 | h0
  · rw [abs_of_nonneg h0] at hx
    have := round_mono h hx
    rw [round_one h] at this
    rw [abs_of_nonneg (by linarith)]
    exact this
  · rw [abs_of_neg h0] at hx
    have := round_mono h hx
    rw [round_one h, t.round_neg] at this
    rw [abs_of_neg (by linarith)]
    exact this

theorem err_size {u x y : ℚ} (hu : u ≤ 1 / 2) (h : |y - x| ≤ u * |x|) : |y| ≤ 3 / 2 * |x| := by
  have h2 : |y| ≤ |y - x| + |x| := by
    have := abs_add_le (y - x) x
    simpa using this
  have := mul_le_mul_of_nonneg_right hu (abs_nonneg x)
  linarith

/-- All roundings together. -/
theorem cast_err {t : Format} (h : WideEnough t.bits t.low t.high) {tick unit : Ratio} (ht : Proper tick) (hu : Proper unit)
    {n m : Nat} (hl : LowestTerms tick unit n m) (hn : IsValue t.bits t.low t.high n) (hm : IsValue t.bits t.low t.high m)
    (hn' : n ≤ 2 ^ 62) (hm' : m ≤ 2 ^ 62) {d : Int} (hd : |d| ≤ 2 ^ 63) :
    |durationCastReal t tick unit d - exactUnits tick unit d| ≤ ((1 + 1 / 2 ^ t.bits) ^ 3 - 1) * |exactUnits tick unit d| := by
  rw [exact_lowest ht hu hl]
  have hcf := ratioDivide_lowest ht hu hl
  set u : ℚ := 1 / 2 ^ t.bits with hudef
  have hu0 : 0 ≤ u := by positivity
  have hp1 : (2 : ℚ) ≤ 2 ^ t.bits := by
    have : (2 : ℚ) ^ 1 ≤ 2 ^ t.bits := pow_le_pow_right₀ (by norm_num) h.1
    linarith
  have hu1 : u ≤ 1 / 2 := by
    rw [hudef]
    exact one_div_le_one_div_of_le (by norm_num) hp1
  obtain ⟨hn0, hm0⟩ := lowest_pos ht hu hl
  have hlow : (2 : ℚ) ^ (t.low + t.bits) * 2 ^ 62 ≤ 1 := by
    rw [← zpow_natCast, ← two_zpow_add]
    have : (2 : ℚ) ^ (t.low + t.bits + (62 : Nat)) ≤ 2 ^ (0 : Int) := zpow_le_zpow_right₀ (by norm_num) (by
      have := h.2.1
      omega)
    simpa using this
  have hlow0 := two_zpow_pos (t.low + t.bits)
  have hlow1 : (2 : ℚ) ^ (t.low + t.bits) ≤ 1 := by nlinarith
  have hmax := max_large h
  have hrn : t.round (n : ℚ) = n := t.round_exact h.1 (wide_low_high h) hn
  have hrm : t.round (m : ℚ) = m := t.round_exact h.1 (wide_low_high h) hm
  have hnq : (1 : ℚ) ≤ n := by exact_mod_cast hn0
  have hmq : (1 : ℚ) ≤ m := by exact_mod_cast hm0
  have hnq' : (n : ℚ) ≤ 2 ^ 62 := by exact_mod_cast hn'
  have hmq' : (m : ℚ) ≤ 2 ^ 62 := by exact_mod_cast hm'
  have hdq : |(d : ℚ)| ≤ 2 ^ 63 := by exact_mod_cast hd
  by_cases hd0 : d = 0
  · subst hd0
    simp [durationCastReal, round_zero]
  have hd1 : (1 : ℚ) ≤ |(d : ℚ)| := by
    have : 1 ≤ |d| := Int.one_le_abs hd0
    exact_mod_cast this
  -- first rounding
  have e1 : |t.round (d : ℚ) - d| ≤ u * |(d : ℚ)| := round_err h (.inr (by linarith)) (by nlinarith)
  have b1 := round_big h hd1
  have s1 := err_size hu1 e1
  set x := t.round (d : ℚ) with hx
  -- after the multiplication
  have e1n : |x * n - d * n| ≤ u * |(d : ℚ) * n| := by
    rw [← sub_mul, abs_mul, abs_mul]
    have := mul_le_mul_of_nonneg_right e1 (abs_nonneg (n : ℚ))
    linarith
  have b2 : 1 ≤ |x * n| := by
    rw [abs_mul, Nat.abs_cast]
    nlinarith
  have s2 : |x * n| ≤ 3 / 2 * 2 ^ 63 * 2 ^ 62 := by
    rw [abs_mul, Nat.abs_cast]
    have : |x| ≤ 3 / 2 * 2 ^ 63 := by linarith
    exact mul_le_mul this hnq' (by linarith) (by norm_num)
  have e2 : |t.round (x * n) - x * n| ≤ u * |x * n| := round_err h (.inr (by linarith)) (by nlinarith)
  have b3 := round_big h b2
  have s3 := err_size hu1 e2
  have e12 := err_step hu0 e1n e2
  set y := t.round (x * n) with hy
  -- division
  have small : ∀ z : ℚ, 1 ≤ |z| → 2 ^ (t.low + t.bits) ≤ |z / m| := by
    intro z hz
    rw [abs_div, Nat.abs_cast, le_div_iff₀ (by linarith)]
    nlinarith
  have hA1 : u ≤ (1 + u) ^ 3 - 1 := by nlinarith [pow_nonneg hu0 2, pow_nonneg hu0 3]
  have hA2 : (1 + u) * (1 + u) - 1 ≤ (1 + u) ^ 3 - 1 := by nlinarith [pow_nonneg hu0 2, pow_nonneg hu0 3]
  have hA3 : (1 + ((1 + u) * (1 + u) - 1)) * (1 + u) - 1 ≤ (1 + u) ^ 3 - 1 := le_of_eq (by ring)
  have large : ∀ z : ℚ, |z| ≤ 9 / 4 * 2 ^ 63 * 2 ^ 62 → |z| / m ≤ 9 / 4 * 2 ^ 63 * 2 ^ 62 := by
    intro z hz
    refine le_trans (div_le_self (abs_nonneg z) hmq) hz
  have absdiv : ∀ z w A : ℚ, |z - w| ≤ A * |w| → |z / m - w / m| ≤ A * |w / m| := by
    intro z w A hzw
    rw [← sub_div, abs_div, abs_div, Nat.abs_cast, ← mul_div_assoc]
    exact div_le_div_of_nonneg_right hzw (by linarith)
  have hpow : ∀ A : ℚ, A ≤ (1 + u) ^ 3 - 1 → ∀ z w : ℚ, |z - w| ≤ A * |w| → |z - w| ≤ ((1 + u) ^ 3 - 1) * |w| :=
    fun A hA z w hzw => le_trans hzw (mul_le_mul_of_nonneg_right hA (abs_nonneg w))
  unfold durationCastReal
  rw [hcf]
  dsimp only
  rw [hrn, hrm, ← hx, ← hy]
  split
  · rename_i hc
    rw [hc.1, hc.2]
    simp only [Nat.cast_one, mul_one, div_one]
    exact hpow u hA1 _ _ e1
  · split
    · rename_i hc
      rw [hc]
      simp only [Nat.cast_one, div_one]
      exact hpow _ hA2 _ _ e12
    · split
      · rename_i hc
        rw [hc]
        simp only [Nat.cast_one, mul_one]
        have e3 : |t.round (x / m) - x / m| ≤ u * |x / m| := round_err h (.inr (small x b1)) (by
          rw [abs_div, Nat.abs_cast]
          have := large x (by nlinarith)
          linarith)
        have := err_step hu0 (absdiv x d u e1) e3
        exact hpow _ hA2 _ _ this
      · have e3 : |t.round (y / m) - y / m| ≤ u * |y / m| := round_err h (.inr (small y b3)) (by
          rw [abs_div, Nat.abs_cast]
          have := large y (by linarith)
          linarith)
        have := err_step hu0 (absdiv y (d * n) _ e12) e3
        exact hpow _ hA3 _ _ this

/-- Only one rounding. -/
theorem cast_nearest {t : Format} (h : WideEnough t.bits t.low t.high) {tick unit : Ratio} (ht : Proper tick)
    (hu : Proper unit) {n m : Nat} (hl : LowestTerms tick unit n m) (hone : n = 1 ∨ m = 1)
    (hn : IsValue t.bits t.low t.high n) (hm : IsValue t.bits t.low t.high m) {d : Int} (hd : |d| < 2 ^ t.bits) :
    Nearest (IsValue t.bits t.low t.high) (exactUnits tick unit d) (durationCastReal t tick unit d) := by
  rw [exact_lowest ht hu hl]
  have hlh := wide_low_high h
  have hrd : t.round (d : ℚ) = d := t.round_exact h.1 hlh (value_int h hd)
  have hrn : t.round (n : ℚ) = n := t.round_exact h.1 hlh hn
  have hrm : t.round (m : ℚ) = m := t.round_exact h.1 hlh hm
  unfold durationCastReal
  rw [ratioDivide_lowest ht hu hl]
  dsimp only
  rw [hrd, hrn, hrm]
  by_cases h1 : n = 1 <;> by_cases h2 : m = 1
  · rw [if_pos ⟨h1, h2⟩, h1, h2]
    simp only [Nat.cast_one, mul_one, div_one]
    have := t.round_nearest h.1 hlh d
    rwa [hrd] at this
  · rw [if_neg (by simp [h2]), if_neg h2, if_pos h1, h1]
    simp only [Nat.cast_one, mul_one]
    exact t.round_nearest h.1 hlh _
  · rw [if_neg (by simp [h1]), if_pos h2, h2]
    simp only [Nat.cast_one, div_one]
    exact t.round_nearest h.1 hlh _
  · rcases hone with hone | hone
    · exact absurd hone h1
    · exact absurd hone h2

/-- Times that are not negative. -/
theorem castUnsigned_small {tick unit : Ratio} (ht : Proper tick) (hu : Proper unit) {n m bits : Nat}
    (hl : LowestTerms tick unit n m) {d c : Int} (hc : InUnits tick unit d c) (h0 : 0 ≤ d) (hd : Representable 64 d)
    (hp : Representable 64 (d * n)) (hb : bits ≤ 64) : durationCastUnsigned tick unit bits d = some (c % 2 ^ bits) := by
  have hq := inUnits_tdiv ht hu hl hc
  have hc0 : 0 ≤ c := by rw [← hq]; exact Int.tdiv_nonneg (by positivity) (by positivity)
  have hdn : 0 ≤ d * n := by positivity
  have hle : c ≤ d * n := by
    rw [← hq, Int.tdiv_eq_ediv_of_nonneg hdn]
    exact Int.ediv_le_self _ hdn
  unfold Representable at hd hp
  unfold durationCastUnsigned
  rw [ratioDivide_lowest ht hu hl]
  dsimp only
  split
  · rw [cast_spec ht hu hl hc hd, if_pos (fits_iff.2 hp), narrow_eq (by norm_num)]
    unfold Representable
    norm_num at hp ⊢
    omega
  · have : bits = 64 := by omega
    subst this
    have e1 : d % 2 ^ 64 = d := Int.emod_eq_of_lt h0 (by norm_num at hd ⊢; omega)
    have e2 : d * n % 2 ^ 64 = d * n := Int.emod_eq_of_lt hdn (by norm_num at hp ⊢; omega)
    have e3 : c % 2 ^ 64 = c := Int.emod_eq_of_lt hc0 (by norm_num at hp ⊢; omega)
    have e4 : d * n / m = c := by rw [← Int.tdiv_eq_ediv_of_nonneg hdn]; exact hq
    rw [e1, e2, e3]
    by_cases h1 : n = 1 <;> by_cases h2 : m = 1
    · rw [if_pos ⟨h1, h2⟩]
      simp only [h1, h2, Nat.cast_one, Int.mul_one, Int.ediv_one] at e4
      rw [e4]
    · rw [if_neg (by simp [h2]), if_neg h2, if_pos h1]
      simp only [h1, Nat.cast_one, Int.mul_one] at e4
      rw [e4]
    · rw [if_neg (by simp [h1]), if_pos h2]
      simp only [h2, Nat.cast_one, Int.ediv_one] at e4
      rw [e4]
    · rw [if_neg (by simp [h1]), if_neg h2, if_neg h1, e4]

/-- Negative times, with 64 bits and units that are several ticks. -/
theorem castUnsigned_negative {tick unit : Ratio} (ht : Proper tick) (hu : Proper unit) {m : Nat}
    (hl : LowestTerms tick unit 1 m) (hm : m ≠ 1) {d : Int} (h0 : d < 0) (hd : Representable 64 d) :
    durationCastUnsigned tick unit 64 d = some ((2 ^ 64 + d) / m) := by
  unfold Representable at hd
  unfold durationCastUnsigned
  rw [ratioDivide_lowest ht hu hl]
  dsimp only
  rw [if_neg (by omega), if_neg (by simp [hm]), if_neg hm, if_pos rfl]
  have : d % 2 ^ 64 = 2 ^ 64 + d := by
    norm_num at hd ⊢
    omega
  rw [this]

end Pluto.StopwatchBits
