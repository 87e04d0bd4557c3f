import Verif.Model.FloatRange
import Verif.Spec.FloatRange
import Verif.Proofs.FloatText

/-!
# Lemmas about floating-point types with limits
-/

namespace Pluto.FloatText
open Pluto.Num Pluto.NumSpec Pluto.FloatTextSpec

/-- Rounding to the nearest is monotonic. -/
theorem nearest_mono {P : ℚ → Prop} {a b sa sb : ℚ} (ha : Nearest P a sa) (hb : Nearest P b sb) (h : a < b) : sa ≤ sb := by
  by_contra hlt
  rw [not_le] at hlt
  have h1 := sq_le_sq.mpr (ha.2 sb hb.1)
  have h2 := sq_le_sq.mpr (hb.2 sa ha.1)
  have h3 : (sa - sb) * (sa + sb - 2 * a) ≤ 0 := by nlinarith
  have h4 : 0 ≤ (sa - sb) * (sa + sb - 2 * b) := by nlinarith
  have h5 : sa + sb - 2 * a ≤ 0 := by
    by_contra hc
    rw [not_le] at hc
    have : 0 < (sa - sb) * (sa + sb - 2 * a) := mul_pos (by linarith) hc
    linarith
  have h6 : 0 ≤ sa + sb - 2 * b := by
    by_contra hc
    rw [not_le] at hc
    have : (sa - sb) * (sa + sb - 2 * b) < 0 := mul_neg_of_pos_of_neg (by linarith) hc
    linarith
  linarith

theorem log2_spec (x : ℚ) (hx : 0 < x) : (2 : ℚ) ^ Int.log 2 x ≤ x ∧ x < 2 ^ (Int.log 2 x + 1) := by
  have h1 := Int.zpow_log_le_self (b := 2) (by norm_num) hx
  have h2 := Int.lt_zpow_succ_log_self (b := 2) (by norm_num) x
  exact ⟨by exact_mod_cast h1, by exact_mod_cast h2⟩

theorem log2_lt (x : ℚ) (hx : 0 < x) (k : ℤ) (h : x < 2 ^ k) : Int.log 2 x < k :=
  (Int.lt_zpow_iff_log_lt (b := 2) (by norm_num) hx (x := k)).1 (by exact_mod_cast h)

theorem le_log2 (x : ℚ) (hx : 0 < x) (k : ℤ) (h : 2 ^ k ≤ x) : k ≤ Int.log 2 x :=
  (Int.zpow_le_iff_le_log (b := 2) (by norm_num) hx (x := k)).1 (by exact_mod_cast h)

theorem two_zpow_pos (k : ℤ) : (0 : ℚ) < 2 ^ k := zpow_pos (by norm_num) _

theorem two_zpow_add (a b : ℤ) : (2 : ℚ) ^ (a + b) = 2 ^ a * 2 ^ b := zpow_add₀ (by norm_num) _ _

/-- Rounding to a multiple of a unit. -/
theorem unit_best (x u : ℚ) (hu : 0 < u) (n : ℤ) : |(roundEven (x / u) : ℚ) * u - x| ≤ |(n : ℚ) * u - x| := by
  have hsplit : ∀ q : ℚ, |q * u - x| = |q - x / u| * u := by
    intro q
    rw [← abs_of_pos hu, ← abs_mul, abs_of_pos hu, sub_mul, div_mul_cancel₀ _ hu.ne']
  rw [hsplit, hsplit]
  have := roundEven_best (x / u) n
  gcongr

theorem unit_err (x u : ℚ) (hu : 0 < u) : |(roundEven (x / u) : ℚ) * u - x| ≤ u / 2 := by
  have hsplit : |(roundEven (x / u) : ℚ) * u - x| = |(roundEven (x / u) : ℚ) - x / u| * u := by
    rw [← abs_of_pos hu, ← abs_mul, abs_of_pos hu, sub_mul, div_mul_cancel₀ _ hu.ne']
  rw [hsplit]
  have := roundEven_err (x / u)
  nlinarith

namespace Format

/-- The exponent of the last bit. -/
def unit (t : Format) (x : ℚ) : ℤ := Max.max (Int.log 2 x - (t.bits - 1)) t.low

theorem nearest_eq (t : Format) (x : ℚ) : t.nearest x = roundEven (x / 2 ^ t.unit x) * 2 ^ t.unit x := rfl

theorem low_le_unit (t : Format) (x : ℚ) : t.low ≤ t.unit x := le_max_right _ _

/-- Nearest among all numbers with so many bits that are not too small. -/
theorem nearest_best (t : Format) (hp : 1 ≤ t.bits) (x : ℚ) (hx : 0 < x) (m k : ℤ) (hm : |m| < 2 ^ t.bits) (hk : t.low ≤ k) :
    |t.nearest x - x| ≤ |(m : ℚ) * 2 ^ k - x| := by
  rw [nearest_eq]
  by_cases hek : t.unit x ≤ k
  · obtain ⟨n, hn⟩ := zpow_multiple 2 (by norm_num) m k (t.unit x) hek
    push_cast at hn
    rw [hn]
    exact unit_best x _ (two_zpow_pos _) n
  · obtain ⟨hl, -⟩ := log2_spec x hx
    have he : t.unit x = Int.log 2 x - (t.bits - 1) := by unfold unit at hek ⊢; omega
    have h1 := unit_best x (2 ^ t.unit x) (two_zpow_pos _) (2 ^ (t.bits - 1))
    have h2 : (((2 : ℤ) ^ (t.bits - 1) : ℤ) : ℚ) * 2 ^ t.unit x = 2 ^ Int.log 2 x := by
      push_cast
      rw [← zpow_natCast, ← two_zpow_add, he]
      congr 1
      omega
    rw [h2] at h1
    refine le_trans h1 ?_
    have hmq : (m : ℚ) < 2 ^ t.bits := by
      have : m < 2 ^ t.bits := lt_of_le_of_lt (le_abs_self m) hm
      exact_mod_cast this
    have h3 : (m : ℚ) * 2 ^ k ≤ 2 ^ Int.log 2 x := by
      have := two_zpow_pos k
      calc (m : ℚ) * 2 ^ k ≤ 2 ^ t.bits * 2 ^ k := by gcongr
        _ = 2 ^ ((t.bits : ℤ) + k) := by rw [two_zpow_add, zpow_natCast]
        _ ≤ 2 ^ Int.log 2 x := zpow_le_zpow_right₀ (by norm_num) (by omega)
    rw [abs_of_nonpos (by linarith), abs_of_nonpos (by linarith)]
    linarith

/-- What `nearest` returns has not too many bits. -/
theorem nearest_bits (t : Format) (hp : 1 ≤ t.bits) (x : ℚ) (hx : 0 < x) :
    ∃ m k : ℤ, 0 ≤ m ∧ m < 2 ^ t.bits ∧ t.low ≤ k ∧ t.nearest x = m * 2 ^ k := by
  obtain ⟨hl, hu⟩ := log2_spec x hx
  have hpos := two_zpow_pos (t.unit x)
  have herr := roundEven_err (x / 2 ^ t.unit x)
  rw [abs_le] at herr
  have h0 : 0 < x / 2 ^ t.unit x := by positivity
  have h1 : x / 2 ^ t.unit x < 2 ^ t.bits := by
    rw [div_lt_iff₀ hpos, ← zpow_natCast, ← two_zpow_add]
    refine lt_of_lt_of_le hu (zpow_le_zpow_right₀ (by norm_num) ?_)
    unfold unit
    omega
  set r := roundEven (x / 2 ^ t.unit x) with hr
  have h2 : 0 ≤ r := by
    have : (-1 : ℚ) < r := by linarith
    have : -1 < r := by exact_mod_cast this
    omega
  have h3 : r ≤ 2 ^ t.bits := by
    have : (r : ℚ) < 2 ^ t.bits + 1 := by linarith
    have : r < 2 ^ t.bits + 1 := by exact_mod_cast this
    omega
  by_cases h4 : r = 2 ^ t.bits
  · refine ⟨2 ^ (t.bits - 1), t.unit x + 1, by positivity, pow_lt_pow_right₀ (by norm_num) (by omega), ?_, ?_⟩
    · have := t.low_le_unit x; omega
    · rw [nearest_eq, ← hr, h4]
      push_cast
      rw [two_zpow_add, ← zpow_natCast, ← zpow_natCast, zpow_one, mul_comm (2 ^ t.unit x) (2 : ℚ), ← mul_assoc,
        ← zpow_add_one₀ (by norm_num)]
      congr 2
      omega
  · exact ⟨r, t.unit x, h2, by omega, t.low_le_unit x, by rw [nearest_eq]⟩

theorem max_value (t : Format) (hlh : t.low ≤ t.high) : IsValue t.bits t.low t.high t.max :=
  ⟨2 ^ t.bits - 1, t.high, by
    have : (1 : ℤ) ≤ 2 ^ t.bits := one_le_pow₀ (by norm_num)
    rw [abs_of_nonneg (by omega)]; omega, hlh, le_refl _, by unfold max; push_cast; rfl⟩

theorem value_le_max (t : Format) {z : ℚ} (h : IsValue t.bits t.low t.high z) : z ≤ t.max := by
  obtain ⟨m, k, hm, -, hk, rfl⟩ := h
  have h1 : m ≤ 2 ^ t.bits - 1 := by
    have := le_abs_self m
    omega
  have h2 : (m : ℚ) ≤ 2 ^ t.bits - 1 := by exact_mod_cast h1
  have h3 : (0 : ℚ) ≤ 2 ^ t.bits - 1 := by
    have : (1 : ℚ) ≤ 2 ^ t.bits := one_le_pow₀ (by norm_num)
    linarith
  have h4 : (2 : ℚ) ^ k ≤ 2 ^ t.high := zpow_le_zpow_right₀ (by norm_num) hk
  unfold max
  have := two_zpow_pos k
  nlinarith

theorem value_neg {p : ℕ} {low high : ℤ} {x : ℚ} (h : IsValue p low high x) : IsValue p low high (-x) := by
  obtain ⟨m, k, h1, h2, h3, h4⟩ := h
  exact ⟨-m, k, by rwa [abs_neg], h2, h3, by rw [h4]; push_cast; ring⟩

theorem store_nearest (t : Format) (hp : 1 ≤ t.bits) (hlh : t.low ≤ t.high) (x : ℚ) (hx : 0 < x) :
    Nearest (IsValue t.bits t.low t.high) x (t.store x) := by
  have hbest : ∀ z, IsValue t.bits t.low t.high z → |t.nearest x - x| ≤ |z - x| := by
    rintro z ⟨m, k, hm, hk, -, rfl⟩
    exact t.nearest_best hp x hx m k hm hk
  unfold store
  split
  · rename_i hlt
    have hxm : t.max ≤ x := by
      by_contra hc
      rw [not_le] at hc
      have := hbest _ (t.max_value hlh)
      rw [abs_of_pos (show 0 < t.max - x by linarith)] at this
      have := (abs_le.1 this).2
      linarith
    refine ⟨t.max_value hlh, fun z hz => ?_⟩
    have := t.value_le_max hz
    rw [abs_of_nonpos (by linarith), abs_of_nonpos (by linarith)]
    linarith
  · rename_i hle
    rw [not_lt] at hle
    refine ⟨?_, hbest⟩
    obtain ⟨m, k, h0, hm, hk, he⟩ := t.nearest_bits hp x hx
    rw [he] at hle ⊢
    by_cases hkh : k ≤ t.high
    · exact ⟨m, k, by rwa [abs_of_nonneg h0], hk, hkh, rfl⟩
    · obtain ⟨n, hn⟩ := zpow_multiple 2 (by norm_num) m k t.high (by omega)
      push_cast at hn
      refine ⟨n, t.high, ?_, hlh, le_refl _, hn⟩
      rw [hn] at hle
      unfold max at hle
      have h1 := le_of_mul_le_mul_right hle (two_zpow_pos _)
      have h2 : n ≤ 2 ^ t.bits - 1 := by exact_mod_cast h1
      have h3 : (0 : ℚ) ≤ n := by
        have h4 : (0 : ℚ) ≤ n * 2 ^ t.high := by
          rw [← hn]
          have : (0 : ℚ) ≤ m := by exact_mod_cast h0
          have := two_zpow_pos k
          positivity
        exact nonneg_of_mul_nonneg_left h4 (two_zpow_pos _)
      have h5 : 0 ≤ n := by exact_mod_cast h3
      rw [abs_of_nonneg h5]
      omega

theorem round_nearest (t : Format) (hp : 1 ≤ t.bits) (hlh : t.low ≤ t.high) (x : ℚ) :
    Nearest (IsValue t.bits t.low t.high) x (t.round x) := by
  unfold round
  split
  · rename_i h
    subst h
    refine ⟨⟨0, t.low, by simp, le_refl _, hlh, by simp⟩, fun z _ => by simp⟩
  · split
    · rename_i h0 hn
      obtain ⟨h1, h2⟩ := t.store_nearest hp hlh (-x) (by linarith)
      refine ⟨value_neg h1, fun z hz => ?_⟩
      have := h2 (-z) (value_neg hz)
      rw [← abs_neg, ← abs_neg (z - x)]
      convert this using 2 <;> ring
    · rename_i h0 hn
      exact t.store_nearest hp hlh x (lt_of_le_of_ne (not_lt.1 hn) (Ne.symm h0))

theorem round_pos (t : Format) (x : ℚ) (hx : 0 < x) : t.round x = t.store x := by
  unfold round
  rw [if_neg hx.ne', if_neg (by linarith)]

theorem round_neg (t : Format) (x : ℚ) : t.round (-x) = -t.round x := by
  unfold round
  rcases lt_trichotomy x 0 with h | h | h
  · rw [if_neg (by linarith), if_neg (by linarith), if_neg h.ne, if_pos h, neg_neg]
  · subst h; simp
  · rw [if_neg (by linarith), if_pos (by linarith), if_neg h.ne', if_neg (by linarith), neg_neg]

theorem round_exact (t : Format) (hp : 1 ≤ t.bits) (hlh : t.low ≤ t.high) {x : ℚ}
    (h : IsValue t.bits t.low t.high x) : t.round x = x := by
  have := (t.round_nearest hp hlh x).2 x h
  rw [sub_self, abs_zero] at this
  have := abs_nonpos_iff.1 this
  linarith

/-- If the number is not too large, nothing is cut off. -/
theorem store_eq (t : Format) (hp : 1 ≤ t.bits) (hlh : t.low ≤ t.high) (x : ℚ) (hx : 0 < x) (hm : x ≤ t.max) :
    t.store x = t.nearest x := by
  unfold store
  rw [if_neg]
  rw [not_lt]
  obtain ⟨m, k, h1, h2, -, h4⟩ := t.max_value hlh
  have := t.nearest_best hp x hx m k h1 h2
  rw [← h4, abs_of_nonneg (show 0 ≤ t.max - x by linarith)] at this
  have := (abs_le.1 this).2
  linarith

theorem value_multiple {p : ℕ} {low high : ℤ} {x : ℚ} (h : IsValue p low high x) : ∃ n : ℤ, x = n * 2 ^ low := by
  obtain ⟨m, k, -, hk, -, rfl⟩ := h
  obtain ⟨n, hn⟩ := zpow_multiple 2 (by norm_num) m k low hk
  push_cast at hn
  exact ⟨n, hn⟩

theorem unit_low (t : Format) (x : ℚ) (hx : 0 < x) (h : x < 2 ^ (t.low + t.bits)) : t.unit x = t.low := by
  have := log2_lt x hx _ h
  unfold unit
  omega

end Format

/-! ## Texts of small and large numbers -/

theorem shown_idem (x : ℚ) : shown (shown x) = shown x := by
  have h := readNumber_strFloat (shown x)
  rw [strFloat_shown, readNumber_strFloat] at h
  exact (Except.ok.inj h).symm

theorem shown_mono {x y : ℚ} (h : x ≤ y) : shown x ≤ shown y := by
  rcases h.lt_or_eq with h | h
  · exact nearest_mono (P := SixDigits) (shown_best x) (shown_best y) h
  · rw [h]

theorem shown_pos {x : ℚ} (hx : 0 < x) : 0 < shown x := (decimal_shown x hx).1

/-- What is shown for a positive number, and how exact it is. -/
theorem shown_digits (x : ℚ) (hx : 0 < x) :
    ∃ (d : ℕ) (k : ℤ), 10 ^ 5 ≤ d ∧ d < 10 ^ 6 ∧ shown x = d * 10 ^ k ∧ |shown x - x| ≤ 10 ^ k / 2 := by
  obtain ⟨h1, h2, h3⟩ := decimal_spec x hx
  have hs : shown x = (decimal x).1 * 10 ^ ((decimal x).2 - 5) := by
    unfold shown; rw [if_neg hx.ne', if_neg (by linarith)]
  refine ⟨_, _, h1, h2, hs, ?_⟩
  rw [hs]
  refine le_trans h3 ?_
  have h4 : Int.log 10 x ≤ (decimal x).2 := by
    unfold decimal
    simp only
    split
    · simp
    · simp
  have : (10 : ℚ) ^ (Int.log 10 x - 5) ≤ 10 ^ ((decimal x).2 - 5) := zpow_le_zpow_right₀ (by norm_num) (by omega)
  linarith

/-- If what is read is as near as a value of at least 21 bits, it has the same text. -/
theorem shown_of_near {z y : ℚ} (hz : 0 < z) (h6 : SixDigits z) (h : |y - z| ≤ z / 2 ^ 21) : shown y = z := by
  obtain ⟨d, k, hd, rfl⟩ := h6
  have hk : (0 : ℚ) < 10 ^ k := zpow_pos (by norm_num) _
  have hd0 : (0 : ℚ) < d := by
    by_contra hc
    rw [not_lt] at hc
    nlinarith
  have hd0' : 0 < d := by exact_mod_cast hd0
  have hc : ((d.toNat : ℕ) : ℚ) = d := by
    have : ((d.toNat : ℕ) : ℤ) = d := by omega
    exact_mod_cast this
  have := (shown_near_pos d.toNat k (by omega) (by rw [abs_of_pos hd0'] at hd; omega) y (by
    rw [hc]
    refine lt_of_le_of_lt h ?_
    gcongr
    norm_num)).2
  rwa [hc] at this

theorem stable_pos (t : Format) (hp : 21 ≤ t.bits) (hlh : t.low ≤ t.high) {K : ℤ} (hK1 : (10 : ℚ) ^ (K - 1) < 2 ^ t.low)
    (hK2 : (2 : ℚ) ^ t.low < 10 ^ K) {x : ℚ} (hx : 0 < x) (hv : IsValue t.bits t.low t.high x)
    (hT : shown x ≠ 10 ^ (K + 5) ∨ (10 : ℚ) ^ (K + 5) ≤ t.round (10 ^ (K + 5))) :
    shown (t.round (shown x)) = shown x := by
  have hTpos := shown_pos hx
  have hn := t.round_nearest (by omega) hlh (shown x)
  by_cases hbig : t.max < shown x
  · have hy : t.round (shown x) = t.max := by
      have h1 := t.value_le_max hn.1
      have h2 := hn.2 _ (t.max_value hlh)
      rw [abs_of_neg (by linarith), abs_of_neg (by linarith)] at h2
      linarith
    rw [hy]
    refine le_antisymm ?_ (shown_mono (t.value_le_max hv))
    conv_rhs => rw [← shown_idem]
    exact shown_mono hbig.le
  rw [not_lt] at hbig
  have hy : t.round (shown x) = roundEven (shown x / 2 ^ t.unit (shown x)) * 2 ^ t.unit (shown x) := by
    rw [t.round_pos _ hTpos, t.store_eq (by omega) hlh _ hTpos hbig, t.nearest_eq]
  have herr : |t.round (shown x) - shown x| ≤ 2 ^ t.unit (shown x) / 2 := by
    rw [hy]; exact unit_err _ _ (two_zpow_pos _)
  have hg := two_zpow_pos t.low
  by_cases hsize : (2 : ℚ) ^ (t.low + 20) ≤ shown x
  · refine shown_of_near hTpos (shown_best x).1 (le_trans herr ?_)
    have h1 := (log2_spec _ hTpos).1
    rw [div_le_div_iff₀ (by norm_num) (by norm_num)]
    rcases max_cases (Int.log 2 (shown x) - ((t.bits : ℤ) - 1)) t.low with ⟨hm, -⟩ | ⟨hm, -⟩
    · have : (2 : ℚ) ^ t.unit (shown x) * 2 ^ (20 : ℤ) ≤ 2 ^ Int.log 2 (shown x) := by
        rw [← two_zpow_add]
        refine zpow_le_zpow_right₀ (by norm_num) ?_
        unfold Format.unit
        rw [hm]
        omega
      norm_num at this ⊢
      linarith
    · have : t.unit (shown x) = t.low := hm
      rw [this]
      rw [two_zpow_add] at hsize
      norm_num at hsize ⊢
      linarith
  rw [not_le] at hsize
  have hunit : t.unit (shown x) = t.low := by
    refine t.unit_low _ hTpos (lt_of_lt_of_le hsize (zpow_le_zpow_right₀ (by norm_num) ?_))
    omega
  rw [hunit] at hy herr
  obtain ⟨m, hm⟩ := Format.value_multiple hv
  obtain ⟨d, k, hd1, hd2, hd, hde⟩ := shown_digits x hx
  have hk : (0 : ℚ) < 10 ^ k := zpow_pos (by norm_num) _
  by_cases hkK : k < K
  · have hlt : (10 : ℚ) ^ k < 2 ^ t.low := lt_of_le_of_lt (zpow_le_zpow_right₀ (by norm_num) (by omega)) hK1
    have hr : roundEven (shown x / 2 ^ t.low) = m := by
      apply roundEven_near
      have : shown x / 2 ^ t.low - m = (shown x - x) / 2 ^ t.low := by
        rw [sub_div, hm, mul_div_cancel_right₀ _ hg.ne']
      rw [this, abs_div, abs_of_pos hg, div_lt_iff₀ hg]
      linarith
    rw [hr, ← hm] at hy
    rw [hy]
  · have hgk : (2 : ℚ) ^ t.low < 10 ^ k := lt_of_lt_of_le hK2 (zpow_le_zpow_right₀ (by norm_num) (by omega))
    have hd1' : (10 : ℚ) ^ 5 ≤ d := by exact_mod_cast hd1
    have hd2' : (d : ℚ) + 1 ≤ 10 ^ 6 := by exact_mod_cast hd2
    have k5 : (10 : ℚ) ^ (k + 5) = 10 ^ 5 * 10 ^ k := by rw [zpow_add₀ (by norm_num)]; norm_num; ring
    have k6 : (10 : ℚ) ^ (k + 6) = 10 ^ 6 * 10 ^ k := by rw [zpow_add₀ (by norm_num)]; norm_num; ring
    set y := t.round (shown x) with hyd
    have herr' := abs_le.1 herr
    rw [hd] at herr'
    have hin : (10 : ℚ) ^ (k + 5) ≤ y → shown y = shown x := by
      intro hlo
      rw [hd]
      refine shown_of y d k hlo ?_ hd2 ?_
      · rw [k6]; nlinarith
      · have : y / 10 ^ k - d = (y - d * 10 ^ k) / 10 ^ k := by
          rw [sub_div, mul_div_cancel_right₀ _ hk.ne']
        rw [this, abs_div, abs_of_pos hk, div_lt_iff₀ hk, ← hd]
        linarith
    by_cases h5 : d = 10 ^ 5
    · have hTk : shown x = 10 ^ (k + 5) := by rw [hd, k5, h5]; push_cast; ring
      by_cases hkK' : k = K
      · subst hkK'
        rcases hT with hT | hT
        · exact absurd hTk hT
        · apply hin
          rw [hyd, hTk]
          exact hT
      · have hgk' : (2 : ℚ) ^ t.low < 10 ^ k / 10 := by
          refine lt_of_lt_of_le hK2 ?_
          rw [le_div_iff₀ (by norm_num)]
          calc (10 : ℚ) ^ K * 10 = 10 ^ (K + 1) := by rw [zpow_add_one₀ (by norm_num)]
            _ ≤ 10 ^ k := zpow_le_zpow_right₀ (by norm_num) (by omega)
        rw [hd]
        refine (shown_near_pos d k (by omega) hd2 y ?_).2
        rw [← hd]
        refine lt_of_le_of_lt herr ?_
        rw [hd, h5]
        push_cast
        norm_num
        linarith
    · apply hin
      have : (10 : ℚ) ^ 5 + 1 ≤ d := by
        have : 10 ^ 5 + 1 ≤ d := by omega
        exact_mod_cast this
      rw [k5]
      nlinarith

/-- Rounding gives the same for a number that is not farther away. -/
theorem roundEven_closer {u v : ℚ} (h : |u - roundEven v| ≤ |v - roundEven v|) : roundEven u = roundEven v := by
  have h1 := roundEven_err v
  rw [abs_sub_comm] at h1
  by_cases hlt : |u - roundEven v| < 1 / 2
  · exact roundEven_near u _ hlt
  · have hu : |u - roundEven v| = 1 / 2 := by linarith
    have hv : |v - roundEven v| = 1 / 2 := by linarith
    have heven : roundEven v % 2 = 0 := by
      set r := roundEven v with hr
      rcases abs_eq (by norm_num : (0 : ℚ) ≤ 1 / 2) |>.1 hv with hv | hv
      · have : v = (r : ℚ) + 1 / 2 := by linarith
        rw [this, roundEven_half] at hr
        split at hr <;> omega
      · have : v = ((r - 1 : ℤ) : ℚ) + 1 / 2 := by push_cast; linarith
        rw [this, roundEven_half] at hr
        split at hr <;> omega
    set r := roundEven v with hr
    rcases abs_eq (by norm_num : (0 : ℚ) ≤ 1 / 2) |>.1 hu with hu | hu
    · have : u = (r : ℚ) + 1 / 2 := by linarith
      rw [this, roundEven_half, if_pos heven]
    · have : u = ((r - 1 : ℤ) : ℚ) + 1 / 2 := by push_cast; linarith
      rw [this, roundEven_half, if_neg (by omega)]
      omega

/-- The value nearest to a number with six digits is read back. -/
theorem round_trip_pos (t : Format) (hp : 21 ≤ t.bits) (hlh : t.low ≤ t.high) {z : ℚ} (hz : 0 < z) (h6 : SixDigits z)
    (hmax : z ≤ t.max) : t.round (shown (t.round z)) = t.round z := by
  have hx : t.round z = t.nearest z := by rw [t.round_pos _ hz, t.store_eq (by omega) hlh _ hz hmax]
  by_cases hA : (2 : ℚ) ^ (t.low + (t.bits - 1)) ≤ z
  · have h1 := le_log2 z hz _ hA
    have h2 : t.nearest z = toBinary t.bits z := by
      unfold toBinary
      rw [if_neg hz.ne', if_neg (by linarith), t.nearest_eq]
      unfold nearest
      have : t.unit z = Int.log 2 z - (t.bits - 1) := by unfold Format.unit; omega
      rw [this]
    rw [hx, h2, shown_toBinary _ hp _ h6, ← h2, ← hx]
  · rw [not_le] at hA
    have hg := two_zpow_pos t.low
    have hlow : (2 : ℚ) ^ (t.low + (t.bits - 1)) = 2 ^ t.low * 2 ^ ((t.bits : ℤ) - 1) := two_zpow_add _ _
    have hlow2 : (2 : ℚ) ^ (t.low + t.bits) = 2 * 2 ^ (t.low + (t.bits - 1)) := by
      rw [← zpow_one_add₀ (by norm_num)]
      congr 1
      ring
    have hunit : t.unit z = t.low := t.unit_low z hz (by rw [hlow2]; linarith [two_zpow_pos (t.low + (t.bits - 1))])
    rw [t.nearest_eq, hunit] at hx
    set x := t.round z with hxd
    set r := roundEven (z / 2 ^ t.low) with hr
    by_cases hr0 : x = 0
    · rw [hr0]
      simp [shown, Format.round]
    have hxr : x = r * 2 ^ t.low := hx
    have hzu := roundEven_err (z / 2 ^ t.low)
    rw [← hr, abs_le] at hzu
    have hz0 : 0 < z / 2 ^ t.low := by positivity
    have hr1 : 0 ≤ r := by
      have : (-1 : ℚ) < r := by linarith
      have : -1 < r := by exact_mod_cast this
      omega
    have hxpos : 0 < x := by
      have : (0 : ℚ) ≤ r := by exact_mod_cast hr1
      exact lt_of_le_of_ne (by rw [hxr]; positivity) (Ne.symm hr0)
    have hTpos := shown_pos hxpos
    have hbest := (shown_best x).2 z h6
    have hxz : |z - x| ≤ 2 ^ t.low / 2 := by
      rw [abs_sub_comm, hxr]
      exact unit_err _ _ hg
    have hT : shown x < 2 ^ (t.low + t.bits) := by
      have h1 := (abs_le.1 hbest).2
      have h2 := (abs_le.1 hxz).1
      have h3 : (4 : ℚ) * 2 ^ t.low ≤ 2 ^ (t.low + (t.bits - 1)) := by
        rw [show (4 : ℚ) = 2 ^ (2 : ℤ) by norm_num, ← two_zpow_add]
        exact zpow_le_zpow_right₀ (by norm_num) (by omega)
      rw [hlow2]
      linarith
    have hTm : shown x ≤ t.max ∨ t.max < shown x := le_or_gt _ _
    have hu2 := t.unit_low _ hTpos hT
    have hround : roundEven (shown x / 2 ^ t.low) = r := by
      rw [hr]
      refine roundEven_closer ?_
      rw [← hr]
      have e1 : shown x / 2 ^ t.low - r = (shown x - x) / 2 ^ t.low := by
        rw [sub_div, hxr, mul_div_cancel_right₀ _ hg.ne']
      have e2 : z / 2 ^ t.low - r = (z - x) / 2 ^ t.low := by
        rw [sub_div, hxr, mul_div_cancel_right₀ _ hg.ne']
      rw [e1, e2, abs_div, abs_div]
      gcongr
    have hnear : t.nearest (shown x) = x := by rw [t.nearest_eq, hu2, hround, ← hxr]
    have hxm : x ≤ t.max := t.value_le_max (t.round_nearest (by omega) hlh z).1
    rw [t.round_pos _ hTpos]
    unfold Format.store
    rw [hnear, if_neg (by linarith)]

/-! ## Reading the texts of numbers -/

theorem readExponent_numeral (ex : Option (Char × Option Bool × List Char)) (r : List Char)
    (hex : ∀ c s ds, ex = some (c, s, ds) → (c = 'e' ∨ c = 'E') ∧ ds ≠ [] ∧ ∀ d ∈ ds, d.isDigit = true)
    (hr : ∀ c, r.head? = some c → c.isDigit = false ∧ (ex = none → c ≠ 'e' ∧ c ≠ 'E')) :
    readExponent (FloatTextSpec.exponentText ex ++ r) = some (exponentValue ex) := by
  rcases ex with _ | ⟨c, s, ds⟩
  · rcases r with _ | ⟨c, r⟩
    · rfl
    · have := (hr c rfl).2 rfl
      simp [FloatTextSpec.exponentText, readExponent, exponentValue, this.1, this.2]
  · obtain ⟨hc, hne, hds⟩ := hex c s ds rfl
    have hrd : readDigits (ds ++ r) false 0 = (true, value 10 ds) := by
      rw [readDigits_append ds r hds (fun c h => (hr c h).1)]
      cases ds
      · exact absurd rfl hne
      · rfl
    have hsign : readSign (signText s ++ ds ++ r) = (decide (s = some true), ds ++ r) := by
      rcases s with _ | _ | _
      · rcases ds with _ | ⟨d, ds⟩
        · exact absurd rfl hne
        · exact readSign_digit _ _ (hds d (by simp))
      · rfl
      · rfl
    have : FloatTextSpec.exponentText (some (c, s, ds)) ++ r = c :: (signText s ++ ds ++ r) := by
      simp [FloatTextSpec.exponentText]
    rw [this, readExponent, if_pos hc, hsign]
    simp only [hrd, if_true, exponentValue, decide_eq_true_eq]

theorem readDecimal_numeral (n : Numeral) (h : n.Good) (r : List Char) (hr : n.Ends r) :
    readDecimal (n.whole ++ fractionText n.fraction ++
      FloatTextSpec.exponentText n.exponent ++ r) =
      value 10 (n.whole ++ n.fraction.getD []) * 10 ^ (exponentValue n.exponent - (n.fraction.getD []).length) := by
  obtain ⟨sign, whole, fraction, ex⟩ := n
  obtain ⟨h1, h2, h3, h4⟩ := h
  simp only at h1 h2 h3 h4 ⊢
  unfold Numeral.Ends at hr
  simp only at hr
  have hE := readExponent_numeral ex r h4 (fun c hc => ⟨(hr c hc).1, fun he => ⟨((hr c hc).2 he).1, ((hr c hc).2 he).2.1⟩⟩)
  have hhead : ∀ c, (FloatTextSpec.exponentText ex ++ r).head? = some c →
      c.isDigit = false ∧ (fraction = none → c ≠ '.') := by
    intro c hc
    rcases ex with _ | ⟨c', s, ds⟩
    · exact ⟨(hr c hc).1, ((hr c hc).2 rfl).2.2⟩
    · have : c' = c := by simpa [FloatTextSpec.exponentText] using hc
      subst this
      rcases (h4 _ _ _ rfl).1 with rfl | rfl
      · exact ⟨by decide, fun _ => by decide⟩
      · exact ⟨by decide, fun _ => by decide⟩
  have hd : ∀ c ∈ whole ++ fraction.getD [], c.isDigit = true := by
    intro c hc
    rcases List.mem_append.1 hc with hc | hc
    · exact h1 c hc
    · exact h2 c hc
  have hrd := readDigits_value _ hd h3
  have hemp : (whole ++ fraction.getD []).isEmpty = false := by
    cases h : whole ++ fraction.getD []
    · exact absurd h h3
    · rfl
  have hassoc : ∀ f, whole ++ f ++ FloatTextSpec.exponentText ex ++ r = whole ++ (f ++ (FloatTextSpec.exponentText ex ++ r)) := by
    simp
  rw [hassoc]
  generalize FloatTextSpec.exponentText ex ++ r = u at hE hhead
  rcases fraction with _ | ds
  · simp only [fractionText, List.append_nil, Option.getD_none, List.nil_append] at hrd hemp ⊢
    have htw := takeWhile_digits whole u h1 fun c hc => (hhead c hc).1
    have hfr : readFraction u = ([], u) := by
      unfold readFraction
      split
      · exact absurd rfl ((hhead '.' rfl).2 rfl)
      · rfl
    unfold readDecimal
    simp only [htw.1, htw.2, hfr, List.append_nil, hemp, hE, hrd, Bool.false_eq_true, if_false]
  · simp only [fractionText, Option.getD_some, List.cons_append] at hrd hemp h2 ⊢
    have htw := takeWhile_digits whole ('.' :: (ds ++ u)) h1 (by simp)
    have hfr : readFraction ('.' :: (ds ++ u)) = (ds, u) := by
      have := takeWhile_digits ds u h2 fun c hc => (hhead c hc).1
      simp only [readFraction, this.1, this.2]
    unfold readDecimal
    simp only [htw.1, htw.2, hfr, hemp, hE, hrd, Bool.false_eq_true, if_false]

theorem dropWhile_spaces (sp u : List Char) (hsp : ∀ c ∈ sp, isSpace c = true)
    (hu : ∀ c, u.head? = some c → isSpace c = false) : (sp ++ u).dropWhile isSpace = u := by
  induction sp with
  | nil =>
    cases u with
    | nil => rfl
    | cons c u => simp [hu c rfl]
  | cons c sp ih => simp [hsp c (by simp), ih fun c h => hsp c (by simp [h])]

theorem readNumber_numeral (sp : List Char) (n : Numeral) (r : List Char) (hsp : ∀ c ∈ sp, isSpace c = true) (h : n.Good)
    (hr : n.Ends r) : readNumber (sp ++ n.text ++ r) = .ok n.number := by
  have hD := readDecimal_numeral n h r hr
  obtain ⟨sign, whole, fraction, ex⟩ := n
  obtain ⟨h1, h2, h3, h4⟩ := h
  simp only at h1 h2 h3 h4 hD
  have hhead : ∃ c u, whole ++ fractionText fraction ++
      FloatTextSpec.exponentText ex ++ r = c :: u ∧ (c.isDigit = true ∨ c = '.') := by
    rcases whole with _ | ⟨c, w⟩
    · rcases fraction with _ | ds
      · simp at h3
      · exact ⟨'.', _, rfl, Or.inr rfl⟩
    · exact ⟨c, _, rfl, Or.inl (h1 c (by simp))⟩
  have htext : sp ++ Numeral.text ⟨sign, whole, fraction, ex⟩ ++ r = sp ++ (signText sign ++
      (whole ++ fractionText fraction ++ FloatTextSpec.exponentText ex ++ r)) := by
    simp [Numeral.text]
  rw [htext]
  generalize whole ++ fractionText fraction ++ FloatTextSpec.exponentText ex ++ r = v
    at hD hhead
  obtain ⟨c, u, rfl, hc⟩ := hhead
  unfold readNumber
  rcases sign with _ | _ | _
  · rw [dropWhile_spaces sp _ hsp (by
      intro c' hc'
      have : c = c' := by simpa [signText] using hc'
      subst this
      rcases hc with hc | rfl
      · exact isSpace_not_digit hc
      · rfl)]
    have hs : readSign (c :: u) = (false, c :: u) := by
      rcases hc with hc | rfl
      · exact readSign_digit _ _ hc
      · rfl
    simp only [signText, List.nil_append, hs, Bool.false_eq_true, if_false, hD, Numeral.number]
    simp
  · rw [dropWhile_spaces sp _ hsp (by simp [signText, isSpace])]
    simp only [signText, List.cons_append, List.nil_append, readSign, Bool.false_eq_true, if_false, hD, Numeral.number]
    simp
  · rw [dropWhile_spaces sp _ hsp (by simp [signText, isSpace])]
    simp only [signText, List.cons_append, List.nil_append, readSign, if_true, hD, Numeral.number]
    simp

theorem takeWhile_all (s : List Char) : ∀ c ∈ s.takeWhile Char.isDigit, c.isDigit = true := by
  exact List.all_eq_true.1 List.all_takeWhile

theorem dropWhile_head (p : Char → Bool) (s : List Char) : ∀ c, (s.dropWhile p).head? = some c → p c = false := by
  induction s with
  | nil => simp
  | cons d s ih =>
    intro c hc
    by_cases h : p d = true
    · rw [List.dropWhile_cons_of_pos h] at hc; exact ih c hc
    · rw [List.dropWhile_cons_of_neg h] at hc
      have : d = c := by simpa using hc
      subst this
      simpa using h

theorem readSign_text (s : List Char) : ∃ o, s = signText o ++ (readSign s).2 := by
  unfold readSign
  split
  · exact ⟨some true, rfl⟩
  · exact ⟨some false, rfl⟩
  · exact ⟨none, rfl⟩

theorem readDigits_any (s : List Char) (h : (readDigits s false 0).1 = true) : s.takeWhile Char.isDigit ≠ [] := by
  rcases s with _ | ⟨c, s⟩
  · simp [readDigits] at h
  · unfold readDigits at h
    split at h
    · rename_i hc; simp [hc]
    · simp at h

/-- What `readExponent` accepts. -/
theorem readExponent_split (s : List Char) (hs : ∀ c, s.head? = some c → c.isDigit = false) (e : ℤ)
    (h : readExponent s = some e) :
    ∃ ex r, s = FloatTextSpec.exponentText ex ++ r ∧
      (∀ c sg ds, ex = some (c, sg, ds) → (c = 'e' ∨ c = 'E') ∧ ds ≠ [] ∧ ∀ d ∈ ds, d.isDigit = true) ∧
      ∀ c, r.head? = some c → c.isDigit = false ∧ (ex = none → c ≠ 'e' ∧ c ≠ 'E') := by
  rcases s with _ | ⟨c, s⟩
  · exact ⟨none, [], rfl, by simp, by simp⟩
  · rw [readExponent] at h
    split at h
    · rename_i hc
      simp only at h
      split at h
      · rename_i hm
        obtain ⟨o, ho⟩ := readSign_text s
        set v := (readSign s).2 with hv
        refine ⟨some (c, o, v.takeWhile Char.isDigit), v.dropWhile Char.isDigit, ?_, ?_, ?_⟩
        · rw [FloatTextSpec.exponentText, List.cons_append, List.append_assoc, List.takeWhile_append_dropWhile, ← ho]
        · intro c' sg ds he
          cases he
          exact ⟨hc, readDigits_any v hm, takeWhile_all v⟩
        · intro c' hc'
          exact ⟨dropWhile_head _ _ _ hc', fun h => by simp at h⟩
      · cases h
    · rename_i hc
      refine ⟨none, c :: s, rfl, by simp, ?_⟩
      intro c' hc'
      refine ⟨hs c' hc', fun _ => ?_⟩
      have : c = c' := by simpa using hc'
      subst this
      exact not_or.1 hc

theorem readFraction_split (w : List Char) (hw : ∀ c, w.head? = some c → c.isDigit = false) :
    ∃ f u, readFraction w = (f.getD [], u) ∧ w = fractionText f ++ u ∧
      (∀ c ∈ f.getD [], c.isDigit = true) ∧ (∀ c, u.head? = some c → c.isDigit = false) ∧
      (f = none → ∀ c, u.head? = some c → c ≠ '.') := by
  rcases w with _ | ⟨c, w⟩
  · exact ⟨none, [], rfl, rfl, by simp, by simp, by simp⟩
  · by_cases h : c = '.'
    · subst h
      exact ⟨some (w.takeWhile Char.isDigit), w.dropWhile Char.isDigit, rfl, by simp [fractionText], takeWhile_all _, dropWhile_head _ _,
        by simp⟩
    · refine ⟨none, c :: w, ?_, rfl, by simp, hw, ?_⟩
      · unfold readFraction
        split
        · rename_i he; cases he; exact absurd rfl h
        · rfl
      · intro _ c' hc'
        have : c = c' := by simpa using hc'
        rwa [← this]

/-- If something else than 0 is read, the text begins with a number. -/
theorem readNumber_split (s : List Char) (x : ℚ) (h : readNumber s = .ok x) (hx : x ≠ 0) :
    ∃ (sp : List Char) (n : Numeral) (r : List Char), s = sp ++ n.text ++ r ∧ (∀ c ∈ sp, isSpace c = true) ∧ n.Good ∧ n.Ends r := by
  have hsp : ∀ c ∈ s.takeWhile isSpace, isSpace c = true := List.all_eq_true.1 List.all_takeWhile
  have hs : s = s.takeWhile isSpace ++ s.dropWhile isSpace := (List.takeWhile_append_dropWhile ..).symm
  have hD : readDecimal (readSign (s.dropWhile isSpace)).2 ≠ 0 := by
    unfold readNumber at h
    intro h0
    split at h
    · cases h
    · rename_i c u hu
      simp only at h
      rw [← hu, h0] at h
      apply hx
      have := Except.ok.inj h
      rw [← this]
      simp
  obtain ⟨o, ho⟩ := readSign_text (s.dropWhile isSpace)
  set v := (readSign (s.dropWhile isSpace)).2 with hv
  have hvs : v = v.takeWhile Char.isDigit ++ v.dropWhile Char.isDigit := (List.takeWhile_append_dropWhile ..).symm
  set a := v.takeWhile Char.isDigit with ha
  set w := v.dropWhile Char.isDigit with hw
  have ha' : ∀ c ∈ a, c.isDigit = true := takeWhile_all v
  have hw' : ∀ c, w.head? = some c → c.isDigit = false := dropWhile_head _ v
  obtain ⟨f, u, hfr, hwf, hf', hu, hfn⟩ := readFraction_split w hw'
  unfold readDecimal at hD
  simp only [← ha, ← hw, hfr] at hD
  split at hD
  · exact absurd rfl hD
  · rename_i hemp
    split at hD
    · exact absurd rfl hD
    · rename_i e he
      obtain ⟨ex, r, hur, hex, hr⟩ := readExponent_split u hu e he
      refine ⟨s.takeWhile isSpace, ⟨o, a, f, ex⟩, r, ?_, hsp, ⟨ha', hf', by simpa using hemp, hex⟩, ?_⟩
      · have e1 : s.dropWhile isSpace = signText o ++ (a ++ (fractionText f ++
            (FloatTextSpec.exponentText ex ++ r))) := by rw [← hur, ← hwf, ← hvs]; exact ho
        refine hs.trans ?_
        rw [e1]
        simp [Numeral.text]
      · intro c hc
        refine ⟨(hr c hc).1, fun hn => ⟨((hr c hc).2 hn).1, ((hr c hc).2 hn).2, fun hfz => ?_⟩⟩
        refine hfn hfz c ?_
        simp only at hn
        rw [hur, hn]
        exact hc

theorem strToReal_strFloat (t : Format) (x : ℚ) : strToReal t (strFloat x) = .ok (t.round (shown x)) := by
  rw [strToReal, readNumber_strFloat]

theorem stable (t : Format) (hp : 21 ≤ t.bits) (hlh : t.low ≤ t.high) {K : ℤ} (hK1 : (10 : ℚ) ^ (K - 1) < 2 ^ t.low)
    (hK2 : (2 : ℚ) ^ t.low < 10 ^ K) {x : ℚ} (hv : IsValue t.bits t.low t.high x)
    (hT : (shown x ≠ 10 ^ (K + 5) ∧ shown x ≠ -10 ^ (K + 5)) ∨ (10 : ℚ) ^ (K + 5) ≤ t.round (10 ^ (K + 5))) :
    strFloat (t.round (shown x)) = strFloat x := by
  apply strFloat_eq_of_shown
  rcases lt_trichotomy x 0 with hx | hx | hx
  · have := stable_pos t hp hlh hK1 hK2 (x := -x) (by linarith) (Format.value_neg hv) (by
      rcases hT with hT | hT
      · left
        rw [shown_neg]
        intro h
        exact hT.2 (by linarith)
      · exact Or.inr hT)
    rw [shown_neg, t.round_neg, shown_neg] at this
    linarith
  · subst hx
    simp [Format.round, shown]
  · exact stable_pos t hp hlh hK1 hK2 hx hv (hT.imp And.left id)

theorem strFloat_digits (d : ℕ) (k : ℤ) (h1 : 10 ^ 5 ≤ d) (h2 : d < 10 ^ 6) :
    strFloat (d * 10 ^ k) = general d (k + 5) := by
  have hk : (0 : ℚ) < 10 ^ k := zpow_pos (by norm_num) _
  have hd : (0 : ℚ) < d := by
    have : 0 < d := by omega
    exact_mod_cast this
  have hx : (0 : ℚ) < d * 10 ^ k := by positivity
  rw [strFloat, if_neg hx.ne', if_neg (by linarith), decimal_near d k h1 h2 _ (by simpa using by positivity)]

end Pluto.FloatText
