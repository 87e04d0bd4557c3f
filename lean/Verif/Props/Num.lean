import Verif.Model.Num
import Verif.Spec.Num
import Verif.Proofs.Num

/-! # Properties of the number conversions (C60, C61) -/

namespace Pluto.Props

open Num NumSpec

/-! ## C60: bin, oct, hex -/

/-- C60.  For every integer of any number of bytes, signed or not, `bin` returns `0b`
and the binary numeral of its value modulo `2^(8 * bytes)`, without leading zeros. -/
theorem C60_bin (bytes : Nat) (v : Int) :
    bin bytes v = .ok ("0b".toList ++ Nat.toDigits 2 (v % 2 ^ (bytes * 8)).toNat) := by
  have h := binLoop_eq (bytes * 8) v (bytes * 8) (Nat.le_refl _)
  have h0 : (v % 2 ^ (bytes * 8)).toNat / 2 ^ (bytes * 8) = 0 := by
    have hw : (0 : Int) < 2 ^ (bytes * 8) := by positivity
    have h1 := Int.emod_lt_of_pos v hw
    have h2 := Int.emod_nonneg v (ne_of_gt hw)
    have h3 : ((v % 2 ^ (bytes * 8)).toNat : Int) < 2 ^ (bytes * 8) := by
      rwa [Int.toNat_of_nonneg h2]
    exact Nat.div_eq_of_lt (by exact_mod_cast h3)
  rw [h0] at h
  unfold bin
  rw [show printed ['0', 'b'] 2 0 = [] from rfl] at h
  rw [h, ok_bind, printed_isEmpty]
  by_cases hu : (v % 2 ^ (bytes * 8)).toNat = 0
  · rw [hu]; rfl
  · simp only [hu, decide_false, Bool.false_eq_true, if_false, printed]
    rfl

/-- C60.  `oct` likewise, in base eight. -/
theorem C60_oct (bytes : Nat) (v : Int) :
    oct bytes v = .ok ("0o".toList ++ Nat.toDigits 8 (v % 2 ^ (bytes * 8)).toNat) := by
  unfold oct
  obtain ⟨m, hm⟩ : ∃ m, (bytes * 8 + (if bytes * 8 % 3 ≠ 0 then 3 - bytes * 8 % 3 else 0)) / 3 = m :=
    ⟨_, rfl⟩
  have hm1 : bytes * 8 ≤ m * 3 := by split at hm <;> omega
  have hm2 : m * 3 < bytes * 8 + 3 := by split at hm <;> omega
  have h := octLoop_eq (bytes * 8) m v hm1 hm2 m (Nat.le_refl _)
  have h0 : (v % 2 ^ (bytes * 8)).toNat / 2 ^ (m * 3) = 0 := by
    have hw : (0 : Int) < 2 ^ (bytes * 8) := by positivity
    have h1 := Int.emod_lt_of_pos v hw
    have h2 := Int.emod_nonneg v (ne_of_gt hw)
    have h3 : ((v % 2 ^ (bytes * 8)).toNat : Int) < 2 ^ (bytes * 8) := by
      rwa [Int.toNat_of_nonneg h2]
    have h4 : (v % 2 ^ (bytes * 8)).toNat < 2 ^ (bytes * 8) := by exact_mod_cast h3
    exact Nat.div_eq_of_lt (lt_of_lt_of_le h4 (Nat.pow_le_pow_right (by norm_num) hm1))
  rw [h0, show printed ['0', 'o'] 8 0 = [] from rfl] at h
  simp only [hm]
  rw [h, ok_bind, printed_isEmpty]
  by_cases hu : (v % 2 ^ (bytes * 8)).toNat = 0
  · rw [hu]; rfl
  · simp only [hu, decide_false, Bool.false_eq_true, if_false, printed]
    rfl

/-- C60.  `hex` likewise, in base sixteen with the digits `0-9a-f`. -/
theorem C60_hex (bytes : Nat) (v : Int) :
    hex bytes v = .ok ("0x".toList ++ Nat.toDigits 16 (v % 2 ^ (bytes * 8)).toNat) := by
  unfold hex
  have h := hexLoop_eq (bytes * 8) v (bytes * 2) (by omega)
  have h0 : (v % 2 ^ (bytes * 8)).toNat / 2 ^ (bytes * 2 * 4) = 0 := by
    have hw : (0 : Int) < 2 ^ (bytes * 8) := by positivity
    have h1 := Int.emod_lt_of_pos v hw
    have h2 := Int.emod_nonneg v (ne_of_gt hw)
    have h3 : ((v % 2 ^ (bytes * 8)).toNat : Int) < 2 ^ (bytes * 8) := by
      rwa [Int.toNat_of_nonneg h2]
    rw [show bytes * 2 * 4 = bytes * 8 by omega]
    exact Nat.div_eq_of_lt (by exact_mod_cast h3)
  rw [h0, show printed ['0', 'x'] 16 0 = [] from rfl] at h
  simp only
  rw [h, ok_bind, printed_isEmpty]
  by_cases hu : (v % 2 ^ (bytes * 8)).toNat = 0
  · rw [hu]; rfl
  · simp only [hu, decide_false, Bool.false_eq_true, if_false, printed]
    rfl

/-- C60.  So the value can be read back: the text after the prefix is a numeral of a
number that is congruent to the value modulo `2^(8 * bytes)` and in `[0, 2^(8 * bytes))`;
for an unsigned value it is the value. -/
theorem C60_read_back (bytes : Nat) (v : Int) :
    ∃ b o h, bin bytes v = .ok ("0b".toList ++ b) ∧ oct bytes v = .ok ("0o".toList ++ o) ∧
      hex bytes v = .ok ("0x".toList ++ h) ∧
      ∀ n : Nat, (n = value 2 b ∨ n = value 8 o ∨ n = value 16 h) →
        (n : Int) = v % 2 ^ (bytes * 8) ∧ (0 ≤ v → v < 2 ^ (bytes * 8) → (n : Int) = v) := by
  refine ⟨_, _, _, C60_bin bytes v, C60_oct bytes v, C60_hex bytes v, ?_⟩
  intro n hn
  rw [value_toDigits 2 _ (by norm_num) (by norm_num), value_toDigits 8 _ (by norm_num) (by norm_num),
    value_toDigits 16 _ (by norm_num) (by norm_num)] at hn
  have hn : n = (v % 2 ^ (bytes * 8)).toNat := by tauto
  have hw : (0 : Int) < 2 ^ (bytes * 8) := by positivity
  have h2 := Int.emod_nonneg v (ne_of_gt hw)
  have hv : (n : Int) = v % 2 ^ (bytes * 8) := by rw [hn, Int.toNat_of_nonneg h2]
  exact ⟨hv, fun h0 h1 => by rw [hv, Int.emod_eq_of_lt h0 h1]⟩

/-- C60.  Different values of one type are printed differently. -/
theorem C60_injective (bytes : Nat) (v w : Int)
    (h : |v - w| < 2 ^ (bytes * 8))
    (heq : bin bytes v = bin bytes w ∨ oct bytes v = oct bytes w ∨ hex bytes v = hex bytes w) :
    v = w := by
  obtain ⟨b, o, x, hb, ho, hx, hv⟩ := C60_read_back bytes v
  obtain ⟨b', o', x', hb', ho', hx', hw⟩ := C60_read_back bytes w
  have hmod : v % 2 ^ (bytes * 8) = w % 2 ^ (bytes * 8) := by
    rcases heq with heq | heq | heq
    · rw [hb, hb'] at heq
      have : b = b' := by simpa using heq
      rw [← (hv _ (.inl rfl)).1, ← (hw _ (.inl rfl)).1, this]
    · rw [ho, ho'] at heq
      have : o = o' := by simpa using heq
      rw [← (hv _ (.inr (.inl rfl))).1, ← (hw _ (.inr (.inl rfl))).1, this]
    · rw [hx, hx'] at heq
      have : x = x' := by simpa using heq
      rw [← (hv _ (.inr (.inr rfl))).1, ← (hw _ (.inr (.inr rfl))).1, this]
  have hdvd : (2 : Int) ^ (bytes * 8) ∣ v - w := Int.dvd_of_emod_eq_zero (Int.emod_eq_emod_iff_emod_sub_eq_zero.1 hmod)
  have := Int.eq_zero_of_abs_lt_dvd hdvd h
  omega

example : bin 1 (-2) = .ok "0b11111110".toList ∧ oct 1 (-1) = .ok "0o377".toList ∧
    hex 2 255 = .ok "0xff".toList ∧ hex 4 0 = .ok "0x0".toList := by
  refine ⟨by rfl, by rfl, by rfl, by rfl⟩

/-! ## C61: str and str_to -/

/-- C61.  `str_to` gives back what `str` was given, for every integer type and value. -/
theorem C61_round_trip (t : IntType) (v : Int) (h1 : t.min ≤ v) (h2 : v ≤ t.max) :
    strTo t (str v) = .ok v := by
  have hdig : ∀ n, ∀ c ∈ Nat.toDigits 10 n, c.isDigit = true := fun n c hc =>
    Nat.isDigit_of_mem_toDigits (by norm_num) (by norm_num) hc
  have hread : ∀ n, readDigits (Nat.toDigits 10 n) false 0 = (true, n) := by
    intro n
    have := readDigits_append (Nat.toDigits 10 n) [] (hdig n) (by simp) false 0
    rw [List.append_nil] at this
    rw [this]
    have h3 := value_toDigits 10 n (by norm_num) (by norm_num)
    unfold value at h3
    rw [h3]
    simp [Nat.toDigits_ne_nil]
  unfold strTo
  by_cases hneg : v < 0
  · have hsigned : t.signed = true := by
      by_contra h
      simp [IntType.min, h] at h1
      omega
    have hex : extract t (str v) = some v := by
      unfold extract str
      rw [if_pos hneg]
      have : ('-' :: Nat.toDigits 10 v.natAbs).dropWhile isSpace = '-' :: Nat.toDigits 10 v.natAbs := by
        rw [List.dropWhile_cons, if_neg (by decide)]
      rw [this]
      simp only [hread]
      unfold convert
      have hv : -((v.natAbs : Nat) : Int) = v := by omega
      simp only [hsigned, Bool.not_true, Bool.false_eq_true, if_false, if_true, hv]
      rw [if_neg (by omega), if_neg (by omega)]
    rw [hex]
  · have hstr : str v = Nat.toDigits 10 v.natAbs := by unfold str; rw [if_neg hneg]
    obtain ⟨c, r, hcr⟩ := List.exists_cons_of_ne_nil (Nat.toDigits_ne_nil (n := v.natAbs) (b := 10))
    have hc : c.isDigit = true := hdig v.natAbs c (by simp [hcr])
    have hd : (str v).dropWhile isSpace = c :: r := by
      rw [hstr, hcr, List.dropWhile_cons, if_neg (by simp [isSpace_not_digit hc])]
    have hr := hread v.natAbs
    rw [hcr] at hr
    rw [extract_digit hd hc, hr]
    have hv : ((v.natAbs : Nat) : Int) = v := by omega
    simp only [convert, Bool.not_true, Bool.false_eq_true, if_false, hv]
    split
    · rw [if_neg (by omega), if_neg (by omega)]
    · rw [if_neg (by omega)]

/-- C61.  What `str_to` makes of a sign and digits with anything after them that is not a
digit, for a signed type: the nearest value of the type. -/
theorem C61_value (bits : Nat) (sp sign ds r : List Char) (hsp : ∀ c ∈ sp, isSpace c = true)
    (hsign : sign = [] ∨ sign = ['+'] ∨ sign = ['-']) (hds : ds ≠ []) (hd : ∀ c ∈ ds, c.isDigit = true)
    (hr : ∀ c, r.head? = some c → c.isDigit = false) :
    strTo ⟨bits, true⟩ (sp ++ sign ++ ds ++ r) =
      .ok (max (-2 ^ (bits - 1)) (min (2 ^ (bits - 1) - 1)
        (if sign = ['-'] then -(value 10 ds : Int) else value 10 ds))) := by
  rw [strTo_text _ hsp hsign hd hr (fun h => absurd h hds)]
  have hpow : (1 : Int) ≤ 2 ^ (bits - 1) := by
    have : (1 : Nat) ≤ 2 ^ (bits - 1) := Nat.one_le_two_pow
    exact_mod_cast this
  have hany : (!ds.isEmpty) = true := by simp [hds]
  rw [hany]
  unfold convert IntType.min IntType.max
  simp only [Bool.not_true, Bool.false_eq_true, if_false, if_true, decide_eq_true_eq]
  generalize (if sign = ['-'] then -(value 10 ds : Int) else (value 10 ds : Int)) = x
  congr 1
  split
  · omega
  · split <;> omega

/-- C61.  For an unsigned type: the nearest value of the type, but a negative number whose absolute value is in range
is counted from `2^bits` down: "-1" gives the largest value. -/
theorem C61_value_unsigned (bits : Nat) (sp sign ds r : List Char) (hsp : ∀ c ∈ sp, isSpace c = true)
    (hsign : sign = [] ∨ sign = ['+'] ∨ sign = ['-']) (hds : ds ≠ []) (hd : ∀ c ∈ ds, c.isDigit = true)
    (hr : ∀ c, r.head? = some c → c.isDigit = false) :
    strTo ⟨bits, false⟩ (sp ++ sign ++ ds ++ r) =
      .ok (if 2 ^ bits ≤ value 10 ds then 2 ^ bits - 1
        else if sign = ['-'] ∧ value 10 ds ≠ 0 then 2 ^ bits - value 10 ds else value 10 ds) := by
  rw [strTo_text _ hsp hsign hd hr (fun h => absurd h hds)]
  have hany : (!ds.isEmpty) = true := by simp [hds]
  rw [hany]
  unfold convert IntType.max
  have hc : ((2 ^ bits : Nat) : Int) = 2 ^ bits := by push_cast; rfl
  generalize value 10 ds = v at *
  simp only [Bool.not_true, Bool.false_eq_true, if_false, decide_eq_true_eq]
  congr 1
  by_cases h1 : 2 ^ bits ≤ v
  · rw [if_pos h1, if_pos (by omega)]
  · rw [if_neg h1, if_neg (by omega)]
    by_cases h2 : sign = ['-']
    · by_cases h3 : v = 0
      · subst h3; simp
      · rw [if_pos h2, if_pos ⟨h2, h3⟩]
        have : (-(v : Int)) % 2 ^ bits = (2 ^ bits - v) % 2 ^ bits := by
          rw [Int.sub_emod_left]
        rw [this]
        exact Int.emod_eq_of_lt (by omega) (by omega)
    · rw [if_neg h2, if_neg (fun h => h2 h.1)]

/-- C61.  Text without digits where the number should be gives zero. -/
theorem C61_zero (t : IntType) (sp sign r : List Char) (hsp : ∀ c ∈ sp, isSpace c = true)
    (hsign : sign = [] ∨ sign = ['+'] ∨ sign = ['-']) (hr : ∀ c, r.head? = some c → c.isDigit = false)
    (hne : sign = [] → ∃ c, r.head? = some c ∧ isSpace c = false ∧ c ≠ '+' ∧ c ≠ '-') :
    strTo t (sp ++ sign ++ r) = .ok 0 := by
  have := strTo_text t (ds := []) hsp hsign (by simp) hr (fun _ => hne)
  rw [List.append_nil] at this
  rw [this]
  rfl

/-- C61, partial: any text with something else than white space gives a value of the type.
What is missing is text without: see `C61_indeterminate`. -/
theorem C61_determinate_partial (t : IntType) (s : List Char) (h : ∃ c ∈ s, isSpace c = false) :
    ∃ v, strTo t s = .ok v ∧ t.min ≤ v ∧ v ≤ t.max := by
  have hrange : ∀ neg any m, t.min ≤ convert t neg any m ∧ convert t neg any m ≤ t.max := by
    intro neg any m
    have hp1 : (1 : Int) ≤ 2 ^ (t.bits - 1) := by
      have : (1 : Nat) ≤ 2 ^ (t.bits - 1) := Nat.one_le_two_pow
      exact_mod_cast this
    have hp2 : (1 : Int) ≤ 2 ^ t.bits := by
      have : (1 : Nat) ≤ 2 ^ t.bits := Nat.one_le_two_pow
      exact_mod_cast this
    unfold convert IntType.min IntType.max
    cases any <;> cases hs : t.signed <;> simp only [Bool.not_true, Bool.not_false, if_true, if_false, Bool.false_eq_true]
    · omega
    · omega
    · split
      · omega
      · cases neg
        · simp only [Bool.false_eq_true, if_false]; omega
        · simp only [if_true]
          have := Int.emod_nonneg (-(m : Int)) (by omega : (2 : Int) ^ t.bits ≠ 0)
          have := Int.emod_lt_of_pos (-(m : Int)) (by omega : (0 : Int) < 2 ^ t.bits)
          omega
    · generalize (if neg = true then -(m : Int) else (m : Int)) = x
      split
      · omega
      · split <;> omega
  obtain ⟨c, hc, hsp⟩ := h
  have hne : s.dropWhile isSpace ≠ [] := by
    intro h
    have := dropWhile_nil.1 h c hc
    simp [hsp] at this
  obtain ⟨d, r, hdr⟩ := List.exists_cons_of_ne_nil hne
  unfold strTo extract
  rw [hdr]
  split
  · rename_i v hv
    refine ⟨v, rfl, ?_⟩
    split at hv
    · simp at hv
    · cases hv; exact hrange ..
    · cases hv; exact hrange ..
    · cases hv; exact hrange ..
  · rename_i hv
    split at hv <;> simp_all

/-- C61 fails for empty text and for white space: the value returned is that of an
uninitialised variable. -/
theorem C61_indeterminate (t : IntType) (s : List Char) (h : ∀ c ∈ s, isSpace c = true) :
    strTo t s = .error .undefined := by
  unfold strTo extract
  rw [dropWhile_nil.2 h]

example : strTo ⟨32, true⟩ (str (-2147483648)) = .ok (-2147483648) :=
  C61_round_trip _ _ (by decide) (by decide)

example : strTo ⟨8, true⟩ " -200x".toList = .ok (-128) ∧ strTo ⟨16, false⟩ "-1".toList = .ok 65535 ∧
    strTo ⟨32, true⟩ "x".toList = .ok 0 ∧ strTo ⟨16, false⟩ " +70000 ".toList = .ok 65535 ∧
    strTo ⟨16, false⟩ "-70000".toList = .ok 65535 := by decide

end Pluto.Props
