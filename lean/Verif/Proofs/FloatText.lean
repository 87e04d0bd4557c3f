import Verif.Model.FloatText
import Verif.Spec.FloatText
import Verif.Proofs.Num
import Mathlib.Tactic.Linarith
import Mathlib.Tactic.Positivity
import Mathlib.Tactic.FieldSimp
import Mathlib.Tactic.Ring
import Mathlib.Tactic.NormNum
import Mathlib.Tactic.ByContra

/-!
# Lemmas about the texts of floating-point numbers
-/

namespace Pluto.FloatText
open Pluto.Num Pluto.NumSpec

/-! ## Rounding -/

theorem roundEven_err (y : ℚ) : |(roundEven y : ℚ) - y| ≤ 1 / 2 := by
  have h1 := Int.floor_le y
  have h2 := Int.lt_floor_add_one y
  unfold roundEven
  simp only
  rw [abs_le]
  split
  · constructor <;> linarith
  · split
    · push_cast; constructor <;> linarith
    · have : y - (⌊y⌋ : ℚ) = 1 / 2 := by linarith
      split
      · constructor <;> linarith
      · push_cast; constructor <;> linarith

theorem roundEven_near (y : ℚ) (n : ℤ) (h : |y - n| < 1 / 2) : roundEven y = n := by
  have h1 := roundEven_err y
  rw [abs_le] at h1
  rw [abs_lt] at h
  have h2 : ((roundEven y : ℤ) : ℚ) - n < 1 := by linarith
  have h3 : (-1 : ℚ) < ((roundEven y : ℤ) : ℚ) - n := by linarith
  have h4 : roundEven y - n < 1 := by exact_mod_cast h2
  have h5 : -1 < roundEven y - n := by exact_mod_cast h3
  omega

theorem nearest_err (p : ℕ) (x : ℚ) (hx : 0 < x) : |nearest p x - x| ≤ x / 2 ^ p := by
  unfold nearest
  simp only
  set e : ℤ := Int.log 2 x - (p - 1) with he
  have hpos : (0 : ℚ) < 2 ^ e := zpow_pos (by norm_num) _
  have h1 := roundEven_err (x / 2 ^ e)
  have h2 : (roundEven (x / 2 ^ e) : ℚ) * 2 ^ e - x = ((roundEven (x / 2 ^ e) : ℚ) - x / 2 ^ e) * 2 ^ e := by
    field_simp
  rw [h2, abs_mul, abs_of_pos hpos]
  have h3 : (2 : ℚ) ^ e * 2 ^ p = 2 * 2 ^ Int.log 2 x := by
    rw [← zpow_natCast, ← zpow_add₀ (by norm_num), he, ← zpow_one_add₀ (by norm_num)]
    congr 1; ring
  have h4 : (2 : ℚ) ^ Int.log 2 x ≤ x := by
    have := Int.zpow_log_le_self (b := 2) (by norm_num) hx
    exact_mod_cast this
  rw [le_div_iff₀ (by positivity)]
  calc |(roundEven (x / 2 ^ e) : ℚ) - x / 2 ^ e| * 2 ^ e * 2 ^ p
      ≤ 1 / 2 * 2 ^ e * 2 ^ p := by gcongr
    _ = 1 / 2 * (2 ^ e * 2 ^ p) := by ring
    _ = 2 ^ Int.log 2 x := by rw [h3]; ring
    _ ≤ x := h4

/-- The exponent of the first digit. -/
theorem log_eq (x : ℚ) (k : ℤ) (h1 : (10 : ℚ) ^ k ≤ x) (h2 : x < 10 ^ (k + 1)) : Int.log 10 x = k := by
  have hx : 0 < x := lt_of_lt_of_le (zpow_pos (by norm_num) _) h1
  have h3 := (Int.zpow_le_iff_le_log (b := 10) (by norm_num) hx (x := k)).1 (by exact_mod_cast h1)
  have h4 := (Int.lt_zpow_iff_log_lt (b := 10) (by norm_num) hx (x := k + 1)).1 (by exact_mod_cast h2)
  omega

theorem log_spec (x : ℚ) (hx : 0 < x) : (10 : ℚ) ^ Int.log 10 x ≤ x ∧ x < 10 ^ (Int.log 10 x + 1) := by
  have h1 := Int.zpow_log_le_self (b := 10) (by norm_num) hx
  have h2 := Int.lt_zpow_succ_log_self (b := 10) (by norm_num) x
  exact ⟨by exact_mod_cast h1, by exact_mod_cast h2⟩

/-- What six digits of a positive number are. -/
theorem decimal_spec (x : ℚ) (hx : 0 < x) :
    10 ^ 5 ≤ (decimal x).1 ∧ (decimal x).1 < 10 ^ 6 ∧
      |((decimal x).1 : ℚ) * 10 ^ ((decimal x).2 - 5) - x| ≤ 1 / 2 * 10 ^ (Int.log 10 x - 5) := by
  obtain ⟨hl, hu⟩ := log_spec x hx
  set e : ℤ := Int.log 10 x with he
  have hpos : (0 : ℚ) < 10 ^ (e - 5) := zpow_pos (by norm_num) _
  have herr := roundEven_err (x / 10 ^ (e - 5))
  set r : ℤ := roundEven (x / 10 ^ (e - 5)) with hr
  have hlo : (10 : ℚ) ^ 5 ≤ x / 10 ^ (e - 5) := by
    rw [le_div_iff₀ hpos, ← zpow_natCast, ← zpow_add₀ (by norm_num)]
    simpa using hl
  have hhi : x / 10 ^ (e - 5) < 10 ^ 6 := by
    rw [div_lt_iff₀ hpos, ← zpow_natCast, ← zpow_add₀ (by norm_num)]
    rw [show ((6 : ℕ) : ℤ) + (e - 5) = e + 1 by push_cast; ring]; exact hu
  have h1 : (10 : ℤ) ^ 5 ≤ r := by
    rw [abs_le] at herr
    have : (10 : ℚ) ^ 5 - 1 < r := by linarith
    have : (10 : ℤ) ^ 5 - 1 < r := by exact_mod_cast this
    omega
  have h2 : r ≤ 10 ^ 6 := by
    rw [abs_le] at herr
    have : (r : ℚ) < 10 ^ 6 + 1 := by linarith
    have : r < 10 ^ 6 + 1 := by exact_mod_cast this
    omega
  have hcast : ((r.toNat : ℕ) : ℚ) = r := by
    have : ((r.toNat : ℕ) : ℤ) = r := by omega
    exact_mod_cast this
  have herr' : |(r : ℚ) * 10 ^ (e - 5) - x| ≤ 1 / 2 * 10 ^ (e - 5) := by
    have : (r : ℚ) * 10 ^ (e - 5) - x = ((r : ℚ) - x / 10 ^ (e - 5)) * 10 ^ (e - 5) := by field_simp
    rw [this, abs_mul, abs_of_pos hpos]
    gcongr
  unfold decimal
  simp only [← he, ← hr]
  split
  · rename_i h6
    refine ⟨by norm_num, by norm_num, ?_⟩
    have h7 : (r : ℚ) = 10 ^ 6 := by rw [← hcast, h6]; norm_num
    have : (((10 ^ 5 : ℕ) : ℚ)) * 10 ^ (e + 1 - 5) = r * 10 ^ (e - 5) := by
      rw [h7, show e + 1 - 5 = 1 + (e - 5) by ring, zpow_add₀ (by norm_num)]; push_cast; ring
    simp only
    rw [this]; exact herr'
  · rename_i h6
    refine ⟨by simp only; omega, by simp only; omega, ?_⟩
    simp only
    rw [hcast]; exact herr'

/-- A number very close to one with six digits has these digits. -/
theorem decimal_near (d : ℕ) (k : ℤ) (h1 : 10 ^ 5 ≤ d) (h2 : d < 10 ^ 6) (x : ℚ)
    (hx : |x - d * 10 ^ k| < d * 10 ^ k / (2 * 10 ^ 6)) : decimal x = (d, k + 5) := by
  have hk : (0 : ℚ) < 10 ^ k := zpow_pos (by norm_num) _
  have hd1 : (10 : ℚ) ^ 5 ≤ d := by exact_mod_cast h1
  have hd2 : (d : ℚ) ≤ 10 ^ 6 - 1 := by
    have : d + 1 ≤ 10 ^ 6 := h2
    have : (d : ℚ) + 1 ≤ 10 ^ 6 := by exact_mod_cast this
    linarith
  have k5 : (10 : ℚ) ^ (k + 5) = 10 ^ 5 * 10 ^ k := by rw [zpow_add₀ (by norm_num)]; norm_num; ring
  have k6 : (10 : ℚ) ^ (k + 5 + 1) = 10 ^ 6 * 10 ^ k := by
    rw [zpow_add₀ (by norm_num), k5]; norm_num; ring
  have hlt : (d : ℚ) * 10 ^ k / (2 * 10 ^ 6) < 1 / 2 * 10 ^ k := by
    rw [div_lt_iff₀ (by norm_num)]
    nlinarith
  rw [abs_lt] at hx
  by_cases hge : (10 : ℚ) ^ (k + 5) ≤ x
  · have hlog : Int.log 10 x = k + 5 := by
      apply log_eq _ _ hge
      rw [k6]
      nlinarith
    have hround : roundEven (x / 10 ^ k) = (d : ℤ) := by
      apply roundEven_near
      have : x / 10 ^ k - ((d : ℤ) : ℚ) = (x - d * 10 ^ k) / 10 ^ k := by
        push_cast; field_simp
      rw [this, abs_div, abs_of_pos hk, div_lt_iff₀ hk, abs_lt]
      constructor <;> linarith
    unfold decimal
    simp only [hlog, show k + 5 - 5 = k by ring, hround, Int.toNat_natCast]
    rw [if_neg (by omega)]
  · rw [not_le, k5] at hge
    have hd5 : d = 10 ^ 5 := by
      have : (d : ℚ) * 10 ^ k < (10 ^ 5 + 1) * 10 ^ k := by nlinarith
      have := lt_of_mul_lt_mul_right this hk.le
      have : d < 10 ^ 5 + 1 := by exact_mod_cast this
      omega
    subst hd5
    push_cast at hx
    have km : (10 : ℚ) ^ k = 10 * 10 ^ (k - 1) := by
      rw [show k = 1 + (k - 1) by ring, zpow_add₀ (by norm_num)]; norm_num
    have hk1 : (0 : ℚ) < 10 ^ (k - 1) := zpow_pos (by norm_num) _
    have k4 : (10 : ℚ) ^ (k + 4) = 10 ^ 5 * 10 ^ (k - 1) := by
      rw [show k + 4 = 5 + (k - 1) by ring, zpow_add₀ (by norm_num)]; norm_num
    have hlog : Int.log 10 x = k + 4 := by
      apply log_eq
      · rw [k4]; rw [km] at hx; linarith
      · rw [show k + 4 + 1 = k + 5 by ring, k5]; exact hge
    have hround : roundEven (x / 10 ^ (k - 1)) = 10 ^ 6 := by
      apply roundEven_near
      have : x / 10 ^ (k - 1) - ((10 ^ 6 : ℤ) : ℚ) = (x - 10 ^ 6 * 10 ^ (k - 1)) / 10 ^ (k - 1) := by
        rw [sub_div, mul_div_assoc, div_self hk1.ne', mul_one]; norm_num
      rw [this, abs_div, abs_of_pos hk1, div_lt_iff₀ hk1, abs_lt]
      rw [km] at hx
      constructor <;> linarith
    unfold decimal
    simp only [hlog, show k + 4 - 5 = k - 1 by ring, hround]
    rw [if_pos (by decide)]
    simp; ring

/-! ## Reading what has been written -/

theorem foldl_value (b : List Char) (acc : ℕ) :
    b.foldl (fun acc c => acc * 10 + digitValue c) acc = acc * 10 ^ b.length + value 10 b := by
  unfold value
  induction b generalizing acc with
  | nil => simp
  | cons c b ih =>
    simp only [List.foldl_cons, List.length_cons]
    rw [ih, ih (0 * 10 + digitValue c)]
    ring

theorem value_app (a b : List Char) : value 10 (a ++ b) = value 10 a * 10 ^ b.length + value 10 b := by
  conv_lhs => unfold value
  rw [List.foldl_append, foldl_value]
  rfl

theorem value_zeros (n : ℕ) : value 10 (List.replicate n '0') = 0 := by
  induction n with
  | zero => rfl
  | succ n ih => rw [List.replicate_succ', value_app, ih]; rfl

theorem stripZeros_spec (s : List Char) : ∃ n, s = stripZeros s ++ List.replicate n '0' := by
  unfold stripZeros
  refine ⟨(s.reverse.takeWhile (· == '0')).length, ?_⟩
  have h1 : s.reverse.takeWhile (· == '0') = List.replicate (s.reverse.takeWhile (· == '0')).length '0' := by
    rw [List.eq_replicate_iff]
    refine ⟨rfl, fun c hc => ?_⟩
    have := List.all_takeWhile (p := (· == '0')) (l := s.reverse)
    rw [List.all_eq_true] at this
    simpa using this c hc
  have h2 := List.takeWhile_append_dropWhile (p := (· == '0')) (l := s.reverse)
  have h3 := congrArg List.reverse h2
  rw [List.reverse_append, List.reverse_reverse] at h3
  conv_lhs => rw [← h3]
  congr 1
  conv_lhs => rw [h1]
  exact List.reverse_replicate

theorem readDigits_value (s : List Char) (h : ∀ c ∈ s, c.isDigit = true) (hne : s ≠ []) :
    readDigits s false 0 = (true, value 10 s) := by
  have := readDigits_append s [] h (by simp) false 0
  rw [List.append_nil] at this
  rw [this]
  cases s
  · exact absurd rfl hne
  · rfl

theorem takeWhile_digits (a t : List Char) (ha : ∀ c ∈ a, c.isDigit = true)
    (ht : ∀ c, t.head? = some c → c.isDigit = false) :
    (a ++ t).takeWhile Char.isDigit = a ∧ (a ++ t).dropWhile Char.isDigit = t := by
  induction a with
  | nil =>
    cases t with
    | nil => simp
    | cons c t => simp [ht c rfl]
  | cons c a ih =>
    have hc := ha c (by simp)
    have := ih fun c h => ha c (by simp [h])
    simp [hc, this]

theorem readFraction_point (f t : List Char) (hf : ∀ c ∈ f, c.isDigit = true)
    (ht : ∀ c, t.head? = some c → c.isDigit = false ∧ c ≠ '.') :
    readFraction (point f ++ t) = (f, t) := by
  unfold point
  cases f with
  | nil =>
    cases t with
    | nil => rfl
    | cons c t =>
      have := (ht c rfl).2
      simp only [List.isEmpty_nil, if_true, List.nil_append]
      unfold readFraction
      split
      · rename_i h; cases h; exact absurd rfl this
      · rfl
  | cons c f =>
    have := takeWhile_digits (c :: f) t hf fun c hc => (ht c hc).1
    simp only [List.isEmpty_cons, Bool.false_eq_true, if_false, List.cons_append, readFraction] at *
    rw [this.1, this.2]

theorem readDecimal_text (a f t : List Char) (E : ℤ) (ha : ∀ c ∈ a, c.isDigit = true) (hne : a ≠ [])
    (hf : ∀ c ∈ f, c.isDigit = true) (ht : ∀ c, t.head? = some c → c.isDigit = false ∧ c ≠ '.')
    (hE : readExponent t = some E) :
    readDecimal (a ++ (point (stripZeros f) ++ t)) = value 10 (a ++ f) * 10 ^ (E - f.length) := by
  obtain ⟨n, hn⟩ := stripZeros_spec f
  set g := stripZeros f with hg
  have hgd : ∀ c ∈ g, c.isDigit = true := fun c hc => hf c (by rw [hn]; simp [hc])
  have hh : ∀ c, (point g ++ t).head? = some c → c.isDigit = false := by
    intro c hc
    unfold point at hc
    cases hgc : g with
    | nil => rw [hgc] at hc; exact (ht c (by simpa using hc)).1
    | cons d g' =>
      rw [hgc] at hc
      simp at hc
      subst hc; rfl
  have htw := takeWhile_digits a (point g ++ t) ha hh
  have hfr := readFraction_point g t hgd ht
  have hemp : (a ++ g).isEmpty = false := by
    cases a
    · exact absurd rfl hne
    · rfl
  have hrd := readDigits_value (a ++ g) (by
    intro c hc
    rcases List.mem_append.1 hc with h | h
    · exact ha c h
    · exact hgd c h) (by simp [hne])
  unfold readDecimal
  simp only [htw.1, htw.2, hfr, hemp, hE, hrd, Bool.false_eq_true, if_false]
  have hv : value 10 (a ++ f) = value 10 (a ++ g) * 10 ^ n := by
    rw [hn, ← List.append_assoc, value_app, value_zeros]; simp
  have hl : f.length = g.length + n := by
    have := congrArg List.length hn
    rwa [List.length_append, List.length_replicate] at this
  rw [hv, hl]
  push_cast
  rw [mul_assoc, ← zpow_natCast (10 : ℚ) n, ← zpow_add₀ (by norm_num)]
  congr 2
  ring

theorem readExponent_text (e : ℤ) : readExponent (exponentText e) = some e := by
  have key : ∀ s : List Char, s = (if e.natAbs < 10 then '0' :: Nat.toDigits 10 e.natAbs else Nat.toDigits 10 e.natAbs) →
      readDigits s false 0 = (true, e.natAbs) := by
    intro s hs
    have hd : ∀ c ∈ Nat.toDigits 10 e.natAbs, c.isDigit = true := fun c hc =>
      Nat.isDigit_of_mem_toDigits (by norm_num) (by norm_num) hc
    have hv := value_toDigits 10 e.natAbs (by norm_num) (by norm_num)
    subst hs
    split
    · rw [readDigits_value _ (by
        intro c hc
        rcases List.mem_cons.1 hc with h | h
        · subst h; rfl
        · exact hd c h) (by simp)]
      have := value_app ['0'] (Nat.toDigits 10 e.natAbs)
      rw [List.singleton_append] at this
      rw [this, hv]
      have h0 : value 10 ['0'] = 0 := rfl
      rw [h0]; simp
    · rw [readDigits_value _ hd Nat.toDigits_ne_nil, hv]
  unfold exponentText
  generalize hs : (if e.natAbs < 10 then '0' :: Nat.toDigits 10 e.natAbs else Nat.toDigits 10 e.natAbs) = s
  have hk := key s hs.symm
  by_cases h : e < 0
  · simp only [readExponent, h, if_true, readSign, hk, true_or]
    congr 1; omega
  · simp only [readExponent, h, if_true, if_false, readSign, hk, true_or, Bool.false_eq_true]
    congr 1; omega

theorem length_six {d : ℕ} (h1 : 10 ^ 5 ≤ d) (h2 : d < 10 ^ 6) : (Nat.toDigits 10 d).length = 6 := by
  have a := (Nat.length_toDigits_le_iff (b := 10) (n := d) (k := 6) (by norm_num) (by norm_num)).2 h2
  have b := (Nat.length_toDigits_le_iff (b := 10) (n := d) (k := 5) (by norm_num) (by norm_num)).not.2 (by omega)
  omega

/-- The text is read as exactly the number of its digits. -/
theorem readDecimal_general (d : ℕ) (e : ℤ) (h1 : 10 ^ 5 ≤ d) (h2 : d < 10 ^ 6) :
    readDecimal (general d e) = d * 10 ^ (e - 5) := by
  have hl := length_six h1 h2
  have hd : ∀ c ∈ Nat.toDigits 10 d, c.isDigit = true := fun c hc =>
    Nat.isDigit_of_mem_toDigits (by norm_num) (by norm_num) hc
  have hv := value_toDigits 10 d (by norm_num) (by norm_num)
  unfold general
  generalize hds : Nat.toDigits 10 d = ds at hl hd hv
  simp only
  split
  · rw [List.append_assoc, readDecimal_text (ds.take 1) (ds.drop 1) (exponentText e) e
      (fun c hc => hd c (List.mem_of_mem_take hc)) (by intro h; have := congrArg List.length h; simp [hl] at this)
      (fun c hc => hd c (List.mem_of_mem_drop hc)) (by intro c hc; simp [exponentText] at hc; subst hc; decide)
      (readExponent_text e), List.take_append_drop, hv, List.length_drop, hl]
    norm_num
  · split
    · rename_i h h0
      have := readDecimal_text ['0'] (List.replicate (-e - 1).toNat '0' ++ ds) [] 0 (by simp) (by simp)
        (by
          intro c hc
          rcases List.mem_append.1 hc with h | h
          · rw [List.eq_of_mem_replicate h]; decide
          · exact hd c h) (by simp) rfl
      rw [List.append_nil, List.singleton_append] at this
      rw [this]
      have hz : value 10 (['0'] ++ (List.replicate (-e - 1).toNat '0' ++ ds)) = d := by
        rw [value_app, value_app, value_zeros, hv]
        have h0 : value 10 ['0'] = 0 := rfl
        rw [h0]; simp
      rw [hz, List.length_append, List.length_replicate, hl]
      congr 2
      omega
    · rename_i h h0
      have := readDecimal_text (ds.take (e + 1).toNat) (ds.drop (e + 1).toNat) [] 0
        (fun c hc => hd c (List.mem_of_mem_take hc))
        (by intro h; have := congrArg List.length h; simp [hl] at this; omega)
        (fun c hc => hd c (List.mem_of_mem_drop hc)) (by simp) rfl
      rw [List.append_nil] at this
      rw [this, List.take_append_drop, hv, List.length_drop, hl]
      congr 2
      omega

/-- A text begins with a digit. -/
theorem general_head (d : ℕ) (e : ℤ) : ∃ c s, general d e = c :: s ∧ c.isDigit = true := by
  have hd : ∀ c ∈ Nat.toDigits 10 d, c.isDigit = true := fun c hc =>
    Nat.isDigit_of_mem_toDigits (by norm_num) (by norm_num) hc
  unfold general
  cases hds : Nat.toDigits 10 d with
  | nil => exact absurd hds Nat.toDigits_ne_nil
  | cons c ds =>
    have hc := hd c (by simp [hds])
    simp only
    split
    · exact ⟨c, _, rfl, hc⟩
    · split
      · exact ⟨'0', _, rfl, rfl⟩
      · rename_i h h0
        obtain ⟨n, hn⟩ : ∃ n, (e + 1).toNat = n + 1 := ⟨e.toNat, by omega⟩
        exact ⟨c, ds.take n ++ point (stripZeros ((c :: ds).drop (n + 1))), by rw [hn]; rfl, hc⟩

theorem readSign_digit (c : Char) (s : List Char) (h : c.isDigit = true) : readSign (c :: s) = (false, c :: s) := by
  unfold readSign
  split
  · rename_i heq; cases heq; exact absurd h (by decide)
  · rename_i heq; cases heq; exact absurd h (by decide)
  · rfl

/-- The number that the text denotes. -/
def shown (x : ℚ) : ℚ :=
  if x = 0 then 0
  else if x < 0 then -((decimal (-x)).1 * 10 ^ ((decimal (-x)).2 - 5))
  else (decimal x).1 * 10 ^ ((decimal x).2 - 5)

theorem readNumber_strFloat (x : ℚ) : readNumber (strFloat x) = .ok (shown x) := by
  unfold strFloat shown
  by_cases h0 : x = 0
  · have : readDecimal ['0'] = 0 := by
      have := readDecimal_text ['0'] [] [] 0 (by simp) (by simp) (by simp) (by simp) rfl
      rw [show value 10 (['0'] ++ []) = 0 from rfl] at this
      simpa [stripZeros, point] using this
    simp only [h0, if_true]
    unfold readNumber
    rw [List.dropWhile_cons_of_neg (by decide)]
    simp only [readSign_digit '0' [] rfl, Bool.false_eq_true, if_false, this]
  · by_cases hn : x < 0
    · obtain ⟨h1, h2, _⟩ := decimal_spec (-x) (by linarith)
      simp only [h0, hn, if_true, if_false]
      unfold readNumber
      rw [List.dropWhile_cons_of_neg (by decide)]
      simp only [readSign, if_true]
      rw [readDecimal_general _ _ h1 h2]
    · have hp : 0 < x := lt_of_le_of_ne (not_lt.1 hn) (Ne.symm h0)
      obtain ⟨h1, h2, _⟩ := decimal_spec x hp
      simp only [h0, hn, if_false]
      obtain ⟨c, s, hs, hc⟩ := general_head (decimal x).1 (decimal x).2
      have hr := readDecimal_general _ (decimal x).2 h1 h2
      unfold readNumber
      rw [hs] at hr ⊢
      rw [List.dropWhile_cons_of_neg (by rw [isSpace_not_digit hc]; decide)]
      simp only [readSign_digit c s hc, Bool.false_eq_true, if_false]
      rw [hr]

theorem strToFloat_strFloat (p : ℕ) (x : ℚ) : strToFloat p (strFloat x) = .ok (toBinary p (shown x)) := by
  simp only [strToFloat, readNumber_strFloat]

/-! ## Nearest numbers -/

open Pluto.FloatTextSpec

theorem roundEven_int (n : ℤ) : roundEven (n : ℚ) = n := roundEven_near _ _ (by simp)

theorem roundEven_best (y : ℚ) (n : ℤ) : |(roundEven y : ℚ) - y| ≤ |(n : ℚ) - y| := by
  by_cases h : n = roundEven y
  · rw [h]
  · have h1 := roundEven_err y
    by_contra hlt
    rw [not_le] at hlt
    refine h (roundEven_near y n ?_).symm
    rw [abs_sub_comm]
    linarith

theorem bits_neg {p : ℕ} {x : ℚ} (h : Bits p x) : Bits p (-x) := by
  obtain ⟨m, k, h1, h2⟩ := h
  exact ⟨-m, k, by rwa [abs_neg], by rw [h2]; push_cast; ring⟩

theorem sixDigits_neg {x : ℚ} (h : SixDigits x) : SixDigits (-x) := by
  obtain ⟨m, k, h1, h2⟩ := h
  exact ⟨-m, k, by rwa [abs_neg], by rw [h2]; push_cast; ring⟩

/-- A power of the base times an integer that is not less than the unit is a multiple of the unit. -/
theorem zpow_multiple (b : ℕ) (hb : b ≠ 0) (m : ℤ) (k u : ℤ) (h : u ≤ k) :
    ∃ n : ℤ, (m : ℚ) * (b : ℚ) ^ k = n * (b : ℚ) ^ u := by
  refine ⟨m * b ^ (k - u).toNat, ?_⟩
  have hb : (b : ℚ) ≠ 0 := by exact_mod_cast hb
  push_cast
  rw [mul_assoc, ← zpow_natCast, ← zpow_add₀ hb]
  congr 2
  omega

theorem nearest_exact (p : ℕ) (x : ℚ) (hx : 0 < x) (h : Bits p x) : nearest p x = x := by
  obtain ⟨m, k, hm, rfl⟩ := h
  set x : ℚ := (m : ℚ) * 2 ^ k with hxd
  have hl : (2 : ℚ) ^ Int.log 2 x ≤ x := by
    have := Int.zpow_log_le_self (b := 2) (by norm_num) hx
    exact_mod_cast this
  have hk : (0 : ℚ) < 2 ^ k := zpow_pos (by norm_num) _
  have hm' : (m : ℚ) < 2 ^ p := by
    have : m < 2 ^ p := lt_of_le_of_lt (le_abs_self m) hm
    exact_mod_cast this
  have h1 : (2 : ℚ) ^ Int.log 2 x < 2 ^ (p + k) := by
    rw [zpow_add₀ (by norm_num), zpow_natCast]
    calc (2 : ℚ) ^ Int.log 2 x ≤ m * 2 ^ k := hl
      _ < 2 ^ p * 2 ^ k := by gcongr
  have h2 : Int.log 2 x < p + k := (zpow_lt_zpow_iff_right₀ (by norm_num)).1 h1
  unfold nearest
  simp only
  obtain ⟨n, hn⟩ := zpow_multiple 2 (by norm_num) m k (Int.log 2 x - (p - 1)) (by omega)
  push_cast at hn
  rw [← hxd] at hn
  have he : (2 : ℚ) ^ (Int.log 2 x - ((p : ℤ) - 1)) ≠ 0 := zpow_ne_zero _ (by norm_num)
  have : x / 2 ^ (Int.log 2 x - ((p : ℤ) - 1)) = n := by rw [div_eq_iff he]; exact hn
  rw [this, roundEven_int]
  exact hn.symm

theorem toBinary_exact (p : ℕ) (x : ℚ) (h : Bits p x) : toBinary p x = x := by
  unfold toBinary
  split
  · symm; assumption
  · split
    · rw [nearest_exact p (-x) (by linarith) (bits_neg h)]; ring
    · rename_i h0 hn
      exact nearest_exact p x (lt_of_le_of_ne (not_lt.1 hn) (Ne.symm h0)) h

theorem toBinary_err (p : ℕ) (x : ℚ) : |toBinary p x - x| ≤ |x| / 2 ^ p := by
  unfold toBinary
  split
  · rename_i h; subst h; simp
  · split
    · rename_i h0 hn
      have := nearest_err p (-x) (by linarith)
      rw [abs_of_neg hn, ← abs_neg]
      convert this using 2
      ring
    · rename_i h0 hn
      have hp : 0 < x := lt_of_le_of_ne (not_lt.1 hn) (Ne.symm h0)
      rw [abs_of_pos hp]
      exact nearest_err p x hp

theorem toBinary_neg (p : ℕ) (x : ℚ) : toBinary p (-x) = -toBinary p x := by
  unfold toBinary
  rcases lt_trichotomy x 0 with h | h | h
  · rw [if_neg (by linarith), if_neg (by linarith), if_neg h.ne, if_pos h, neg_neg]
  · subst h; simp
  · rw [if_neg (by linarith), if_pos (by linarith), if_neg h.ne', if_neg (by linarith), neg_neg]

/-- What is written is nearest among the numbers with six digits. -/
theorem decimal_best (x : ℚ) (hx : 0 < x) :
    NearestSixDigits x ((decimal x).1 * 10 ^ ((decimal x).2 - 5)) := by
  obtain ⟨hd1, hd2, _⟩ := decimal_spec x hx
  refine ⟨⟨(decimal x).1, (decimal x).2 - 5, by rw [abs_of_nonneg (by omega)]; omega, by push_cast; rfl⟩, ?_⟩
  obtain ⟨hl, hu⟩ := log_spec x hx
  have hval : ((decimal x).1 : ℚ) * 10 ^ ((decimal x).2 - 5) =
      roundEven (x / 10 ^ (Int.log 10 x - 5)) * 10 ^ (Int.log 10 x - 5) := by
    have hpos : (0 : ℚ) < 10 ^ (Int.log 10 x - 5) := zpow_pos (by norm_num) _
    have hr0 : 0 ≤ roundEven (x / 10 ^ (Int.log 10 x - 5)) := by
      have h1 := roundEven_err (x / 10 ^ (Int.log 10 x - 5))
      rw [abs_le] at h1
      have : 0 < x / 10 ^ (Int.log 10 x - 5) := by positivity
      have : (-1 : ℚ) < roundEven (x / 10 ^ (Int.log 10 x - 5)) := by linarith
      have : -1 < roundEven (x / 10 ^ (Int.log 10 x - 5)) := by exact_mod_cast this
      omega
    set r := roundEven (x / 10 ^ (Int.log 10 x - 5)) with hr
    have hcast : ((r.toNat : ℕ) : ℚ) = r := by
      have : ((r.toNat : ℕ) : ℤ) = r := by omega
      exact_mod_cast this
    unfold decimal
    simp only [← hr]
    split
    · rename_i h6
      have h7 : (r : ℚ) = 10 ^ 6 := by rw [← hcast, h6]; norm_num
      simp only
      rw [h7, show Int.log 10 x + 1 - 5 = 1 + (Int.log 10 x - 5) by ring, zpow_add₀ (by norm_num)]
      push_cast; ring
    · simp only; rw [hcast]
  rw [hval]
  set e := Int.log 10 x with he
  have hpos : (0 : ℚ) < 10 ^ (e - 5) := zpow_pos (by norm_num) _
  have hmul : ∀ n : ℤ, |(roundEven (x / 10 ^ (e - 5)) : ℚ) * 10 ^ (e - 5) - x| ≤ |(n : ℚ) * 10 ^ (e - 5) - x| := by
    intro n
    have h := roundEven_best (x / 10 ^ (e - 5)) n
    have hsplit : ∀ q : ℚ, |q * 10 ^ (e - 5) - x| = |q - x / 10 ^ (e - 5)| * 10 ^ (e - 5) := by
      intro q
      rw [← abs_of_pos hpos, ← abs_mul, abs_of_pos hpos, sub_mul, div_mul_cancel₀ _ hpos.ne']
    rw [hsplit, hsplit]
    gcongr
  rintro z ⟨d, k, hd, rfl⟩
  by_cases hk : e - 5 ≤ k
  · obtain ⟨n, hn⟩ := zpow_multiple 10 (by norm_num) d k (e - 5) hk
    push_cast at hn
    rw [hn]; exact hmul n
  · have h1 := hmul (10 ^ 5)
    have h2 : (((10 : ℤ) ^ 5 : ℤ) : ℚ) * 10 ^ (e - 5) = 10 ^ e := by
      rw [show e = 5 + (e - 5) by ring, zpow_add₀ (by norm_num)]; norm_num
    rw [h2] at h1
    refine le_trans h1 ?_
    have hdq : (d : ℚ) < 10 ^ 6 := by
      have : d < 10 ^ 6 := lt_of_le_of_lt (le_abs_self d) hd
      exact_mod_cast this
    have hkp : (0 : ℚ) < 10 ^ k := zpow_pos (by norm_num) _
    have h3 : (d : ℚ) * 10 ^ k ≤ 10 ^ e := by
      calc (d : ℚ) * 10 ^ k ≤ 10 ^ 6 * 10 ^ k := by gcongr
        _ = 10 ^ (6 + k) := by rw [zpow_add₀ (by norm_num)]; norm_num
        _ ≤ 10 ^ e := zpow_le_zpow_right₀ (by norm_num) (by omega)
    rw [abs_of_nonpos (by linarith), abs_of_nonpos (by linarith)]
    linarith

theorem shown_best (x : ℚ) : NearestSixDigits x (shown x) := by
  unfold shown
  split
  · rename_i h; subst h
    refine ⟨⟨0, 0, by norm_num, by norm_num⟩, fun z _ => ?_⟩
    simp
  · split
    · rename_i h0 hn
      obtain ⟨h1, h2⟩ := decimal_best (-x) (by linarith)
      refine ⟨sixDigits_neg h1, fun z hz => ?_⟩
      have := h2 (-z) (sixDigits_neg hz)
      rw [← abs_neg, ← abs_neg (z - x)]
      convert this using 2 <;> ring
    · rename_i h0 hn
      exact decimal_best x (lt_of_le_of_ne (not_lt.1 hn) (Ne.symm h0))

theorem shown_err (x : ℚ) : |shown x - x| ≤ 5 / 10 ^ 6 * |x| := by
  have key : ∀ y : ℚ, 0 < y → |((decimal y).1 : ℚ) * 10 ^ ((decimal y).2 - 5) - y| ≤ 5 / 10 ^ 6 * y := by
    intro y hy
    obtain ⟨_, _, h⟩ := decimal_spec y hy
    have hl := (log_spec y hy).1
    refine le_trans h ?_
    rw [show Int.log 10 y - 5 = -5 + Int.log 10 y by ring, zpow_add₀ (by norm_num)]
    norm_num at *
    linarith
  unfold shown
  split
  · rename_i h; subst h; simp
  · split
    · rename_i h0 hn
      have := key (-x) (by linarith)
      rw [abs_of_neg hn, ← abs_neg]
      convert this using 2
      ring
    · rename_i h0 hn
      have hp : 0 < x := lt_of_le_of_ne (not_lt.1 hn) (Ne.symm h0)
      rw [abs_of_pos hp]
      exact key x hp

/-- A positive number with at most six digits can be written with exactly six. -/
theorem sixDigits_normal (d : ℕ) (k : ℤ) (h0 : 0 < d) (h1 : d < 10 ^ 6) :
    ∃ (d' : ℕ) (k' : ℤ), 10 ^ 5 ≤ d' ∧ d' < 10 ^ 6 ∧ (d : ℚ) * 10 ^ k = d' * 10 ^ k' := by
  have : ∀ j : ℕ, ∀ d : ℕ, 0 < d → d < 10 ^ 6 → 10 ^ 5 ≤ d * 10 ^ j → ∀ k : ℤ,
      ∃ (d' : ℕ) (k' : ℤ), 10 ^ 5 ≤ d' ∧ d' < 10 ^ 6 ∧ (d : ℚ) * 10 ^ k = d' * 10 ^ k' := by
    intro j
    induction j with
    | zero => intro d _ hd hj k; exact ⟨d, k, by simpa using hj, hd, rfl⟩
    | succ j ih =>
      intro d hd0 hd hj k
      by_cases h5 : 10 ^ 5 ≤ d
      · exact ⟨d, k, h5, hd, rfl⟩
      · obtain ⟨d', k', a, b, c⟩ := ih (d * 10) (by omega) (by omega)
          (by rw [pow_succ] at hj; rw [mul_assoc, mul_comm 10]; exact hj) (k - 1)
        refine ⟨d', k', a, b, ?_⟩
        rw [← c]
        push_cast
        rw [mul_assoc]
        congr 1
        conv_lhs => rw [show k = 1 + (k - 1) by ring, zpow_add₀ (by norm_num)]
        norm_num
  exact this 5 d h0 h1 (by omega) k

/-- A number that is nearly one with six digits is shown as that number. -/
theorem shown_near_pos (d : ℕ) (k : ℤ) (h0 : 0 < d) (h1 : d < 10 ^ 6) (x : ℚ)
    (hx : |x - d * 10 ^ k| < d * 10 ^ k / (2 * 10 ^ 6)) : 0 < x ∧ shown x = d * 10 ^ k := by
  obtain ⟨d', k', a, b, c⟩ := sixDigits_normal d k h0 h1
  rw [c] at hx ⊢
  have hdec := decimal_near d' k' a b x hx
  have hz : (0 : ℚ) < d' * 10 ^ k' := by
    have : (0 : ℚ) < d' := by exact_mod_cast (by omega : 0 < d')
    have := zpow_pos (show (0 : ℚ) < 10 by norm_num) k'
    positivity
  have hp : 0 < x := by
    rw [abs_lt] at hx
    have : (d' : ℚ) * 10 ^ k' / (2 * 10 ^ 6) < d' * 10 ^ k' := by
      rw [div_lt_iff₀ (by norm_num)]; linarith
    linarith
  refine ⟨hp, ?_⟩
  unfold shown
  rw [if_neg hp.ne', if_neg (by linarith), hdec]
  simp

theorem shown_neg (x : ℚ) : shown (-x) = -shown x := by
  unfold shown
  rcases lt_trichotomy x 0 with h | h | h
  · rw [if_neg (by linarith), if_neg (by linarith), if_neg h.ne, if_pos h, neg_neg]
  · subst h; simp
  · rw [if_neg (by linarith), if_pos (by linarith), if_neg h.ne', if_neg (by linarith), neg_neg]

theorem shown_toBinary (p : ℕ) (hp : 21 ≤ p) (z : ℚ) (hz : SixDigits z) : shown (toBinary p z) = z := by
  have hpos : ∀ (d : ℕ) (k : ℤ), 0 < d → d < 10 ^ 6 →
      shown (toBinary p ((d : ℚ) * 10 ^ k)) = d * 10 ^ k := by
    intro d k h0 h1
    have hz : (0 : ℚ) < d * 10 ^ k := by
      have : (0 : ℚ) < d := by exact_mod_cast h0
      have := zpow_pos (show (0 : ℚ) < 10 by norm_num) k
      positivity
    refine (shown_near_pos d k h0 h1 _ ?_).2
    refine lt_of_le_of_lt (toBinary_err p _) ?_
    rw [abs_of_pos hz]
    have : (2 : ℚ) * 10 ^ 6 < 2 ^ p := by
      calc (2 : ℚ) * 10 ^ 6 < 2 ^ 21 := by norm_num
        _ ≤ 2 ^ p := pow_le_pow_right₀ (by norm_num) hp
    gcongr
  obtain ⟨d, k, hd, rfl⟩ := hz
  rcases lt_trichotomy d 0 with h | h | h
  · have := hpos (-d).toNat k (by omega) (by rw [abs_of_neg h] at hd; omega)
    have hc : (((-d).toNat : ℕ) : ℚ) = -d := by
      have : (((-d).toNat : ℕ) : ℤ) = -d := by omega
      exact_mod_cast this
    rw [hc, neg_mul, toBinary_neg, shown_neg] at this
    linarith
  · subst h; simp [toBinary, shown]
  · have := hpos d.toNat k (by omega) (by rw [abs_of_pos h] at hd; omega)
    have hc : ((d.toNat : ℕ) : ℚ) = d := by
      have : ((d.toNat : ℕ) : ℤ) = d := by omega
      exact_mod_cast this
    rwa [hc] at this

/-- Numbers that are shown as the same number have the same text. -/
theorem decimal_shown (x : ℚ) (hx : 0 < x) : 0 < shown x ∧ decimal (shown x) = decimal x := by
  obtain ⟨h1, h2, _⟩ := decimal_spec x hx
  have hs : shown x = (decimal x).1 * 10 ^ ((decimal x).2 - 5) := by
    unfold shown; rw [if_neg hx.ne', if_neg (by linarith)]
  have hpos : 0 < shown x := by
    rw [hs]
    have : (0 : ℚ) < (decimal x).1 := by exact_mod_cast (by omega : 0 < (decimal x).1)
    have := zpow_pos (show (0 : ℚ) < 10 by norm_num) ((decimal x).2 - 5)
    positivity
  refine ⟨hpos, ?_⟩
  have := decimal_near (decimal x).1 ((decimal x).2 - 5) h1 h2 (shown x) (by
    rw [← hs, sub_self, abs_zero]; positivity)
  rw [this]
  simp

theorem strFloat_shown (x : ℚ) : strFloat (shown x) = strFloat x := by
  rcases lt_trichotomy x 0 with h | h | h
  · obtain ⟨h1, h2⟩ := decimal_shown (-x) (by linarith)
    rw [shown_neg] at h1 h2
    unfold strFloat
    rw [if_neg (by linarith), if_pos (by linarith), if_neg h.ne, if_pos h, h2]
  · subst h; simp [shown]
  · obtain ⟨h1, h2⟩ := decimal_shown x h
    unfold strFloat
    rw [if_neg h1.ne', if_neg (by linarith), if_neg h.ne', if_neg (by linarith), h2]

theorem strFloat_eq_of_shown {x y : ℚ} (h : shown x = shown y) : strFloat x = strFloat y := by
  rw [← strFloat_shown x, h, strFloat_shown]

theorem strFloat_toBinary (p : ℕ) (hp : 21 ≤ p) (x : ℚ) : strFloat (toBinary p (shown x)) = strFloat x := by
  apply strFloat_eq_of_shown
  exact shown_toBinary p hp (shown x) (shown_best x).1

/-- The digits of a number that is not half-way between two texts. -/
theorem shown_of (x : ℚ) (d : ℕ) (k : ℤ) (hl : (10 : ℚ) ^ (k + 5) ≤ x) (hu : x < 10 ^ (k + 6)) (hd : d < 10 ^ 6)
    (h : |x / 10 ^ k - d| < 1 / 2) : shown x = d * 10 ^ k := by
  have hx : 0 < x := lt_of_lt_of_le (zpow_pos (by norm_num) _) hl
  have hlog := log_eq x (k + 5) hl (by rw [show k + 5 + 1 = k + 6 by ring]; exact hu)
  have hr := roundEven_near (x / 10 ^ k) d (by simpa using h)
  have hdec : decimal x = (d, k + 5) := by
    unfold decimal
    simp only [hlog, show k + 5 - 5 = k by ring, hr, Int.toNat_natCast]
    rw [if_neg (by omega)]
  unfold shown
  rw [if_neg hx.ne', if_neg (by linarith), hdec]
  simp

/-- Halfway between two integers. -/
theorem roundEven_half (n : ℤ) : roundEven ((n : ℚ) + 1 / 2) = if n % 2 = 0 then n else n + 1 := by
  have hf : ⌊(n : ℚ) + 1 / 2⌋ = n := by
    rw [Int.floor_eq_iff]; constructor <;> norm_num
  unfold roundEven
  simp only [hf]
  rw [if_neg (by norm_num), if_neg (by norm_num)]

/-- Halfway between two numbers with six digits. -/
theorem decimal_half (d : ℕ) (k : ℤ) (h1 : 10 ^ 5 ≤ d) (h2 : d < 10 ^ 6) :
    shown (((d : ℚ) + 1 / 2) * 10 ^ k) = (if d % 2 = 0 then d else d + 1) * 10 ^ k := by
  have hk : (0 : ℚ) < 10 ^ k := zpow_pos (by norm_num) _
  have hd1 : (10 : ℚ) ^ 5 ≤ d := by exact_mod_cast h1
  have hd2 : (d : ℚ) + 1 ≤ 10 ^ 6 := by exact_mod_cast h2
  set x : ℚ := ((d : ℚ) + 1 / 2) * 10 ^ k with hxd
  have hx : 0 < x := by rw [hxd]; positivity
  have k5 : (10 : ℚ) ^ (k + 5) = 10 ^ 5 * 10 ^ k := by rw [zpow_add₀ (by norm_num)]; norm_num; ring
  have k6 : (10 : ℚ) ^ (k + 5 + 1) = 10 ^ 6 * 10 ^ k := by
    rw [zpow_add₀ (by norm_num), k5]; norm_num; ring
  have hlog : Int.log 10 x = k + 5 := by
    apply log_eq
    · rw [k5, hxd]; gcongr; linarith
    · rw [k6, hxd]; gcongr; linarith
  have hdiv : x / 10 ^ k = ((d : ℤ) : ℚ) + 1 / 2 := by rw [hxd, mul_div_cancel_right₀ _ hk.ne']; push_cast; rfl
  unfold shown
  rw [if_neg hx.ne', if_neg (by linarith)]
  unfold decimal
  simp only [hlog, show k + 5 - 5 = k by ring, hdiv, roundEven_half]
  by_cases he : d % 2 = 0
  · simp only [he, show (d : ℤ) % 2 = 0 by omega, if_true, Int.toNat_natCast]
    rw [if_neg (by omega)]
    simp
  · have ht : ((d : ℤ) + 1).toNat = d + 1 := by omega
    simp only [he, show ¬ (d : ℤ) % 2 = 0 by omega, if_false, ht]
    split
    · rename_i h6
      simp only [h6]
      rw [show k + 5 + 1 - 5 = 1 + k by ring, zpow_add₀ (by norm_num)]
      push_cast; ring
    · simp

theorem bits_int (p : ℕ) (v : ℤ) (h : |v| < 2 ^ p) : Bits p v := ⟨v, 0, h, by simp⟩

end Pluto.FloatText
