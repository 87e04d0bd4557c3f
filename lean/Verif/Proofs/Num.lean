import Mathlib.Tactic.Ring
import Mathlib.Tactic.Positivity
import Mathlib.Tactic.NormNum
import Mathlib.Data.Int.Init
import Verif.Model.Num
import Verif.Spec.Num

/-! # Lemmas about the number conversions -/

namespace Pluto.Num

open NumSpec

theorem ok_bind {β γ : Type} (a : β) (f : β → Res γ) : ((Except.ok a : Res β) >>= f) = f a := rfl

theorem shr_ok {bits : Nat} {v : Int} {k : Nat} (h : k < bits) :
    shr bits v k = .ok (v / 2 ^ k) := by
  unfold shr
  rw [if_neg (by omega)]

/-- The digit of `k` bits at position `p`, of a value modulo `2^w`. -/
theorem digit_eq (v : Int) (w p k : Nat) (h : p + k ≤ w) :
    (v / 2 ^ p) % 2 ^ k = (((v % 2 ^ w).toNat / 2 ^ p % 2 ^ k : Nat) : Int) := by
  have hw : (2 : Int) ^ w ≠ 0 := by positivity
  have hu : ((v % 2 ^ w).toNat : Int) = v % 2 ^ w := Int.toNat_of_nonneg (Int.emod_nonneg _ hw)
  push_cast
  rw [hu]
  obtain ⟨e, rfl⟩ := Nat.exists_eq_add_of_le h
  have h1 : v = v % 2 ^ (p + k + e) + 2 ^ p * (2 ^ (k + e) * (v / 2 ^ (p + k + e))) := by
    have := (Int.emod_add_mul_ediv v (2 ^ (p + k + e))).symm
    rw [show (2 : Int) ^ (p + k + e) = 2 ^ p * 2 ^ (k + e) by rw [← pow_add]; congr 1; omega] at this ⊢
    rw [← mul_assoc]
    exact this
  conv_lhs => rw [h1]
  rw [Int.add_mul_ediv_left _ _ (by positivity), pow_add 2 k e, mul_assoc, Int.add_mul_emod_self_left]

theorem land_eq (v : Int) (w p k : Nat) (h : p + k ≤ w) :
    land (v / 2 ^ p) (2 ^ k - 1) = (v % 2 ^ w).toNat / 2 ^ p % 2 ^ k := by
  have h2k : (1 : Nat) ≤ 2 ^ k := Nat.one_le_two_pow
  unfold land
  rw [Nat.cast_sub h2k]
  push_cast
  rw [sub_add_cancel, digit_eq v w p k h, Int.toNat_natCast]

/-- What has been printed when the digits above position `p` are done: nothing if they are
all zero. -/
def printed (pre : List Char) (b h : Nat) : List Char :=
  if h = 0 then [] else pre ++ Nat.toDigits b h

theorem printed_step {pre : List Char} {b h d : Nat} (hb : 1 < b) (hd : d < b) (hh : h ≠ 0) :
    printed pre b h ++ [d.digitChar] = printed pre b (h * b + d) := by
  unfold printed
  have : h * b + d ≠ 0 := by
    have : 0 < h * b := Nat.mul_pos (by omega) (by omega)
    omega
  rw [if_neg hh, if_neg this, Nat.mul_comm, ← Nat.toDigits_append_toDigits hb (by omega) hd,
    Nat.toDigits_of_lt_base hd, List.append_assoc]

theorem printed_first {pre : List Char} {b d : Nat} (hd : d < b) (h : d ≠ 0) :
    pre ++ [d.digitChar] = printed pre b d := by
  unfold printed
  rw [if_neg h, Nat.toDigits_of_lt_base hd]

theorem printed_isEmpty {pre : List Char} {b h : Nat} :
    (printed pre b h).isEmpty = decide (h = 0) := by
  unfold printed
  by_cases hh : h = 0
  · simp [hh]
  · simp [hh, Nat.toDigits_ne_nil]

theorem shift_step (u p k : Nat) : u / 2 ^ p = u / 2 ^ (p + k) * 2 ^ k + u / 2 ^ p % 2 ^ k := by
  rw [pow_add, ← Nat.div_div_eq_div_mul, Nat.mul_comm]
  exact (Nat.div_add_mod _ _).symm

theorem charAt_digit {d : Nat} (h : d < 16) : charAt "0123456789abcdef".toList d = .ok d.digitChar := by
  have : ∀ d < 16, charAt "0123456789abcdef".toList d = .ok (Nat.digitChar d) := by decide
  exact this d h

theorem charAt_digit8 {d : Nat} (h : d < 8) : charAt "01234567".toList d = .ok d.digitChar := by
  have : ∀ d < 8, charAt "01234567".toList d = .ok (Nat.digitChar d) := by decide
  exact this d h

theorem binLoop_eq (w : Nat) (v : Int) : ∀ i ≤ w,
    binLoop w v i (printed ['0', 'b'] 2 ((v % 2 ^ w).toNat / 2 ^ i)) =
      .ok (printed ['0', 'b'] 2 (v % 2 ^ w).toNat) := by
  intro i
  induction i with
  | zero => intro _; simp [binLoop]; rfl
  | succ i ih =>
    intro hi
    have ih := ih (by omega)
    rw [binLoop, shr_ok (by omega), ok_bind]
    have hd : land (v / 2 ^ i) 1 = (v % 2 ^ w).toNat / 2 ^ i % 2 ^ 1 := land_eq v w i 1 (by omega)
    have hs := shift_step (v % 2 ^ w).toNat i 1
    generalize (v % 2 ^ w).toNat = u at *
    simp only [hd, printed_isEmpty]
    have hlt : u / 2 ^ i % 2 ^ 1 < 2 := Nat.mod_lt _ (by norm_num)
    rw [pow_one] at *
    by_cases h0 : u / 2 ^ (i + 1) = 0
    · rw [h0] at hs ⊢
      by_cases h1 : u / 2 ^ i % 2 = 0
      · simp only [h1, decide_true, Bool.not_true, ne_eq, not_true_eq_false, if_false,
          Bool.false_eq_true]
        have : u / 2 ^ i = 0 := by omega
        rw [this] at ih
        exact ih
      · have h1' : u / 2 ^ i % 2 = 1 := by omega
        simp only [h1', decide_true, Bool.not_true, ne_eq, one_ne_zero, not_false_eq_true, if_true,
          if_false, Bool.false_eq_true]
        have h2 : u / 2 ^ i = 1 := by omega
        rw [h2] at ih
        exact ih
    · simp only [h0, decide_false, Bool.not_false, if_true]
      have : (if u / 2 ^ i % 2 ≠ 0 then '1' else '0') = (u / 2 ^ i % 2).digitChar := by
        rcases (by omega : u / 2 ^ i % 2 = 0 ∨ u / 2 ^ i % 2 = 1) with h | h <;> rw [h] <;> rfl
      rw [this, printed_step (by norm_num) hlt h0, ← hs]
      exact ih

theorem hexLoop_eq (w : Nat) (v : Int) : ∀ i, i * 4 ≤ w →
    hexLoop w v i (i * 4) (printed ['0', 'x'] 16 ((v % 2 ^ w).toNat / 2 ^ (i * 4))) =
      .ok (printed ['0', 'x'] 16 (v % 2 ^ w).toNat) := by
  intro i
  induction i with
  | zero => intro _; simp [hexLoop]; rfl
  | succ i ih =>
    intro hi
    have ih := ih (by omega)
    have hpos : (i + 1) * 4 - 4 = i * 4 := by omega
    rw [hexLoop]
    simp only [hpos]
    rw [shr_ok (by omega), ok_bind]
    have hd : land (v / 2 ^ (i * 4)) 15 = (v % 2 ^ w).toNat / 2 ^ (i * 4) % 2 ^ 4 :=
      land_eq v w (i * 4) 4 (by omega)
    have hs := shift_step (v % 2 ^ w).toNat (i * 4) 4
    rw [show i * 4 + 4 = (i + 1) * 4 by omega] at hs
    generalize (v % 2 ^ w).toNat = u at *
    simp only [hd, printed_isEmpty]
    norm_num only at hs ⊢
    have hlt : u / 2 ^ (i * 4) % 16 < 16 := Nat.mod_lt _ (by norm_num)
    rw [charAt_digit hlt]
    by_cases h0 : u / 2 ^ ((i + 1) * 4) = 0
    · rw [h0] at hs ⊢
      by_cases h1 : u / 2 ^ (i * 4) % 16 = 0
      · simp only [h1, decide_true, Bool.not_true, ne_eq, not_true_eq_false, if_false,
          Bool.false_eq_true]
        have : u / 2 ^ (i * 4) = 0 := by omega
        rw [this] at ih
        exact ih
      · simp only [h1, decide_true, Bool.not_true, ne_eq, not_false_eq_true, if_true,
          if_false, Bool.false_eq_true, ok_bind]
        have h2 : u / 2 ^ (i * 4) % 16 = u / 2 ^ (i * 4) := by omega
        rw [printed_first hlt h1, h2]
        exact ih
    · simp only [h0, decide_false, Bool.not_false, if_true, ok_bind]
      rw [printed_step (by norm_num) hlt h0, ← hs]
      exact ih

theorem lastBitsAt_ok {r : Nat} (h : r < 3) :
    lastBitsAt r = .ok (2 ^ (if r = 0 then 3 else r) - 1) := by
  have : ∀ r < 3, lastBitsAt r = .ok (2 ^ (if r = 0 then 3 else r) - 1) := by decide
  exact this r h

theorem octLoop_eq (w m : Nat) (v : Int) (hm : w ≤ m * 3) (hm2 : m * 3 < w + 3) :
    ∀ i ≤ m,
    octLoop w m v i (i * 3) (printed ['0', 'o'] 8 ((v % 2 ^ w).toNat / 2 ^ (i * 3))) =
      .ok (printed ['0', 'o'] 8 (v % 2 ^ w).toNat) := by
  intro i
  induction i with
  | zero => intro _; simp [octLoop]; rfl
  | succ i ih =>
    intro hi
    have ih := ih (by omega)
    have hpos : (i + 1) * 3 - 3 = i * 3 := by omega
    rw [octLoop]
    simp only [hpos]
    rw [shr_ok (by omega), ok_bind]
    obtain ⟨mask, hmask, hd⟩ : ∃ mask, octMask w m (i + 1) = .ok mask ∧
        land (v / 2 ^ (i * 3)) mask = (v % 2 ^ w).toNat / 2 ^ (i * 3) % 2 ^ 3 := by
      unfold octMask
      by_cases hlast : i + 1 = m
      · rw [if_pos hlast, lastBitsAt_ok (Nat.mod_lt _ (by norm_num))]
        refine ⟨_, rfl, ?_⟩
        have hk : (if w % 3 = 0 then 3 else w % 3) = w - i * 3 := by
          subst hlast
          split <;> omega
        rw [hk]
        generalize hke : w - i * 3 = k at *
        rw [land_eq v w (i * 3) k (by omega)]
        have hu : (v % 2 ^ w).toNat < 2 ^ w := by
          have hw' : (0 : Int) < 2 ^ w := by positivity
          have := Int.emod_lt_of_pos v hw'
          have h0 := Int.emod_nonneg v (ne_of_gt hw')
          have : ((v % 2 ^ w).toNat : Int) < 2 ^ w := by rwa [Int.toNat_of_nonneg h0]
          exact_mod_cast this
        have hlt : (v % 2 ^ w).toNat / 2 ^ (i * 3) < 2 ^ k := by
          rw [Nat.div_lt_iff_lt_mul (by positivity), ← pow_add]
          rwa [show k + i * 3 = w by omega]
        have hk3 : (2 : Nat) ^ k ≤ 2 ^ 3 := Nat.pow_le_pow_right (by norm_num) (by omega)
        rw [Nat.mod_eq_of_lt hlt, Nat.mod_eq_of_lt (lt_of_lt_of_le hlt hk3)]
      · rw [if_neg hlast]
        exact ⟨7, rfl, land_eq v w (i * 3) 3 (by omega)⟩
    rw [hmask, ok_bind]
    have hs := shift_step (v % 2 ^ w).toNat (i * 3) 3
    rw [show i * 3 + 3 = (i + 1) * 3 by omega] at hs
    generalize (v % 2 ^ w).toNat = u at *
    simp only [hd, printed_isEmpty]
    norm_num only at hs ⊢
    have hlt : u / 2 ^ (i * 3) % 8 < 8 := Nat.mod_lt _ (by norm_num)
    rw [charAt_digit8 hlt]
    by_cases h0 : u / 2 ^ ((i + 1) * 3) = 0
    · rw [h0] at hs ⊢
      by_cases h1 : u / 2 ^ (i * 3) % 8 = 0
      · simp only [h1, decide_true, Bool.not_true, ne_eq, not_true_eq_false, if_false,
          Bool.false_eq_true]
        have : u / 2 ^ (i * 3) = 0 := by omega
        rw [this] at ih
        exact ih
      · simp only [h1, decide_true, Bool.not_true, ne_eq, not_false_eq_true, if_true,
          if_false, Bool.false_eq_true, ok_bind]
        have h2 : u / 2 ^ (i * 3) % 8 = u / 2 ^ (i * 3) := by omega
        rw [printed_first hlt h1, h2]
        exact ih
    · simp only [h0, decide_false, Bool.not_false, if_true, ok_bind]
      rw [printed_step (by norm_num) hlt h0, ← hs]
      exact ih

theorem value_append (b : Nat) (s : List Char) (c : Char) :
    value b (s ++ [c]) = value b s * b + digitValue c := by
  simp [value]

theorem digitValue_digitChar {d : Nat} (h : d < 16) : digitValue d.digitChar = d := by
  have : ∀ d < 16, digitValue (Nat.digitChar d) = d := by decide
  exact this d h

theorem value_toDigits (b n : Nat) (hb : 1 < b) (hb2 : b ≤ 16) : value b (Nat.toDigits b n) = n := by
  induction n using Nat.strongRecOn with
  | _ n ih =>
    by_cases h : n < b
    · rw [Nat.toDigits_of_lt_base h]
      simp [value, digitValue_digitChar (by omega : n < 16)]
    · rw [Nat.toDigits_of_base_le hb (by omega), value_append, ih _ (Nat.div_lt_self (by omega) hb),
        digitValue_digitChar (by have := Nat.mod_lt n (by omega : 0 < b); omega)]
      rw [Nat.mul_comm]; exact Nat.div_add_mod _ _

/-! ## Decimal -/

theorem readDigits_append (ds r : List Char) (hd : ∀ c ∈ ds, c.isDigit = true)
    (hr : ∀ c, r.head? = some c → c.isDigit = false) (any : Bool) (acc : Nat) :
    readDigits (ds ++ r) any acc =
      (any || !ds.isEmpty, ds.foldl (fun acc c => acc * 10 + digitValue c) acc) := by
  induction ds generalizing any acc with
  | nil =>
    cases r with
    | nil => simp [readDigits]
    | cons c r => simp [readDigits, hr c rfl]
  | cons c ds ih =>
    have hc := hd c (by simp)
    rw [List.cons_append, readDigits, if_pos hc, ih fun c h => hd c (by simp [h])]
    simp [digitValue, hc]

theorem isSpace_not_digit {c : Char} (h : c.isDigit = true) : isSpace c = false := by
  by_contra hs
  have hs : isSpace c = true := by simpa using hs
  simp only [isSpace, Bool.or_eq_true, beq_iff_eq] at hs
  rcases hs with ((((h' | h') | h') | h') | h') | h' <;> subst h' <;> revert h <;> decide

theorem extract_digit {t : IntType} {s : List Char} {c : Char} {r : List Char}
    (h : s.dropWhile isSpace = c :: r) (hc : c.isDigit = true) :
    extract t s = some (convert t false (readDigits (c :: r) false 0).1
      (readDigits (c :: r) false 0).2) := by
  unfold extract
  rw [h]
  split
  · simp_all
  · rename_i heq; cases heq; exact absurd hc (by decide)
  · rename_i heq; cases heq; exact absurd hc (by decide)
  · rename_i heq; cases heq; rfl

theorem dropWhile_nil {s : List Char} : s.dropWhile isSpace = [] ↔ ∀ c ∈ s, isSpace c = true := by
  induction s with
  | nil => simp
  | cons c s ih =>
    rw [List.dropWhile_cons]
    cases h : isSpace c <;> simp [h, ih]

/-- What `str_to` makes of white space, a sign, digits, and anything else after them. -/
theorem strTo_text (t : IntType) {sp sign ds r : List Char} (hsp : ∀ c ∈ sp, isSpace c = true)
    (hsign : sign = [] ∨ sign = ['+'] ∨ sign = ['-']) (hd : ∀ c ∈ ds, c.isDigit = true)
    (hr : ∀ c, r.head? = some c → c.isDigit = false)
    (hne : ds = [] → sign = [] → ∃ c, r.head? = some c ∧ isSpace c = false ∧ c ≠ '+' ∧ c ≠ '-') :
    strTo t (sp ++ sign ++ ds ++ r) = .ok (convert t (decide (sign = ['-'])) (!ds.isEmpty) (value 10 ds)) := by
  have hread : readDigits (ds ++ r) false 0 = (!ds.isEmpty, value 10 ds) := by
    rw [readDigits_append ds r hd hr]
    simp [value]
  have hdrop : ∀ t : List Char, (sp ++ t).dropWhile isSpace = t.dropWhile isSpace := by
    intro t
    rw [List.dropWhile_append_of_pos hsp]
  unfold strTo
  rcases hsign with rfl | rfl | rfl
  · have hh : ∃ c u, ds ++ r = c :: u ∧ isSpace c = false ∧ c ≠ '+' ∧ c ≠ '-' := by
      cases ds with
      | nil =>
        obtain ⟨c, h1, h2⟩ := hne rfl rfl
        cases r with
        | nil => cases h1
        | cons d u => cases h1; exact ⟨c, u, rfl, h2⟩
      | cons c u =>
        have hc := hd c (by simp)
        exact ⟨c, u ++ r, rfl, isSpace_not_digit hc, by rintro rfl; exact absurd hc (by decide),
          by rintro rfl; exact absurd hc (by decide)⟩
    obtain ⟨c, u, e, h1, h2, h3⟩ := hh
    have hx : (sp ++ [] ++ ds ++ r).dropWhile isSpace = c :: u := by
      rw [List.append_nil, List.append_assoc, hdrop, e, List.dropWhile_cons, if_neg (by simp [h1])]
    rw [e] at hread
    unfold extract
    rw [hx]
    split
    · rename_i v hv
      split at hv
      · cases hv
      · rename_i heq; cases heq; exact absurd rfl h3
      · rename_i heq; cases heq; exact absurd rfl h2
      · rename_i heq; cases heq; rw [hread] at hv; cases hv; rfl
    · rename_i hv
      split at hv <;> simp_all
  · unfold extract
    simp only [List.append_assoc, hdrop]
    rw [List.singleton_append, List.dropWhile_cons, if_neg (by decide)]
    simp only [hread]
    rfl
  · unfold extract
    simp only [List.append_assoc, hdrop]
    rw [List.singleton_append, List.dropWhile_cons, if_neg (by decide)]
    simp only [hread]
    rfl

end Pluto.Num
