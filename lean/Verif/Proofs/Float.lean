import Verif.Model.Float
import Verif.Spec.Float
import Mathlib.Tactic.ByContra

/-!
# Lemmas about floating-point numbers
-/

namespace Pluto.Float
open Pluto.FloatSpec

theorem log2_bounds (p n : Nat) (hp : 0 < p) (hn : 2 ^ p ≤ n) :
    ∃ k, 0 < k ∧ k = n.log2 + 1 - p ∧ 2 ^ (p - 1) * 2 ^ k ≤ n ∧ n < 2 ^ p * 2 ^ k := by
  have h0 : n ≠ 0 := by have := Nat.pow_pos (n := p) (show 0 < 2 by omega); omega
  have hlo := Nat.log2_self_le h0
  have hhi := Nat.lt_log2_self (n := n)
  have hpl : p ≤ n.log2 := (Nat.le_log2 h0).2 hn
  refine ⟨n.log2 + 1 - p, by omega, rfl, ?_, ?_⟩
  · rw [← Nat.pow_add, show p - 1 + (n.log2 + 1 - p) = n.log2 by omega]; exact hlo
  · rw [← Nat.pow_add, show p + (n.log2 + 1 - p) = n.log2 + 1 by omega]; exact hhi

/-- What `natToFloat` is for a number with more than `p` bits. -/
theorem natToFloat_big (p n : Nat) (hp : 0 < p) (hn : 2 ^ p ≤ n) :
    ∃ k q r c, 0 < k ∧ n = q * 2 ^ k + r ∧ r < 2 ^ k ∧ 2 ^ (p - 1) ≤ q ∧ q < 2 ^ p ∧
      natToFloat p n = c * 2 ^ k ∧ ((c = q ∧ 2 * r ≤ 2 ^ k) ∨ (c = q + 1 ∧ 2 ^ k ≤ 2 * r)) ∧
      (2 * r = 2 ^ k → c % 2 = 0) := by
  obtain ⟨k, hk, hkeq, hlo, hhi⟩ := log2_bounds p n hp hn
  have hpos : 0 < 2 ^ k := Nat.pow_pos (by omega)
  have hdiv := Nat.div_add_mod n (2 ^ k)
  rw [Nat.mul_comm] at hdiv
  have hf : natToFloat p n = if 2 ^ k < 2 * (n % 2 ^ k) ∨ (2 * (n % 2 ^ k) = 2 ^ k ∧ n / 2 ^ k % 2 = 1)
      then (n / 2 ^ k + 1) * 2 ^ k else n / 2 ^ k * 2 ^ k := by
    unfold natToFloat
    rw [if_neg (by omega)]
    simp only [← hkeq]
  by_cases hc : 2 ^ k < 2 * (n % 2 ^ k) ∨ (2 * (n % 2 ^ k) = 2 ^ k ∧ n / 2 ^ k % 2 = 1)
  · rw [if_pos hc] at hf
    refine ⟨k, n / 2 ^ k, n % 2 ^ k, n / 2 ^ k + 1, hk, hdiv.symm, Nat.mod_lt _ hpos, ?_, ?_, hf, Or.inr ⟨rfl, ?_⟩, ?_⟩
    · exact (Nat.le_div_iff_mul_le hpos).2 hlo
    · exact (Nat.div_lt_iff_lt_mul hpos).2 hhi
    · omega
    · omega
  · rw [if_neg hc] at hf
    refine ⟨k, n / 2 ^ k, n % 2 ^ k, n / 2 ^ k, hk, hdiv.symm, Nat.mod_lt _ hpos, ?_, ?_, hf, Or.inl ⟨rfl, ?_⟩, ?_⟩
    · exact (Nat.le_div_iff_mul_le hpos).2 hlo
    · exact (Nat.div_lt_iff_lt_mul hpos).2 hhi
    · omega
    · omega

theorem toFloat_cases (p : Nat) (v : Int) :
    (toFloat p v = natToFloat p v.natAbs ∧ v = v.natAbs) ∨
      (toFloat p v = -(natToFloat p v.natAbs : Int) ∧ v = -(v.natAbs : Int)) := by
  unfold toFloat
  split
  · right; exact ⟨rfl, by omega⟩
  · left; exact ⟨rfl, by omega⟩

theorem representable_neg {p : Nat} {d : Int} (h : Representable p d) : Representable p (-d) := by
  obtain ⟨m, e, hm, rfl⟩ := h
  exact ⟨-m, e, by rw [Int.natAbs_neg]; exact hm, by rw [Int.neg_mul]⟩

/-- Powers of two are representable, and so is everything below `2^p`. -/
theorem representable_le {p c k : Nat} (hp : 0 < p) (hc : c ≤ 2 ^ p) : Representable p ((c * 2 ^ k : Nat) : Int) := by
  rcases Nat.lt_or_ge c (2 ^ p) with h | h
  · exact ⟨c, k, by simpa using h, by simp⟩
  · have : c = 2 ^ p := by omega
    subst this
    refine ⟨1, p + k, ?_, by simp [Int.pow_add]⟩
    have := Nat.pow_le_pow_right (n := 2) (by omega) hp
    simp only [Int.natAbs_one]; omega

theorem natToFloat_representable (p n : Nat) (hp : 0 < p) : Representable p (natToFloat p n) := by
  rcases Nat.lt_or_ge n (2 ^ p) with h | h
  · refine ⟨n, 0, by simpa using h, ?_⟩
    simp [natToFloat, h]
  · obtain ⟨k, q, r, c, hk, hn, hr, hlo, hhi, hf, hcases, -⟩ := natToFloat_big p n hp h
    rw [hf]
    exact representable_le hp (by omega)

theorem natToFloat_nearest (p n : Nat) (hp : 0 < p) (d : Int) (hd : Representable p d) :
    ((natToFloat p n : Int) - n).natAbs ≤ (d - n).natAbs := by
  rcases Nat.lt_or_ge n (2 ^ p) with h | h
  · simp [natToFloat, h]
  · obtain ⟨k, q, r, c, hk, hn, hr, hlo, hhi, hf, hcases, -⟩ := natToFloat_big p n hp h
    rw [hf]
    have hq1 : (q + 1) * 2 ^ k = q * 2 ^ k + 2 ^ k := Nat.succ_mul _ _
    -- every multiple of `2^k` is at least as far
    have hmul : ∀ t : Int, (((c * 2 ^ k : Nat) : Int) - n).natAbs ≤ (t * 2 ^ k - n).natAbs := by
      intro t
      have hP : (0 : Int) < 2 ^ k := Int.pow_pos (by omega)
      have hcast : ((2 ^ k : Nat) : Int) = 2 ^ k := by simp
      rcases show t ≤ q ∨ (q : Int) < t by omega with ht | ht
      · have h1 := Int.mul_le_mul_of_nonneg_right ht (Int.le_of_lt hP)
        have h2 : ((q * 2 ^ k : Nat) : Int) = (q : Int) * 2 ^ k := by simp
        rcases hcases with ⟨rfl, _⟩ | ⟨rfl, _⟩ <;> omega
      · have h1 := Int.mul_le_mul_of_nonneg_right (show (q : Int) + 1 ≤ t by omega) (Int.le_of_lt hP)
        rw [Int.add_mul, Int.one_mul] at h1
        have h2 : ((q * 2 ^ k : Nat) : Int) = (q : Int) * 2 ^ k := by simp
        rcases hcases with ⟨rfl, _⟩ | ⟨rfl, _⟩ <;> omega
    obtain ⟨m, e, hm, rfl⟩ := hd
    rcases Nat.lt_or_ge e k with he | he
    · -- then `d` is at most `2^(p-1) * 2^k`, which is itself a multiple not above `n`
      have hb := hmul ((2 ^ (p - 1) : Nat) : Int)
      have hle : m * 2 ^ e ≤ ((2 ^ (p - 1) : Nat) : Int) * 2 ^ k := by
        have h1 : m.natAbs * 2 ^ e ≤ 2 ^ p * 2 ^ (k - 1) :=
          Nat.mul_le_mul (by omega) (Nat.pow_le_pow_right (by omega) (by omega))
        have h2 : 2 ^ p * 2 ^ (k - 1) = 2 ^ (p - 1) * 2 ^ k := by
          rw [← Nat.pow_add, ← Nat.pow_add]; congr 1; omega
        have h3 : m * 2 ^ e ≤ ((m.natAbs * 2 ^ e : Nat) : Int) := by
          have h2e : (0 : Int) < 2 ^ e := Int.pow_pos (by omega)
          have := Int.mul_le_mul_of_nonneg_right (Int.le_natAbs (a := m)) (Int.le_of_lt h2e)
          simpa using this
        have h4 : ((2 ^ (p - 1) * 2 ^ k : Nat) : Int) = ((2 ^ (p - 1) : Nat) : Int) * 2 ^ k := by simp
        omega
      have hbn : 2 ^ (p - 1) * 2 ^ k ≤ n := by
        have := Nat.mul_le_mul_right (2 ^ k) hlo
        omega
      have h4 : ((2 ^ (p - 1) * 2 ^ k : Nat) : Int) = ((2 ^ (p - 1) : Nat) : Int) * 2 ^ k := by simp
      omega
    · have : m * 2 ^ e = m * 2 ^ (e - k) * 2 ^ k := by
        rw [Int.mul_assoc, ← Int.pow_add]; congr 2; omega
      rw [this]
      exact hmul _

theorem natToFloat_error (p n : Nat) (hp : 0 < p) :
    ((natToFloat p n : Int) - n).natAbs * 2 ^ p ≤ n := by
  rcases Nat.lt_or_ge n (2 ^ p) with h | h
  · simp [natToFloat, h]
  · obtain ⟨k, q, r, c, hk, hn, hr, hlo, hhi, hf, hcases, -⟩ := natToFloat_big p n hp h
    rw [hf]
    have hq1 : (q + 1) * 2 ^ k = q * 2 ^ k + 2 ^ k := Nat.succ_mul _ _
    have h1 : 2 * (((c * 2 ^ k : Nat) : Int) - n).natAbs ≤ 2 ^ k := by
      rcases hcases with ⟨rfl, _⟩ | ⟨rfl, _⟩ <;> omega
    have h2 := Nat.mul_le_mul h1 (Nat.le_refl (2 ^ (p - 1)))
    have h3 := Nat.mul_le_mul_right (2 ^ k) hlo
    have h4 : 2 ^ p = 2 * 2 ^ (p - 1) := by
      rw [← Nat.pow_succ']; congr 1; omega
    rw [h4]
    have h5 : (((c * 2 ^ k : Nat) : Int) - n).natAbs * (2 * 2 ^ (p - 1)) =
        2 * (((c * 2 ^ k : Nat) : Int) - n).natAbs * 2 ^ (p - 1) := by
      rw [Nat.mul_comm 2 (Int.natAbs _), Nat.mul_assoc]
    rw [h5]
    rw [Nat.mul_comm (2 ^ k)] at h2
    omega

theorem toFloat_representable (p : Nat) (v : Int) (hp : 0 < p) : Representable p (toFloat p v) := by
  rcases toFloat_cases p v with ⟨h, -⟩ | ⟨h, -⟩
  · rw [h]; exact natToFloat_representable p _ hp
  · rw [h]; exact representable_neg (natToFloat_representable p _ hp)

theorem toFloat_nearest (p : Nat) (v : Int) (hp : 0 < p) (d : Int) (hd : Representable p d) :
    (toFloat p v - v).natAbs ≤ (d - v).natAbs := by
  rcases toFloat_cases p v with ⟨h, hv⟩ | ⟨h, hv⟩
  · have := natToFloat_nearest p v.natAbs hp d hd
    omega
  · have := natToFloat_nearest p v.natAbs hp (-d) (representable_neg hd)
    omega

theorem roundNat_spec (m s : Nat) :
    2 * m < 2 * (roundNat m s * 2 ^ s) + 2 ^ s ∧ 2 * (roundNat m s * 2 ^ s) ≤ 2 * m + 2 ^ s := by
  have hpos : 0 < 2 ^ (s + 1) := Nat.pow_pos (by omega)
  have h1 := Nat.div_add_mod (2 * m + 2 ^ s) (2 ^ (s + 1))
  have h2 := Nat.mod_lt (2 * m + 2 ^ s) hpos
  unfold roundNat
  have h3 : 2 ^ (s + 1) * ((2 * m + 2 ^ s) / 2 ^ (s + 1)) = 2 * ((2 * m + 2 ^ s) / 2 ^ (s + 1) * 2 ^ s) := by
    rw [Nat.pow_succ, Nat.mul_comm, Nat.mul_comm (2 ^ s) 2, ← Nat.mul_assoc, ← Nat.mul_assoc, Nat.mul_comm _ 2]
  have h4 : 2 ^ (s + 1) = 2 * 2 ^ s := Nat.pow_succ'
  omega

theorem roundNat_le (m s p : Nat) (hm : m < 2 ^ p) : roundNat m s ≤ 2 ^ p := by
  have h := (roundNat_spec m s).2
  have hP : 0 < 2 ^ s := Nat.pow_pos (by omega)
  by_contra hlt
  have h1 := Nat.mul_le_mul_right (2 ^ s) (show 2 ^ p + 1 ≤ roundNat m s by omega)
  rw [Nat.succ_mul] at h1
  have h2 := Nat.mul_le_mul_left (2 ^ p) (show 1 ≤ 2 ^ s by omega)
  omega

theorem isRound_nat (m s : Nat) : IsRound m s (roundNat m s) := by
  obtain ⟨h1, h2⟩ := roundNat_spec m s
  have hP : (0 : Int) < 2 ^ s := Int.pow_pos (by omega)
  have hcast : ((2 ^ s : Nat) : Int) = 2 ^ s := by simp
  have hc : ((roundNat m s * 2 ^ s : Nat) : Int) = (roundNat m s : Int) * 2 ^ s := by simp
  constructor
  · intro t
    rcases Int.lt_trichotomy t (roundNat m s) with ht | ht | ht
    · have := Int.mul_le_mul_of_nonneg_right (show t + 1 ≤ roundNat m s by omega) (Int.le_of_lt hP)
      rw [Int.add_mul, Int.one_mul] at this
      omega
    · rw [ht]; exact Nat.le_refl _
    · have := Int.mul_le_mul_of_nonneg_right (show (roundNat m s : Int) + 1 ≤ t by omega) (Int.le_of_lt hP)
      rw [Int.add_mul, Int.one_mul] at this
      omega
  · intro t hne heq
    rcases Int.lt_trichotomy t (roundNat m s) with ht | ht | ht
    · rcases Int.lt_or_le t 0 with hneg | hneg
      · -- `t < 0 ≤ m`: the distance is the same only if `t = -1` and the result is 1 or 0
        have hm : t * 2 ^ s ≤ -1 * 2 ^ s :=
          Int.mul_le_mul_of_nonneg_right (by omega) (Int.le_of_lt hP)
        rcases Nat.lt_or_ge (-t).toNat (roundNat m s) with hlt | hge
        · omega
        · exfalso
          have hr : (0 : Int) ≤ (roundNat m s : Int) * 2 ^ s := Int.mul_nonneg (by omega) (Int.le_of_lt hP)
          have h3 := Int.mul_le_mul_of_nonneg_right (show t + 1 ≤ 0 by omega) (Int.le_of_lt hP)
          omega
      · omega
    · exact absurd ht hne
    · exfalso
      have := Int.mul_le_mul_of_nonneg_right (show (roundNat m s : Int) + 1 ≤ t by omega) (Int.le_of_lt hP)
      rw [Int.add_mul, Int.one_mul] at this
      omega

theorem isRound_neg {m : Int} {s : Nat} {r : Int} (h : IsRound m s r) : IsRound (-m) s (-r) := by
  constructor
  · intro t
    have := h.1 (-t)
    rw [Int.neg_mul] at this ⊢
    omega
  · intro t hne heq
    have := h.2 (-t) (by omega)
    rw [Int.neg_mul] at this heq
    have := this (by omega)
    omega

end Pluto.Float
