import Verif.Model.Arith
import Verif.Spec.Arith
import Verif.Proofs.FloatText
import Mathlib.Tactic.Linarith
import Mathlib.Tactic.Ring
import Mathlib.Tactic.Positivity
import Mathlib.Tactic.FieldSimp
import Mathlib.Tactic.LinearCombination

/-!
# Proofs about sums and comparisons of C++ integers
-/

namespace Pluto.ArithProofs
open Pluto Pluto.Num Pluto.Arith Pluto.ArithSpec

/-- The values of a type. -/
abbrev In (t : IntType) (v : Int) : Prop := Holds t.bits t.signed v

theorem two_pow_half {n : Nat} (h : 1 ≤ n) : (2 : Int) ^ n = 2 * 2 ^ (n - 1) := by
  obtain ⟨m, rfl⟩ : ∃ m, n = m + 1 := ⟨n - 1, by omega⟩
  rw [pow_succ, Nat.add_sub_cancel]
  ring

theorem in_iff {t : IntType} (h : 1 ≤ t.bits) (v : Int) : In t v ↔ t.min ≤ v ∧ v ≤ t.max := by
  have h2 := two_pow_half h
  unfold In Holds IntType.min IntType.max
  cases t.signed <;> simp only [if_true, if_false, Bool.false_eq_true] <;> constructor <;> intro hh <;>
    constructor <;> omega

theorem toType_in {t : IntType} (h : 1 ≤ t.bits) (v : Int) : In t (toType t v) := by
  have h2 := two_pow_half h
  have hp : (0 : Int) < 2 ^ (t.bits - 1) := by positivity
  unfold In Holds toType
  rw [h2]
  cases t.signed <;> simp only [if_true, if_false, Bool.false_eq_true]
  · exact ⟨Int.emod_nonneg _ (by omega), Int.emod_lt_of_pos _ (by omega)⟩
  · have h3 := Int.emod_nonneg (v + 2 ^ (t.bits - 1)) (b := 2 * 2 ^ (t.bits - 1)) (by omega)
    have h4 := Int.emod_lt_of_pos (v + 2 ^ (t.bits - 1)) (b := 2 * 2 ^ (t.bits - 1)) (by omega)
    constructor <;> omega

theorem toType_dvd (t : IntType) (v : Int) : (2 : Int) ^ t.bits ∣ toType t v - v := by
  unfold toType
  split
  · have := Int.dvd_sub_self_of_emod_eq (a := v + 2 ^ (t.bits - 1)) (b := 2 ^ t.bits) rfl
    obtain ⟨k, hk⟩ := this
    exact ⟨k, by linarith⟩
  · obtain ⟨k, hk⟩ := Int.dvd_sub_self_of_emod_eq (a := v) (b := 2 ^ t.bits) rfl
    exact ⟨k, by linarith⟩

theorem eq_of_dvd {t : IntType} {v w : Int} (hv : In t v) (hw : In t w) (h : (2 : Int) ^ t.bits ∣ v - w) : v = w := by
  have hp : (0 : Int) < 2 ^ t.bits := by positivity
  have : v - w = 0 := by
    refine Int.eq_zero_of_abs_lt_dvd h ?_
    unfold In Holds at hv hw
    rw [abs_lt]
    revert hv hw
    cases t.signed <;> simp only [if_true, if_false, Bool.false_eq_true] <;> intro hv hw <;> constructor <;> omega
  omega

theorem toType_eq {t : IntType} (h : 1 ≤ t.bits) {v : Int} (hv : In t v) : toType t v = v :=
  eq_of_dvd (toType_in h v) hv (toType_dvd t v)

theorem in_mono_same {a b : Nat} {s : Bool} (h : a ≤ b) {v : Int} (hv : Holds a s v) : Holds b s v := by
  have h2 : (2 : Int) ^ a ≤ 2 ^ b := pow_le_pow_right₀ (by norm_num) h
  revert hv
  unfold Holds
  cases s <;> simp only [if_true, if_false, Bool.false_eq_true] <;> intro hv <;> constructor <;> omega

theorem in_mono_signed {a b : Nat} {s : Bool} (h : a < b) {v : Int} (hv : Holds a s v) : Holds b true v := by
  have h2 : (2 : Int) ^ (a + 1) ≤ 2 ^ b := pow_le_pow_right₀ (by norm_num) h
  have hp : (0 : Int) < 2 ^ a := by positivity
  rw [pow_succ] at h2
  revert hv
  unfold Holds
  cases s <;> simp only [if_true, if_false, Bool.false_eq_true] <;> intro hv <;> constructor <;> omega

theorem in_promote {t : IntType} {v : Int} (hv : In t v) : In (promote t) v := by
  unfold promote
  split
  · exact in_mono_signed (by simpa [int] using ‹_›) hv
  · exact hv

theorem common_bits (t u : IntType) : t.bits ≤ (common t u).bits ∧ u.bits ≤ (common t u).bits ∧ 32 ≤ (common t u).bits := by
  simp only [common, promote, int]
  split_ifs <;> simp_all <;> omega

/-- If the common type is signed, it has all values of both types. -/
theorem common_signed {t u : IntType} (h : (common t u).signed = true) :
    (∀ v, In t v → In (common t u) v) ∧ ∀ v, In u v → In (common t u) v := by
  constructor
  · intro v hv
    have hv := in_promote hv
    revert h
    simp only [common]
    intro h
    split at h <;> rename_i hs
    · rw [if_pos hs]
      split at h <;> rename_i hb
      · rw [if_pos hb]
        have := in_mono_same (b := (promote u).bits) (by omega) hv
        rwa [hs] at this
      · rwa [if_neg hb]
    · rw [if_neg hs]
      split at h <;> rename_i ht
      · rw [if_pos ht]
        split at h <;> rename_i hb
        · rwa [if_pos hb]
        · exfalso; simp_all
      · rw [if_neg ht]
        split at h <;> rename_i hb
        · rw [if_pos hb]
          have := in_mono_signed hb hv
          unfold In
          rwa [h]
        · exfalso; simp_all
  · intro v hv
    have hv := in_promote hv
    revert h
    simp only [common]
    intro h
    split at h <;> rename_i hs
    · rw [if_pos hs]
      split at h <;> rename_i hb
      · rwa [if_pos hb]
      · rw [if_neg hb]
        have := in_mono_same (b := (promote t).bits) (by omega) hv
        rwa [← hs] at this
    · rw [if_neg hs]
      split at h <;> rename_i ht
      · rw [if_pos ht]
        split at h <;> rename_i hb
        · rw [if_pos hb]
          have := in_mono_signed hb hv
          unfold In
          rwa [h]
        · exfalso; simp_all
      · rw [if_neg ht]
        split at h <;> rename_i hb
        · rwa [if_pos hb]
        · exfalso; simp_all

theorem common_unsigned (t u : IntType) :
    (common t u).signed = false ↔ AddsUnsigned t.bits t.signed u.bits u.signed := by
  obtain ⟨a, s⟩ := t
  obtain ⟨b, r⟩ := u
  simp only [common, promote, int, AddsUnsigned, Unsigned]
  cases s <;> cases r <;> by_cases ha : a < 32 <;> by_cases hb : b < 32 <;> simp [ha, hb] <;>
    (try split_ifs) <;> simp_all <;> omega

theorem common_narrow {t u : IntType} (h : Narrow t.bits u.bits) : common t u = int := by
  have h1 := h.1
  have h2 := h.2
  simp [common, promote, show t.bits < 32 by omega, show u.bits < 32 by omega, int]

/-- One step of the loop. -/
theorem add_right {c : IntType} {a b r : Int} (h : add c a b = .ok r) : (2 : Int) ^ c.bits ∣ r - (a + b) := by
  unfold add at h
  split at h
  · split at h
    · exact absurd h (by simp)
    · cases h
      simp
  · cases h
    obtain ⟨k, hk⟩ := Int.dvd_sub_self_of_emod_eq (a := a + b) (b := 2 ^ c.bits) rfl
    exact ⟨k, by linarith⟩

theorem pow_dvd {a b : Nat} (h : a ≤ b) : (2 : Int) ^ a ∣ 2 ^ b := pow_dvd_pow 2 h

theorem step_right {t u : IntType} {v x r : Int}
    (h : add (common t u) (toType (common t u) v) (toType (common t u) x) = .ok r) :
    (2 : Int) ^ t.bits ∣ toType t r - (v + x) := by
  obtain ⟨hb, _, _⟩ := common_bits t u
  have hd := pow_dvd hb
  have h1 := dvd_trans hd (add_right h)
  have h2 := dvd_trans hd (toType_dvd (common t u) v)
  have h3 := dvd_trans hd (toType_dvd (common t u) x)
  have h4 := toType_dvd t r
  have := dvd_add (dvd_add h4 h1) (dvd_add h2 h3)
  refine (by ring_nf at this ⊢; exact this)

theorem sum_right (t u : IntType) (ht : 1 ≤ t.bits) (xs : List Int) (v r : Int) (hv : In t v)
    (h : Arith.sum t u xs v = .ok r) : In t r ∧ (2 : Int) ^ t.bits ∣ r - (v + xs.sum) := by
  induction xs generalizing v with
  | nil =>
    cases h
    exact ⟨hv, by simp⟩
  | cons x xs ih =>
    rw [Arith.sum] at h
    split at h
    · exact absurd h (by simp)
    · rename_i a ha
      obtain ⟨h1, h2⟩ := ih _ (toType_in ht a) h
      refine ⟨h1, ?_⟩
      have := dvd_add h2 (step_right ha)
      rw [List.sum_cons]
      refine (by ring_nf at this ⊢; exact this)

/-- The addition is defined unless a signed result is out of range. -/
theorem add_ok {c : IntType} (hc : 1 ≤ c.bits) {a b : Int} (h : c.signed = true → In c (a + b)) : ∃ r, add c a b = .ok r := by
  unfold add
  split
  · rename_i hs
    have := (in_iff hc _).1 (h hs)
    rw [if_neg (by omega)]
    exact ⟨_, rfl⟩
  · exact ⟨_, rfl⟩

theorem add_error {c : IntType} (hc : 1 ≤ c.bits) {a b : Int} (hs : c.signed = true) (h : ¬In c (a + b)) :
    add c a b = .error .undefined := by
  unfold add
  rw [if_pos hs, if_pos]
  rw [in_iff hc] at h
  omega

/-- Narrow types never overflow. -/
theorem narrow_sum {a b : Nat} {s r : Bool} (h : Narrow a b) {v w : Int} (hv : Holds a s v) (hw : Holds b r w) :
    Holds 32 true (v + w) := by
  have h1 := in_mono_same (b := 30) (by have := h.1; omega) hv
  have h2 := in_mono_same (b := 30) (by have := h.2; omega) hw
  revert h1 h2
  unfold Holds
  cases s <;> cases r <;> simp only [if_true, if_false, Bool.false_eq_true] <;> intro h1 h2 <;> constructor <;> omega

theorem sum_defined (t u : IntType) (ht : 1 ≤ t.bits)
    (h : Narrow t.bits u.bits ∨ AddsUnsigned t.bits t.signed u.bits u.signed) (xs : List Int) (v : Int) (hv : In t v)
    (hx : ∀ x ∈ xs, In u x) : ∃ r, Arith.sum t u xs v = .ok r := by
  induction xs generalizing v with
  | nil => exact ⟨_, rfl⟩
  | cons x xs ih =>
    have hc : 1 ≤ (common t u).bits := by have := (common_bits t u).2.2; omega
    obtain ⟨r, hr⟩ : ∃ r, add (common t u) (toType (common t u) v) (toType (common t u) x) = .ok r := by
      refine add_ok hc fun hs => ?_
      rcases h with h | h
      · rw [toType_eq hc ((common_signed hs).1 v hv), toType_eq hc ((common_signed hs).2 x (hx x (by simp))), common_narrow h]
        exact narrow_sum h hv (hx x (by simp))
      · rw [(common_unsigned t u).2 h] at hs
        exact absurd hs (by simp)
    rw [Arith.sum, hr]
    exact ih _ (toType_in ht r) fun y hy => hx y (List.mem_cons_of_mem _ hy)

theorem partial_cons {P : Int → Prop} {v x : Int} {xs : List Int} :
    Partial P v (x :: xs) ↔ P v ∧ Partial P (v + x) xs := by
  constructor
  · intro h
    refine ⟨by simpa using h 0 (by simp), fun k hk => ?_⟩
    have := h (k + 1) (by simpa using hk)
    rwa [List.take_succ_cons, List.sum_cons, ← add_assoc] at this
  · rintro ⟨h0, h⟩ k hk
    cases k with
    | zero => simpa using h0
    | succ k =>
      rw [List.take_succ_cons, List.sum_cons, ← add_assoc]
      exact h k (by simpa using hk)

theorem partial_head {P : Int → Prop} {v : Int} {xs : List Int} (h : Partial P v xs) : P v := by
  simpa using h 0 (by simp)

theorem sum_prefixes (t u : IntType) (ht : 1 ≤ t.bits) (xs : List Int) (v : Int) (hx : ∀ x ∈ xs, In u x)
    (h : Partial (In t) v xs) : Arith.sum t u xs v = .ok (v + xs.sum) := by
  have hd : ∃ r, Arith.sum t u xs v = .ok r := by
    induction xs generalizing v with
    | nil => exact ⟨_, rfl⟩
    | cons x xs ih =>
      have hc : 1 ≤ (common t u).bits := by have := (common_bits t u).2.2; omega
      obtain ⟨h0, h1⟩ := partial_cons.1 h
      have h2 := partial_head h1
      obtain ⟨r, hr⟩ : ∃ r, add (common t u) (toType (common t u) v) (toType (common t u) x) = .ok r := by
        refine add_ok hc fun hs => ?_
        rw [toType_eq hc ((common_signed hs).1 v h0), toType_eq hc ((common_signed hs).2 x (hx x (by simp)))]
        exact (common_signed hs).1 _ h2
      rw [Arith.sum, hr]
      have he : toType t r = v + x := eq_of_dvd (toType_in ht r) h2 (step_right hr)
      show ∃ r', Arith.sum t u xs (toType t r) = .ok r'
      rw [he]
      exact ih _ (fun y hy => hx y (List.mem_cons_of_mem _ hy)) h1
  obtain ⟨r, hr⟩ := hd
  obtain ⟨h1, h2⟩ := sum_right t u ht xs v r (partial_head h) hr
  have h3 : In t (v + xs.sum) := by simpa using h xs.length (le_refl _)
  rw [hr, eq_of_dvd h1 h3 h2]

/-- If the numbers are added in the type of the value and this is signed, an overflow is undefined. -/
theorem sum_overflow (t u : IntType) (hs : t.signed = true) (hc : common t u = t) (xs : List Int) (v : Int)
    (hv : In t v) (hx : ∀ x ∈ xs, In u x) (h : ¬Partial (In t) v xs) : Arith.sum t u xs v = .error .undefined := by
  have ht : 1 ≤ t.bits := by have := (common_bits t u).2.2; rw [hc] at this; omega
  induction xs generalizing v with
  | nil => exact absurd (fun k hk => by simpa using hv) h
  | cons x xs ih =>
    have hxt : In t x := by
      have := (common_signed (t := t) (u := u) (by rw [hc]; exact hs)).2 x (hx x (by simp))
      rwa [hc] at this
    rw [Arith.sum, hc, toType_eq ht hv, toType_eq ht hxt]
    by_cases h2 : In t (v + x)
    · have : add t v x = .ok (v + x) := by
        have := (in_iff ht _).1 h2
        unfold add
        rw [if_pos hs, if_neg (by omega)]
      rw [this]
      show Arith.sum t u xs (toType t (v + x)) = _
      rw [toType_eq ht h2]
      refine ih _ h2 (fun y hy => hx y (List.mem_cons_of_mem _ hy)) fun hp => h ?_
      exact partial_cons.2 ⟨hv, hp⟩
    · rw [add_error ht hs h2]

theorem common_self {t : IntType} (h : 32 ≤ t.bits) : common t t = t := by
  simp [common, promote, show ¬t.bits < 32 by omega]

theorem partial_nonneg {t : IntType} {v : Int} {xs : List Int} (hv : 0 ≤ v) (hx : ∀ x ∈ xs, 0 ≤ x) (h : In t (v + xs.sum)) :
    Partial (In t) v xs := by
  intro k hk
  have h1 : xs.sum = (xs.take k).sum + (xs.drop k).sum := by rw [← List.sum_append, List.take_append_drop]
  have h2 : 0 ≤ (xs.take k).sum := List.sum_nonneg fun x hx' => hx x (List.mem_of_mem_take hx')
  have h3 : 0 ≤ (xs.drop k).sum := List.sum_nonneg fun x hx' => hx x (List.mem_of_mem_drop hx')
  have hp : (0 : Int) < 2 ^ t.bits := by positivity
  revert h
  unfold In Holds
  cases t.signed <;> simp only [if_true, if_false, Bool.false_eq_true] <;> intro h <;> constructor <;> omega

theorem sumBool_eq (xs : List Bool) (v : Bool) : sumBool xs v = (v || xs.any id) := by
  induction xs generalizing v with
  | nil => simp [sumBool]
  | cons x xs ih =>
    rw [sumBool, ih]
    cases v <;> cases x <;> simp [ofBool]

open Pluto.FloatText Pluto.FloatTextSpec Pluto.FloatText in
/-- Rounding errors add up. -/
theorem sumFloat_err (p : Nat) (xs : List ℚ) (v : ℚ) :
    |sumFloat p xs v - (v + xs.sum)| ≤ ((1 + 1 / 2 ^ p) ^ xs.length - 1) * (|v| + (xs.map abs).sum) := by
  induction xs generalizing v with
  | nil => simp [sumFloat]
  | cons x xs ih =>
    rw [sumFloat, List.sum_cons, List.map_cons, List.sum_cons, List.length_cons]
    set w := toBinary p (v + x) with hw
    set u : ℚ := 1 / 2 ^ p with hu
    have hu0 : 0 ≤ u := by positivity
    have he : |w - (v + x)| ≤ u * |v + x| := by
      have := toBinary_err p (v + x)
      rw [← hw] at this
      calc _ ≤ _ := this
        _ = u * |v + x| := by rw [hu]; ring
    have hvx : |v + x| ≤ |v| + |x| := abs_add_le v x
    have hwb : |w| ≤ (1 + u) * (|v| + |x|) := by
      have : |w| ≤ |w - (v + x)| + |v + x| := by
        have := abs_add_le (w - (v + x)) (v + x)
        simpa using this
      nlinarith
    have hS : 0 ≤ (xs.map abs).sum := List.sum_nonneg fun y hy => by
      obtain ⟨z, _, rfl⟩ := List.mem_map.1 hy
      exact abs_nonneg z
    have hA : 1 ≤ (1 + u) ^ xs.length := one_le_pow₀ (by linarith)
    have h1 := ih w
    have h2 : |sumFloat p xs w - (v + (x + xs.sum))| ≤ |sumFloat p xs w - (w + xs.sum)| + |w - (v + x)| := by
      have := abs_add_le (sumFloat p xs w - (w + xs.sum)) (w - (v + x))
      refine le_trans (le_of_eq ?_) this
      congr 1
      ring
    rw [pow_succ]
    generalize (1 + u) ^ xs.length = A at *
    have h3 : (A - 1) * (|w| + (xs.map abs).sum) ≤ (A - 1) * ((1 + u) * (|v| + |x|) + (xs.map abs).sum) :=
      mul_le_mul_of_nonneg_left (by linarith) (by linarith)
    have h4 : u * |v + x| ≤ u * (|v| + |x|) := mul_le_mul_of_nonneg_left hvx hu0
    have h5 : 0 ≤ A * u * (xs.map abs).sum := by positivity
    nlinarith

open Pluto.FloatText Pluto.FloatTextSpec Pluto.FloatText in
theorem sumFloat_int (p : Nat) (xs : List Int) (v : Int) (h : Partial (fun s => |s| < 2 ^ p) v xs) :
    sumFloat p (xs.map (fun (x : Int) => (x : ℚ))) v = (v + xs.sum : Int) := by
  induction xs generalizing v with
  | nil => simp [sumFloat]
  | cons x xs ih =>
    obtain ⟨_, h1⟩ := partial_cons.1 h
    have h2 := partial_head h1
    rw [List.map_cons, sumFloat, ← Int.cast_add, toBinary_exact p _ (bits_int p _ h2), ih _ h1]
    rw [List.sum_cons, add_assoc]

open Pluto.FloatText in
/-- Adding 1 to `2^p` does not change it. -/
theorem toBinary_absorbs (p : Nat) (hp : 2 ≤ p) : toBinary p (2 ^ p + 1) = 2 ^ p := by
  have hpos : (0 : ℚ) < 2 ^ p + 1 := by positivity
  have h1 : (1 : ℚ) < 2 ^ p := one_lt_pow₀ (by norm_num) (by omega)
  have hlog : Int.log 2 ((2 : ℚ) ^ p + 1) = p := by
    apply le_antisymm
    · refine Int.lt_add_one_iff.1 ((Int.lt_zpow_iff_log_lt (by norm_num) hpos).1 ?_)
      rw [zpow_add₀ (by norm_num), zpow_one, zpow_natCast]
      push_cast
      linarith
    · refine (Int.zpow_le_iff_le_log (by norm_num) hpos).1 ?_
      rw [zpow_natCast]
      push_cast
      linarith
  obtain ⟨q, rfl⟩ : ∃ q, p = q + 2 := ⟨p - 2, by omega⟩
  have he : (Int.log 2 ((2 : ℚ) ^ (q + 2) + 1) - (((q + 2 : ℕ) : ℤ) - 1)) = 1 := by rw [hlog]; omega
  have hd : ((2 : ℚ) ^ (q + 2) + 1) / 2 = ((2 ^ (q + 1) : ℤ) : ℚ) + 1 / 2 := by
    push_cast
    rw [pow_succ 2 (q + 1)]
    ring
  rw [toBinary, if_neg (by linarith), if_neg (by linarith)]
  simp only [nearest]
  rw [he, zpow_one, hd, roundEven_half, if_pos (by rw [pow_succ]; omega)]
  push_cast
  ring

theorem sumFloat_absorbs (p : Nat) (hp : 2 ≤ p) (n : Nat) : sumFloat p (List.replicate n 1) (2 ^ p) = 2 ^ p := by
  induction n with
  | zero => rfl
  | succ n ih => rw [List.replicate_succ, sumFloat, toBinary_absorbs p hp, ih]

theorem truncate_small (t : IntType) (ht : 1 ≤ t.bits) {x : ℚ} (h : |x| < 1) : truncate t x = .ok 0 := by
  obtain ⟨h1, h2⟩ := abs_lt.1 h
  have h0 : In t 0 := by
    have hp : (0 : Int) < 2 ^ t.bits := by positivity
    unfold In Holds
    cases t.signed <;> simp
  rw [in_iff ht] at h0
  have hn : (if x < 0 then -⌊-x⌋ else ⌊x⌋) = (0 : Int) := by
    split
    · rw [neg_eq_zero, Int.floor_eq_iff]
      constructor <;> push_cast <;> linarith
    · rw [Int.floor_eq_iff]
      constructor <;> push_cast <;> linarith
  simp only [truncate, hn]
  rw [if_neg (by omega)]

open Pluto.FloatText Pluto.FloatTextSpec Pluto.FloatText in
theorem sumTruncated_small (t : IntType) (ht : 1 ≤ t.bits) (p : Nat) (xs : List ℚ) (hx : ∀ x ∈ xs, Bits p x ∧ |x| < 1) :
    sumTruncated t p xs 0 = .ok 0 := by
  induction xs with
  | nil => rfl
  | cons x xs ih =>
    obtain ⟨h1, h2⟩ := hx x (by simp)
    have : toBinary p (toBinary p ((0 : Int) : ℚ) + x) = x := by
      have h0 : toBinary p ((0 : Int) : ℚ) = 0 := by simp [toBinary]
      rw [h0, zero_add, toBinary_exact p x h1]
    rw [sumTruncated, this, truncate_small t ht h2]
    exact ih fun y hy => hx y (List.mem_cons_of_mem _ hy)

theorem truncate_int (t : IntType) (ht : 1 ≤ t.bits) {n : Int} (h : In t n) : truncate t (n : ℚ) = .ok n := by
  rw [in_iff ht] at h
  have hn : (if (n : ℚ) < 0 then -⌊-(n : ℚ)⌋ else ⌊(n : ℚ)⌋) = n := by
    split
    · rw [← Int.cast_neg, Int.floor_intCast, neg_neg]
    · rw [Int.floor_intCast]
  simp only [truncate, hn]
  rw [if_neg (by omega)]

open Pluto.FloatText Pluto.FloatTextSpec Pluto.FloatText in
theorem sumTruncated_int (t : IntType) (ht : 1 ≤ t.bits) (p : Nat) (xs : List Int) (v : Int)
    (h : Partial (fun s => In t s ∧ |s| < 2 ^ p) v xs) :
    sumTruncated t p (xs.map (fun (x : Int) => (x : ℚ))) v = .ok (v + xs.sum) := by
  induction xs generalizing v with
  | nil => simp [sumTruncated]
  | cons x xs ih =>
    obtain ⟨h0, h1⟩ := partial_cons.1 h
    have h2 := partial_head h1
    rw [List.map_cons, sumTruncated, toBinary_exact p _ (bits_int p v h0.2), ← Int.cast_add,
      toBinary_exact p _ (bits_int p _ h2.2), truncate_int t ht h2.1]
    show sumTruncated t p _ (v + x) = _
    rw [ih _ h1, List.sum_cons, add_assoc]

/-- The values keep their value when they are converted for a comparison. -/
theorem toType_common {t u : IntType} {a b : Int} (ha : In t a) (hb : In u b)
    (h : ¬AddsUnsigned t.bits t.signed u.bits u.signed ∨ 0 ≤ a ∧ 0 ≤ b) :
    toType (common t u) a = a ∧ toType (common t u) b = b := by
  obtain ⟨h1, h2, h3⟩ := common_bits t u
  have hc : 1 ≤ (common t u).bits := by omega
  cases hs : (common t u).signed with
  | true => exact ⟨toType_eq hc ((common_signed hs).1 a ha), toType_eq hc ((common_signed hs).2 b hb)⟩
  | false =>
    rcases h with h | ⟨h4, h5⟩
    · exact absurd ((common_unsigned t u).1 hs) h
    · have key : ∀ (w : IntType) (x : Int), In w x → w.bits ≤ (common t u).bits → 0 ≤ x → In (common t u) x := by
        intro w x hw hle hx
        have hp : (0 : Int) < 2 ^ w.bits := by positivity
        have h6 : (2 : Int) ^ w.bits ≤ 2 ^ (common t u).bits := pow_le_pow_right₀ (by norm_num) hle
        unfold In Holds at *
        rw [hs]
        revert hw
        cases w.signed <;> simp only [if_true, if_false, Bool.false_eq_true] <;> intro hw <;> constructor <;> omega
      exact ⟨toType_eq hc (key t a ha h1 h4), toType_eq hc (key u b hb h2 h5)⟩

/-- A negative number becomes a large one. -/
theorem toType_neg {t u : IntType} (h : Unsigned u.bits u.signed t.bits) {a : Int} (ha : In t a) (hneg : a < 0) :
    common t u = u ∧ toType u a = a + 2 ^ u.bits := by
  obtain ⟨hs, h1, h2⟩ := h
  have hts : t.signed = true := by
    by_contra hc
    unfold In Holds at ha
    rw [if_neg hc] at ha
    omega
  refine ⟨?_, ?_⟩
  · obtain ⟨a, s⟩ := t
    obtain ⟨b, r⟩ := u
    simp only [common, promote, int] at *
    subst hs hts
    by_cases ha : a < 32
    · simp [ha, show ¬b < 32 by omega]
    · simp [ha, show ¬b < 32 by omega]
      omega
  · have h3 : (2 : Int) ^ t.bits ≤ 2 ^ u.bits := pow_le_pow_right₀ (by norm_num) h2
    unfold In Holds at ha
    rw [if_pos hts] at ha
    simp only [toType, hs, Bool.false_eq_true, if_false]
    rw [← Int.add_emod_right, Int.emod_eq_of_lt (by omega) (by omega)]

theorem countLoop_eq (t u : IntType) (v : Int) (xs : List Int) (n : Nat) :
    countLoop t u v xs n = n + xs.countP fun x => isEqual t u x v := by
  induction xs generalizing n with
  | nil => simp [countLoop]
  | cons x xs ih =>
    rw [countLoop, ih, List.countP_cons]
    split <;> omega

end Pluto.ArithProofs
