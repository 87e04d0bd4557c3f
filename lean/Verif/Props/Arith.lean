import Verif.Proofs.Arith

/-!
# C148 and C149: sums and comparisons of C++ numbers
-/

namespace Pluto.Props
open Pluto Pluto.Num Pluto.Arith Pluto.ArithSpec Pluto.ArithProofs

/-! ## C148: sums -/

/-- C148.  If `sum` of integers returns, it returns the value of the type of the initial value that is congruent to the total,
so the total itself if the type has it; whatever the two types are. -/
theorem C148_right (t u : IntType) (ht : 1 ≤ t.bits) (xs : List Int) (v r : Int) (hv : Holds t.bits t.signed v)
    (h : Arith.sum t u xs v = .ok r) :
    Holds t.bits t.signed r ∧ (2 : Int) ^ t.bits ∣ r - (v + xs.sum) ∧ (Holds t.bits t.signed (v + xs.sum) → r = v + xs.sum) :=
  have ⟨h1, h2⟩ := sum_right t u ht xs v r hv h
  ⟨h1, h2, fun h3 => eq_of_dvd h1 h3 h2⟩

/-- The sum of two `unsigned char`s 200 and 100 is 44. -/
example : Arith.sum ⟨8, false⟩ ⟨8, false⟩ [200, 100] 0 = .ok 44 := by decide

/-- C148.  The total is returned if the type of the initial value has it, for types of at most 16 bits and if the numbers are
added as unsigned numbers.  Missing: signed types from `int` on, for which the partial sums must not overflow
(`C148_signed_partial`). -/
theorem C148_defined_partial (t u : IntType) (ht : 1 ≤ t.bits)
    (h : Narrow t.bits u.bits ∨ AddsUnsigned t.bits t.signed u.bits u.signed) (xs : List Int) (v : Int)
    (hv : Holds t.bits t.signed v) (hx : ∀ x ∈ xs, Holds u.bits u.signed x) :
    ∃ r, Arith.sum t u xs v = .ok r ∧ (Holds t.bits t.signed (v + xs.sum) → r = v + xs.sum) := by
  obtain ⟨r, hr⟩ := sum_defined t u ht h xs v hv hx
  exact ⟨r, hr, (C148_right t u ht xs v r hv hr).2.2⟩

/-- `signed char`s whose partial sums wrap, and an `int` to which `unsigned int`s are added. -/
example : Narrow 8 8 ∧ AddsUnsigned 32 true 32 false ∧ Arith.sum ⟨8, true⟩ ⟨8, true⟩ [127, 1, -5] 0 = .ok 123 ∧
    Arith.sum ⟨32, true⟩ ⟨32, false⟩ [4294967295, 1, 7] 0 = .ok 7 := by
  refine ⟨?_, ?_, ?_, ?_⟩
  · simp [Narrow]
  · simp [AddsUnsigned, Unsigned]
  · decide
  · decide

/-- C148.  For all types: the total is returned if the type of the initial value has it and all partial sums.  Missing: partial
sums out of range (`C148_fails`). -/
theorem C148_prefixes_partial (t u : IntType) (ht : 1 ≤ t.bits) (xs : List Int) (v : Int)
    (hx : ∀ x ∈ xs, Holds u.bits u.signed x) (h : Partial (Holds t.bits t.signed) v xs) :
    Arith.sum t u xs v = .ok (v + xs.sum) :=
  sum_prefixes t u ht xs v hx h

/-- C148.  Numbers that are not negative: the total is returned if the type has it. -/
theorem C148_nonneg_partial (t u : IntType) (ht : 1 ≤ t.bits) (xs : List Int) (v : Int)
    (hx : ∀ x ∈ xs, Holds u.bits u.signed x) (hv : 0 ≤ v) (hx0 : ∀ x ∈ xs, 0 ≤ x) (h : Holds t.bits t.signed (v + xs.sum)) :
    Arith.sum t u xs v = .ok (v + xs.sum) :=
  sum_prefixes t u ht xs v hx (partial_nonneg hv hx0 h)

/-- An `int` to which `long long`s are added. -/
example : Arith.sum ⟨32, true⟩ ⟨64, true⟩ [2000000000, 147483647] 0 = .ok 2147483647 := by decide

/-- C148.  Signed numbers from `int` on, added to a value of the same type: the total is returned exactly if no partial sum
overflows, otherwise the behaviour is undefined. -/
theorem C148_signed_partial (t : IntType) (ht : 32 ≤ t.bits) (hs : t.signed = true) (xs : List Int) (v : Int)
    (hv : Holds t.bits t.signed v) (hx : ∀ x ∈ xs, Holds t.bits t.signed x) :
    (Partial (Holds t.bits t.signed) v xs → Arith.sum t t xs v = .ok (v + xs.sum)) ∧
    (¬Partial (Holds t.bits t.signed) v xs → Arith.sum t t xs v = .error .undefined) :=
  ⟨sum_prefixes t t (by omega) xs v hx, sum_overflow t t hs (common_self ht) xs v hv hx⟩

/-- C148 fails for every signed type from `int` on: the total of the largest value, 1 and -1 is in range, but the behaviour is
undefined.  In another order it is right. -/
theorem C148_fails (t : IntType) (ht : 32 ≤ t.bits) (hs : t.signed = true) :
    Holds t.bits t.signed t.max ∧ ([t.max, 1, -1].sum = t.max) ∧ Arith.sum t t [t.max, 1, -1] 0 = .error .undefined ∧
    Arith.sum t t [t.max, -1, 1] 0 = .ok t.max := by
  have hp : (2 : Int) ^ 31 ≤ 2 ^ (t.bits - 1) := pow_le_pow_right₀ (by norm_num) (by omega)
  have hin : ∀ v, Holds t.bits t.signed v ↔ -2 ^ (t.bits - 1) ≤ v ∧ v ≤ 2 ^ (t.bits - 1) - 1 := by
    intro v
    have := in_iff (t := t) (by omega) v
    simpa [In, IntType.min, IntType.max, hs] using this
  have hm : t.max = 2 ^ (t.bits - 1) - 1 := by simp [IntType.max, hs]
  have hx : ∀ xs : List Int, (∀ x ∈ xs, x = t.max ∨ x = 1 ∨ x = -1) → ∀ x ∈ xs, Holds t.bits t.signed x := by
    intro xs h x hxx
    rw [hin]
    rcases h x hxx with rfl | rfl | rfl
    · rw [hm]; omega
    · omega
    · omega
  refine ⟨by rw [hin, hm]; omega, by simp, ?_, ?_⟩
  · refine (C148_signed_partial t ht hs _ 0 (by rw [hin]; omega) (hx _ (by simp))).2 fun h => ?_
    have := h 2 (by simp)
    rw [hin] at this
    simp only [List.take_succ_cons, List.take_zero, List.sum_cons, List.sum_nil] at this
    omega
  · rw [C148_prefixes_partial t t (by omega) _ 0 (hx _ (by simp)) ?_]
    · simp
    · refine partial_cons.2 ⟨by rw [hin]; omega, partial_cons.2 ⟨by rw [hin]; omega, partial_cons.2 ⟨by rw [hin]; omega, ?_⟩⟩⟩
      intro k _
      rw [hin]
      simp only [List.take_nil, List.sum_nil]
      omega

example : Arith.sum int int [2147483647, 1, -1] 0 = .error .undefined := by decide

/-- C148.  The sum of `bool`s is whether one of them is true. -/
theorem C148_bool (xs : List Bool) (v : Bool) : sumBool xs v = true ↔ v = true ∨ true ∈ xs := by
  rw [sumBool_eq]
  simp

example : sumBool [true, true, false] false = true := by decide

/-- C148.  Floating-point numbers with `p` significant bits: the relative error, compared to the total of the absolute values,
grows with the number of elements. -/
theorem C148_float (p : Nat) (xs : List ℚ) (v : ℚ) :
    |sumFloat p xs v - (v + xs.sum)| ≤ ((1 + 1 / 2 ^ p) ^ xs.length - 1) * (|v| + (xs.map abs).sum) :=
  sumFloat_err p xs v

/-- C148.  Integers as floating-point numbers: the total is exact if no partial sum needs more than `p` bits. -/
theorem C148_float_integers (p : Nat) (xs : List Int) (v : Int) (h : Partial (fun s => |s| < 2 ^ p) v xs) :
    sumFloat p (xs.map (fun (x : Int) => (x : ℚ))) v = (v + xs.sum : Int) :=
  sumFloat_int p xs v h

/-- C148 fails for floating-point numbers: beginning with `2^p`, any number of ones does not change the sum. -/
theorem C148_fails_float (p : Nat) (hp : 2 ≤ p) (n : Nat) :
    sumFloat p (List.replicate n 1) (2 ^ p) = 2 ^ p ∧ 2 ^ p + (List.replicate n (1 : ℚ)).sum = 2 ^ p + n :=
  ⟨sumFloat_absorbs p hp n, by simp⟩

/-- Three `float`s. -/
example : sumFloat 24 ([16777214, 1, -5].map (fun (x : Int) => (x : ℚ))) ((0 : Int) : ℚ) = 16777210 := by
  rw [C148_float_integers]
  · norm_num
  · intro k hk
    match k, hk with
    | 0, _ => simp
    | 1, _ => simp
    | 2, _ => simp
    | 3, _ => simp

/-- C148.  Floating-point numbers added to an initial value of an integer type: if they are integers, the total is right. -/
theorem C148_truncated_partial (t : IntType) (ht : 1 ≤ t.bits) (p : Nat) (xs : List Int) (v : Int)
    (h : Partial (fun s => Holds t.bits t.signed s ∧ |s| < 2 ^ p) v xs) :
    sumTruncated t p (xs.map (fun (x : Int) => (x : ℚ))) v = .ok (v + xs.sum) :=
  sumTruncated_int t ht p xs v h

/-- C148 fails for floating-point numbers added to an initial value of an integer type, as in `sum(container, 0)`: each
partial sum is truncated, so the sum of any number of numbers between -1 and 1 is 0. -/
theorem C148_fails_truncated (t : IntType) (ht : 1 ≤ t.bits) (p : Nat) (xs : List ℚ)
    (hx : ∀ x ∈ xs, FloatTextSpec.Bits p x ∧ |x| < 1) : sumTruncated t p xs 0 = .ok 0 :=
  sumTruncated_small t ht p xs hx

/-- A thousand halves. -/
example : (∀ x ∈ List.replicate 1000 (1 / 2 : ℚ), FloatTextSpec.Bits 53 x ∧ |x| < 1) ∧
    (List.replicate 1000 (1 / 2 : ℚ)).sum = 500 := by
  refine ⟨?_, ?_⟩
  · intro x hx
    rw [List.mem_replicate] at hx
    rw [hx.2]
    refine ⟨⟨1, -1, by norm_num, by norm_num⟩, by rw [abs_lt]; constructor <;> norm_num⟩
  · rw [List.sum_replicate]
    norm_num

/-! ## C149: comparisons -/

/-- C149.  The comparison objects compare the values, unless they convert them to an unsigned type and one is negative. -/
theorem C149_partial (t u : IntType) (a b : Int) (ha : Holds t.bits t.signed a) (hb : Holds u.bits u.signed b)
    (h : ¬AddsUnsigned t.bits t.signed u.bits u.signed ∨ 0 ≤ a ∧ 0 ≤ b) :
    (isEqual t u a b = true ↔ a = b) ∧ (isNotEqual t u a b = true ↔ a ≠ b) ∧
    (isLess t u a b = true ↔ a < b) ∧ (isGreater t u a b = true ↔ b < a) ∧
    (isLessEqual t u a b = true ↔ a ≤ b) ∧ (isGreaterEqual t u a b = true ↔ b ≤ a) := by
  obtain ⟨h1, h2⟩ := toType_common ha hb h
  simp [isEqual, isNotEqual, isLess, isGreater, isLessEqual, isGreaterEqual, h1, h2]

/-- An `unsigned short` and an `int`, an `unsigned int` and a `long long`. -/
example : ¬AddsUnsigned 16 false 32 true ∧ ¬AddsUnsigned 32 false 64 true ∧ AddsUnsigned 32 true 32 false := by
  simp [AddsUnsigned, Unsigned]

/-- C149.  Values of one type are always compared rightly. -/
theorem C149_same (t : IntType) (a b : Int) (ha : Holds t.bits t.signed a) (hb : Holds t.bits t.signed b) :
    (isEqual t t a b = true ↔ a = b) ∧ (isNotEqual t t a b = true ↔ a ≠ b) ∧
    (isLess t t a b = true ↔ a < b) ∧ (isGreater t t a b = true ↔ b < a) ∧
    (isLessEqual t t a b = true ↔ a ≤ b) ∧ (isGreaterEqual t t a b = true ↔ b ≤ a) := by
  refine C149_partial t t a b ha hb ?_
  by_cases h : t.signed = true
  · left
    simp [AddsUnsigned, Unsigned, h]
  · right
    unfold Holds at ha hb
    rw [if_neg h] at ha hb
    exact ⟨ha.1, hb.1⟩

/-- C149 fails whenever it may: a negative number compared to a value of an unsigned type, not narrower than `int` and than its
own type, counts as that number plus `2^bits`.  So -1 is less than no such value, and equal to the largest one. -/
theorem C149_fails (t u : IntType) (h : Unsigned u.bits u.signed t.bits) (a b : Int) (ha : Holds t.bits t.signed a)
    (hneg : a < 0) (hb : Holds u.bits u.signed b) :
    (isLess t u a b = true ↔ a + 2 ^ u.bits < b) ∧ (isEqual t u a b = true ↔ a + 2 ^ u.bits = b) ∧
    isLess t u (-1) b = false ∧ isEqual t u (-1) u.max = true := by
  obtain ⟨hs, h1, h2⟩ := h
  have hu : 1 ≤ u.bits := by omega
  have ht : t.signed = true := by
    by_contra hc
    unfold Holds at ha
    rw [if_neg hc] at ha
    omega
  have hm : Holds t.bits t.signed (-1) := by
    unfold Holds at ha ⊢
    rw [if_pos ht] at ha ⊢
    constructor <;> omega
  obtain ⟨hc, h3⟩ := toType_neg ⟨hs, h1, h2⟩ ha hneg
  obtain ⟨_, h4⟩ := toType_neg ⟨hs, h1, h2⟩ hm (by omega)
  have h5 := toType_eq hu hb
  have hmax : Holds u.bits u.signed u.max := by
    rw [show Holds u.bits u.signed u.max ↔ In u u.max from Iff.rfl, in_iff hu]
    have hp : (0 : Int) < 2 ^ u.bits := by positivity
    simp only [IntType.min, IntType.max, hs]
    simp only [Bool.false_eq_true, if_false]
    omega
  have h6 := toType_eq hu hmax
  have hb2 : 0 ≤ b ∧ b < 2 ^ u.bits := by
    unfold Holds at hb
    rwa [hs, if_neg (by simp)] at hb
  refine ⟨?_, ?_, ?_, ?_⟩
  · simp [isLess, hc, h3, h5]
  · simp [isEqual, hc, h3, h5]
  · simp only [isLess, hc, h4, h5, decide_eq_false_iff_not]
    omega
  · simp only [isEqual, hc, h4, h6, decide_eq_true_eq]
    simp only [IntType.max, hs, Bool.false_eq_true, if_false]
    ring

example : isLess int ⟨32, false⟩ (-1) 1 = false ∧ isLess int int (-1) 0 = true ∧ isLess int ⟨32, false⟩ 0 1 = true := by decide

/-- C149.  `count` and `contains_elem` count and find the elements with the value that is asked for, unless negative numbers are
converted. -/
theorem C149_count_partial (t u : IntType) (xs : List Int) (v : Int) (hx : ∀ x ∈ xs, Holds t.bits t.signed x)
    (hv : Holds u.bits u.signed v)
    (h : ¬AddsUnsigned t.bits t.signed u.bits u.signed ∨ 0 ≤ v ∧ ∀ x ∈ xs, 0 ≤ x) :
    Arith.count t u xs v = xs.count v ∧ (containsElem t u xs v = true ↔ v ∈ xs) := by
  have key : ∀ x ∈ xs, isEqual t u x v = true ↔ x = v := fun x hxs =>
    (C149_partial t u x v (hx x hxs) hv (h.imp id fun h => ⟨h.2 x hxs, h.1⟩)).1
  constructor
  · rw [Arith.count, countLoop_eq, Nat.zero_add, List.count]
    refine List.countP_congr fun x hxs => ?_
    rw [key x hxs, beq_iff_eq]
  · rw [containsElem, List.any_eq_true]
    constructor
    · rintro ⟨x, h1, h2⟩
      rwa [← (key x h1).1 h2]
    · exact fun h1 => ⟨v, h1, (key v h1).2 rfl⟩

example : Arith.count ⟨16, true⟩ ⟨64, true⟩ [3, -1, 3] 3 = 2 := by decide

/-- C149 fails for `count` and `contains_elem`: in a container of `unsigned int`s every largest value counts as -1, although no
element is negative. -/
theorem C149_fails_count (xs : List Int) (hx : ∀ x ∈ xs, Holds 32 false x) :
    Arith.count ⟨32, false⟩ int xs (-1) = xs.count 4294967295 ∧ -1 ∉ xs ∧
    (containsElem ⟨32, false⟩ int xs (-1) = true ↔ 4294967295 ∈ xs) := by
  have key : ∀ x ∈ xs, isEqual ⟨32, false⟩ int x (-1) = true ↔ x = 4294967295 := by
    intro x hxs
    have h1 := hx x hxs
    simp only [Holds, Bool.false_eq_true, if_false] at h1
    simp only [isEqual, decide_eq_true_eq]
    rw [show common ⟨32, false⟩ int = ⟨32, false⟩ by decide]
    simp only [toType, Bool.false_eq_true, if_false]
    rw [Int.emod_eq_of_lt h1.1 h1.2]
    norm_num
  refine ⟨?_, ?_, ?_⟩
  · rw [Arith.count, countLoop_eq, Nat.zero_add, List.count]
    refine List.countP_congr fun x hxs => ?_
    rw [key x hxs, beq_iff_eq]
  · intro h
    have := hx _ h
    simp [Holds] at this
  · rw [containsElem, List.any_eq_true]
    constructor
    · rintro ⟨x, h1, h2⟩
      rwa [← (key x h1).1 h2]
    · exact fun h1 => ⟨_, h1, (key _ h1).2 rfl⟩

example : Arith.count ⟨32, false⟩ int [4294967295, 1] (-1) = 1 := by decide

end Pluto.Props
