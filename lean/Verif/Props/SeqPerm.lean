import Verif.Props.Seq
import Verif.Props.Arith

/-! # Results that should not depend on the order of the elements (C164) -/

namespace Pluto.Props

open Pluto.Seq SeqSpec

variable {α : Type}

/-- C164. Counting and asking do not depend on the order. -/
theorem C164_count_partial [DecidableEq α] {xs ys : List α} (h : xs.Perm ys) (p : α → Bool) (v : α) :
    countIf p xs = countIf p ys ∧ Seq.count xs v = Seq.count ys v ∧ any p xs = any p ys ∧ all p xs = all p ys := by
  obtain ⟨h1, h2, h3, h4⟩ := C67_count p v xs
  obtain ⟨k1, k2, k3, k4⟩ := C67_count p v ys
  refine ⟨by rw [h1, k1, (h.filter p).length_eq], by rw [h2, k2, (h.filter _).length_eq], ?_, ?_⟩
  · rw [Bool.eq_iff_iff, h3, k3]
    exact ⟨fun ⟨x, hx, hp⟩ => ⟨x, h.mem_iff.1 hx, hp⟩, fun ⟨x, hx, hp⟩ => ⟨x, h.mem_iff.2 hx, hp⟩⟩
  · rw [Bool.eq_iff_iff, h4, k4]
    exact ⟨fun g x hx => g x (h.mem_iff.2 hx), fun g x hx => g x (h.mem_iff.1 hx)⟩

theorem not_less_trans {less : α → α → Bool} (hw : StrictWeakOrder less) {a b c : α} (h1 : less a b = false)
    (h2 : less b c = false) : less a c = false := by
  cases h : less a c with
  | false => rfl
  | true =>
    have h3 : less b a = false := by
      cases g : less b a with
      | false => rfl
      | true => exact absurd (hw.trans b a c g h) (by simp [h2])
    have h4 : less c b = false := by
      cases g : less c b with
      | false => rfl
      | true => exact absurd (hw.trans a c b h g) (by simp [h1])
    exact absurd (hw.incomp a b c h1 h3 h2 h4).1 (by simp [h])

/-- C164. `min` and `max` of the same elements in another order are equivalent, so equal in a total order. (Which of
several equivalent elements is returned does depend on the order, see C66.) -/
theorem C164_min_max_partial {less : α → α → Bool} (hw : StrictWeakOrder less) {xs ys : List α} (h : xs.Perm ys)
    (hne : xs ≠ []) :
    (∃ i j a b, minOf less xs = .ok (i, a) ∧ minOf less ys = .ok (j, b) ∧ Equivalent less a b) ∧
    ∃ i j a b, maxOf less xs = .ok (i, a) ∧ maxOf less ys = .ok (j, b) ∧ Equivalent less a b := by
  have hne' : ys ≠ [] := fun e => hne (by rw [e] at h; exact h.eq_nil)
  constructor
  · obtain ⟨i, a, h1, h2, h3, -⟩ := C66_min less hw xs hne
    obtain ⟨j, b, k1, k2, k3, -⟩ := C66_min less hw ys hne'
    exact ⟨i, j, a, b, h1, k1, k3 a (h.mem_iff.1 (List.mem_of_getElem? h2)), h3 b (h.mem_iff.2 (List.mem_of_getElem? k2))⟩
  · obtain ⟨i, a, h1, h2, h3, -⟩ := C66_max less hw xs hne
    obtain ⟨j, b, k1, k2, k3, -⟩ := C66_max less hw ys hne'
    exact ⟨i, j, a, b, h1, k1, h3 b (h.mem_iff.2 (List.mem_of_getElem? k2)), k3 a (h.mem_iff.1 (List.mem_of_getElem? h2))⟩

/-- In two sorted permutations, no element of the first is less than the one at the same position of the second. -/
theorem sorted_not_less {less : α → α → Bool} (hw : StrictWeakOrder less) {us vs : List α} (hp : us.Perm vs)
    (hu : us.Pairwise fun a b => less b a = false) (hv : vs.Pairwise fun a b => less b a = false) (i : Nat)
    (h1 : i < us.length) (h2 : i < vs.length) : less us[i] vs[i] = false := by
  cases h : less us[i] vs[i] with
  | false => rfl
  | true =>
    exfalso
    have hcu : i + 1 ≤ us.countP fun x => less x vs[i] := by
      have e : (us.take (i + 1)).countP (fun x => less x vs[i]) = (us.take (i + 1)).length := by
        rw [List.countP_eq_length]
        intro x hx
        obtain ⟨j, hj, rfl⟩ := List.mem_iff_getElem.1 hx
        rw [List.getElem_take]
        have hj' : j ≤ i := by rw [List.length_take] at hj; omega
        have hle : less us[i] us[j] = false := by
          rcases Nat.lt_or_eq_of_le hj' with hlt | rfl
          · exact List.pairwise_iff_getElem.1 hu j i (by omega) h1 hlt
          · exact hw.irrefl _
        cases g : less us[j] vs[i] with
        | true => rfl
        | false => exact absurd (not_less_trans hw hle g) (by simp [h])
      have := (List.take_sublist (i + 1) us).countP_le (p := fun x => less x vs[i])
      rw [e, List.length_take] at this
      omega
    have hcv : (vs.countP fun x => less x vs[i]) ≤ i := by
      have e : (vs.drop i).countP (fun x => less x vs[i]) = 0 := by
        rw [List.countP_eq_zero]
        intro x hx
        obtain ⟨j, hj, rfl⟩ := List.mem_iff_getElem.1 hx
        rw [List.getElem_drop]
        rcases Nat.eq_zero_or_pos j with rfl | hpos
        · have := hw.irrefl vs[i]
          simpa using this
        · have := List.pairwise_iff_getElem.1 hv i (i + j) h2 (by rw [List.length_drop] at hj; omega) (by omega)
          simpa using this
      have hs : (vs.countP fun x => less x vs[i]) =
          (vs.take i).countP (fun x => less x vs[i]) + (vs.drop i).countP (fun x => less x vs[i]) := by
        rw [← List.countP_append, List.take_append_drop]
      have hle := List.countP_le_length (l := vs.take i) (p := fun x => less x vs[i])
      rw [List.length_take] at hle
      omega
    rw [hp.countP_eq] at hcu
    omega

/-- C164. Sorting the same elements in another order gives equivalent elements at the same positions. (In a total
order: the same result.) -/
theorem C164_sort_partial {less : α → α → Bool} (hw : StrictWeakOrder less) {xs ys us vs : List α} (h : xs.Perm ys)
    (hu : StdSort less xs us) (hv : StdSort less ys vs) :
    us.length = vs.length ∧ (∀ i (h1 : i < us.length) (h2 : i < vs.length), Equivalent less us[i] vs[i]) ∧
    ((∀ a b, less a b = false → less b a = false → a = b) → us = vs) := by
  have hp : us.Perm vs := hu.1.symm.trans (h.trans hv.1)
  refine ⟨hp.length_eq, fun i h1 h2 => ⟨sorted_not_less hw hp hu.2 hv.2 i h1 h2, sorted_not_less hw hp.symm hv.2 hu.2 i h2 h1⟩,
    fun htot => C69_sort_unique less htot xs us vs hu ⟨h.trans hv.1, hv.2⟩⟩

open Num Arith ArithSpec ArithProofs

/-- C164. `sum` of integers: if it returns for two orders of the elements, it returns the same. Missing: for signed
types from `int` on it may be undefined for one order only (`C164_fails_sum`). -/
theorem C164_sum_partial (t u : IntType) (ht : 1 ≤ t.bits) {xs ys : List Int} (h : xs.Perm ys) (v r r' : Int)
    (hv : Holds t.bits t.signed v) (hr : Arith.sum t u xs v = .ok r) (hr' : Arith.sum t u ys v = .ok r') : r = r' := by
  obtain ⟨h1, h2, -⟩ := C148_right t u ht xs v r hv hr
  obtain ⟨h3, h4, -⟩ := C148_right t u ht ys v r' hv hr'
  have e : xs.sum = ys.sum := h.sum_eq
  refine eq_of_dvd h1 h3 ?_
  have := dvd_sub h2 h4
  rw [e] at this
  simpa using this

/-- C164 fails for sums of signed integers from `int` on: the largest value, 1 and -1. -/
theorem C164_fails_sum (t : IntType) (ht : 32 ≤ t.bits) (hs : t.signed = true) :
    [t.max, 1, -1].Perm [t.max, -1, 1] ∧ Arith.sum t t [t.max, 1, -1] 0 = .error .undefined ∧
      Arith.sum t t [t.max, -1, 1] 0 = .ok t.max :=
  ⟨(List.Perm.swap _ _ []).cons _, (C148_fails t ht hs).2.2⟩

/-- C164 fails for sums of floating-point numbers: `2^p`, 1 and `-2^p` make 0 in this order, but 1 if the 1 comes last. -/
theorem C164_fails_float (p : Nat) (hp : 2 ≤ p) :
    [(2 : ℚ) ^ p, 1, -2 ^ p].Perm [2 ^ p, -2 ^ p, 1] ∧ sumFloat p [2 ^ p, 1, -2 ^ p] 0 = 0 ∧
      sumFloat p [2 ^ p, -2 ^ p, 1] 0 = 1 := by
  have h0 : FloatText.toBinary p 0 = 0 := by
    have := FloatText.toBinary_exact p ((0 : Int) : ℚ) (FloatText.bits_int p 0 (by simp))
    simpa using this
  have h1 : FloatText.toBinary p 1 = 1 := by
    have := FloatText.toBinary_exact p ((1 : Int) : ℚ) (FloatText.bits_int p 1 (by simpa using one_lt_pow₀ (by norm_num : (1 : Int) < 2) (by omega)))
    simpa using this
  have h2 : FloatText.toBinary p (2 ^ p) = 2 ^ p :=
    FloatText.toBinary_exact p _ ⟨1, p, by simpa using one_lt_pow₀ (by norm_num : (1 : Int) < 2) (by omega), by simp⟩
  refine ⟨(List.Perm.swap _ _ []).cons _, ?_, ?_⟩
  · simp only [sumFloat, zero_add, h2, toBinary_absorbs p hp, add_neg_cancel, h0]
  · simp only [sumFloat, zero_add, h2, add_neg_cancel, h0, h1]

example : [3, 1, 2].Perm [2, 3, 1] ∧ StdSort (fun a b : Nat => decide (a < b)) [3, 1, 2] [1, 2, 3] ∧
    StdSort (fun a b : Nat => decide (a < b)) [2, 3, 1] [1, 2, 3] ∧
    Arith.sum ⟨8, true⟩ ⟨8, true⟩ [127, 1, -5] 0 = .ok 123 ∧ Arith.sum ⟨8, true⟩ ⟨8, true⟩ [1, -5, 127] 0 = .ok 123 :=
  ⟨by decide, ⟨by decide, by decide⟩, ⟨by decide, by decide⟩, by decide, by decide⟩

end Pluto.Props
