import Verif.Proofs.Stopwatch
import Verif.Spec.StopwatchBits
import Mathlib.Tactic.Ring
import Mathlib.Tactic.Linarith

/-! # Lemmas on the stopwatch with integers of 64 bits -/

namespace Pluto.StopwatchBits
open Pluto.Stopwatch Pluto.StopwatchSpec

theorem fits_iff {bits : Nat} {n : Int} : fits bits n = true ↔ Representable bits n := by
  simp [fits, Representable]

theorem checked_some {n : Int} (h : Representable 64 n) : checked n = some n := by
  rw [checked, if_pos (fits_iff.2 h)]

theorem checked_none {n : Int} : checked n = none ↔ ¬ Representable 64 n := by
  rw [checked, ← fits_iff]
  split <;> simp_all

theorem narrow_fits {bits : Nat} (hb : 0 < bits) (n : Int) : Representable bits (narrow bits n) := by
  obtain ⟨k, rfl⟩ : ∃ k, bits = k + 1 := ⟨bits - 1, by omega⟩
  have hp : (2 : Nat) ^ (k + 1) = 2 * 2 ^ k := by ring
  have h1 : 0 < 2 ^ k := Nat.two_pow_pos k
  have h2 := Int.le_bmod (x := n) (m := 2 ^ (k + 1)) (by omega)
  have h3 := Int.bmod_lt (x := n) (m := 2 ^ (k + 1)) (by omega)
  have hz : ((2 ^ k : Nat) : Int) = 2 ^ k := by push_cast; rfl
  unfold Representable narrow
  rw [Nat.add_sub_cancel, ← hz]
  rw [hp] at h2 h3 ⊢
  constructor <;> omega

theorem narrow_eq {bits : Nat} (hb : 0 < bits) {n : Int} (h : Representable bits n) : narrow bits n = n := by
  obtain ⟨k, rfl⟩ : ∃ k, bits = k + 1 := ⟨bits - 1, by omega⟩
  have hp : (2 : Nat) ^ (k + 1) = 2 * 2 ^ k := by ring
  have hz : ((2 ^ k : Nat) : Int) = 2 ^ k := by push_cast; rfl
  unfold Representable at h
  rw [Nat.add_sub_cancel, ← hz] at h
  unfold narrow
  apply Int.bmod_eq_of_le <;> rw [hp] <;> omega

theorem narrow_mod (bits : Nat) (n : Int) : (2 : Int) ^ bits ∣ narrow bits n - n := by
  have h := Int.bmod_emod (x := n) (m := 2 ^ bits)
  have h2 : ((2 ^ bits : Nat) : Int) = 2 ^ bits := by push_cast; rfl
  rw [← h2]
  unfold narrow
  exact Int.dvd_of_emod_eq_zero (Int.emod_eq_emod_iff_emod_sub_eq_zero.1 h)

/-- Division towards zero, by what it returns. -/
theorem tdiv_unique {n c : Int} {m : Nat} (hm : 0 < m) (h1 : c.natAbs * m ≤ n.natAbs)
    (h2 : n.natAbs < (c.natAbs + 1) * m) (h3 : 0 ≤ c * n) : n.tdiv m = c := by
  have ha : (n.tdiv m).natAbs = c.natAbs := by
    rw [Int.natAbs_tdiv, Int.natAbs_natCast]
    refine Nat.div_eq_of_lt_le ?_ ?_
    · simpa using h1
    · simpa using h2
  have hs : 0 ≤ n → 0 ≤ n.tdiv m := fun h => Int.tdiv_nonneg h (by omega)
  have hs2 : n ≤ 0 → n.tdiv m ≤ 0 := by
    intro h
    have h6 : (-n).tdiv m = -(n.tdiv m) := Int.neg_tdiv ..
    have h7 : 0 ≤ (-n).tdiv m := Int.tdiv_nonneg (by omega) (by omega)
    omega
  have hc : n ≥ 0 → 0 ≤ c ∨ n = 0 := by
    intro h
    by_contra hn
    push Not at hn
    have : c * n < 0 := Int.mul_neg_of_neg_of_pos hn.1 (by omega)
    omega
  have hc2 : n ≤ 0 → c ≤ 0 ∨ n = 0 := by
    intro h
    by_contra hn
    push Not at hn
    have : c * n < 0 := Int.mul_neg_of_pos_of_neg hn.1 (by omega)
    omega
  rcases Int.lt_trichotomy n 0 with h | h | h
  · have := hs2 (by omega)
    rcases hc2 (by omega) with h4 | h4 <;> omega
  · subst h
    have : c.natAbs = 0 := by
      by_contra h5
      have : 0 < c.natAbs * m := Nat.mul_pos (by omega) hm
      simp at h1
      omega
    simp
    omega
  · have := hs (by omega)
    rcases hc (by omega) with h4 | h4 <;> omega

theorem ratioDivide_lowest {tick unit : Ratio} (ht : Proper tick) (hu : Proper unit) {n m : Nat}
    (h : LowestTerms tick unit n m) : ratioDivide tick unit = ⟨n, m⟩ := by
  obtain ⟨hc, he⟩ := h
  have hN : 0 < tick.num * unit.den := Nat.mul_pos ht.1 hu.2
  have hD : 0 < tick.den * unit.num := Nat.mul_pos ht.2 hu.1
  unfold ratioDivide
  generalize tick.num * unit.den = N at *
  generalize tick.den * unit.num = D at *
  have hg : 0 < N.gcd D := Nat.gcd_pos_of_pos_left _ hN
  have hcop : (N / N.gcd D).Coprime (D / N.gcd D) := Nat.coprime_div_gcd_div_gcd hg
  obtain ⟨N', hN'⟩ := Nat.gcd_dvd_left N D
  obtain ⟨D', hD'⟩ := Nat.gcd_dvd_right N D
  have e1 : N / N.gcd D = N' := by
    apply Nat.div_eq_of_eq_mul_right hg
    exact hN'
  have e2 : D / N.gcd D = D' := by
    apply Nat.div_eq_of_eq_mul_right hg
    exact hD'
  simp only [e1, e2] at hcop ⊢
  have h2 : n * D' = m * N' := by
    apply Nat.eq_of_mul_eq_mul_left hg
    calc N.gcd D * (n * D') = n * (N.gcd D * D') := by ring
      _ = m * (N.gcd D * N') := by rw [← hN', ← hD']; exact he
      _ = _ := by ring
  have d1 : n ∣ N' := hc.dvd_of_dvd_mul_left (Dvd.intro _ h2)
  have d2 : N' ∣ n := hcop.dvd_of_dvd_mul_right (Dvd.intro_left _ h2.symm)
  have d3 : m ∣ D' := hc.symm.dvd_of_dvd_mul_left (Dvd.intro _ h2.symm)
  have d4 : D' ∣ m := hcop.symm.dvd_of_dvd_mul_right (Dvd.intro_left _ h2)
  rw [Nat.dvd_antisymm d1 d2, Nat.dvd_antisymm d3 d4]

theorem inUnits_tdiv {tick unit : Ratio} (ht : Proper tick) (hu : Proper unit) {n m : Nat}
    (h : LowestTerms tick unit n m) {d c : Int} (hc : InUnits tick unit d c) : (d * n).tdiv m = c := by
  obtain ⟨hcop, he⟩ := h
  obtain ⟨h1, h2, h3⟩ := hc
  have hN : 0 < tick.num * unit.den := Nat.mul_pos ht.1 hu.2
  have hD : 0 < tick.den * unit.num := Nat.mul_pos ht.2 hu.1
  generalize tick.num * unit.den = N at *
  generalize tick.den * unit.num = D at *
  have hn : 0 < n := by
    rcases Nat.eq_zero_or_pos n with rfl | hn
    · have : m * N = 0 := by rw [← he]; simp
      rcases Nat.mul_eq_zero.1 this with rfl | h0
      · simp at hcop
      · omega
    · exact hn
  have hm : 0 < m := by
    rcases Nat.eq_zero_or_pos m with rfl | hm
    · have : 0 < n * D := Nat.mul_pos hn hD
      rw [he] at this
      simp at this
    · exact hm
  apply tdiv_unique hm
  · apply Nat.le_of_mul_le_mul_right _ hN
    rw [Int.natAbs_mul, Int.natAbs_natCast]
    calc c.natAbs * m * N = c.natAbs * D * n := by rw [Nat.mul_assoc, ← he]; ring
      _ ≤ d.natAbs * N * n := Nat.mul_le_mul_right _ h1
      _ = _ := by ring
  · apply Nat.lt_of_mul_lt_mul_right (a := N)
    rw [Int.natAbs_mul, Int.natAbs_natCast]
    calc d.natAbs * n * N = d.natAbs * N * n := by ring
      _ < (c.natAbs + 1) * D * n := Nat.mul_lt_mul_of_pos_right h2 hn
      _ = (c.natAbs + 1) * m * N := by rw [Nat.mul_assoc _ m N, ← he]; ring
  · rw [← Int.mul_assoc]
    exact Int.mul_nonneg h3 (by omega)

theorem inUnits_exists {tick unit : Ratio} (ht : Proper tick) (hu : Proper unit) (d : Int) :
    ∃ c, InUnits tick unit d c := by
  have hN : 0 < tick.num * unit.den := Nat.mul_pos ht.1 hu.2
  have hD : 0 < tick.den * unit.num := Nat.mul_pos ht.2 hu.1
  unfold InUnits
  generalize tick.num * unit.den = N at *
  generalize tick.den * unit.num = D at *
  refine ⟨(d * N).tdiv D, ?_, ?_, ?_⟩
  · rw [Int.natAbs_tdiv, Int.natAbs_mul, Int.natAbs_natCast, Int.natAbs_natCast]
    exact Nat.div_mul_le_self ..
  · rw [Int.natAbs_tdiv, Int.natAbs_mul, Int.natAbs_natCast, Int.natAbs_natCast]
    exact Nat.lt_mul_of_div_lt (Nat.lt_succ_self _) hD
  · rcases Int.le_total 0 d with h | h
    · exact Int.mul_nonneg (Int.tdiv_nonneg (Int.mul_nonneg h (by omega)) (by omega)) h
    · have h6 : (-(d * N)).tdiv D = -((d * N).tdiv D) := Int.neg_tdiv ..
      have h7 : 0 ≤ (-(d * N)).tdiv D := by
        apply Int.tdiv_nonneg _ (by omega)
        rw [← Int.neg_mul]
        exact Int.mul_nonneg (by omega) (by omega)
      exact Int.mul_nonneg_of_nonpos_of_nonpos (by omega) h

/-- What `duration_cast` returns. -/
theorem cast_spec {tick unit : Ratio} (ht : Proper tick) (hu : Proper unit) {n m bits : Nat}
    (h : LowestTerms tick unit n m) {d c : Int} (hc : InUnits tick unit d c) (hd : Representable 64 d) :
    durationCast tick unit bits d = if fits 64 (d * n) then some (narrow bits c) else none := by
  have hq := inUnits_tdiv ht hu h hc
  unfold durationCast
  rw [ratioDivide_lowest ht hu h]
  simp only
  split
  · rename_i h1
    obtain ⟨rfl, rfl⟩ := h1
    simp only [Nat.cast_one, Int.mul_one, Int.tdiv_one] at hq ⊢
    rw [if_pos (fits_iff.2 hd), hq]
  · split
    · rename_i h1
      subst h1
      simp only [Nat.cast_one, Int.tdiv_one] at hq
      unfold checked
      rw [hq]
      cases fits 64 c <;> rfl
    · split
      · rename_i h1
        subst h1
        simp only [Nat.cast_one, Int.mul_one] at hq ⊢
        rw [if_pos (fits_iff.2 hd), hq]
      · unfold checked
        cases fits 64 (d * n) with
        | false => rfl
        | true => simp only [if_true, hq]

/-- A monotone clock whose readings since the first one fit: nothing overflows. -/
structure Inv (s : State) (first now : Int) : Prop where
  time : 0 ≤ s.time
  start : s.running = true → first ≤ s.start ∧ s.start ≤ now
  total : s.time + (if s.running then now - s.start else 0) ≤ now - first

theorem inv_timeAt {s : State} {first now : Int} (h : Inv s first now) (hb : now - first < 2 ^ 63) :
    timeAt s now = some (Stopwatch.timeAt s now) := by
  unfold timeAt Stopwatch.timeAt
  have h1 := h.time
  have h3 := h.total
  cases hr : s.running with
  | false => simp
  | true =>
    have h2 := h.start hr
    simp only [hr, if_true] at h3 ⊢
    rw [checked_some (by unfold Representable; omega)]
    exact checked_some (by unfold Representable; omega)

theorem inv_later {s : State} {first now later : Int} (h : Inv s first now) (hl : now ≤ later) : Inv s first later := by
  have h3 := h.total
  refine ⟨h.time, fun hr => ⟨(h.start hr).1, by have := (h.start hr).2; omega⟩, ?_⟩
  split at h3 <;> simp_all <;> omega

theorem inv_call {s : State} {first now : Int} (h : Inv s first now) (hb : now - first < 2 ^ 63) (hf : first ≤ now)
    (c : Call) : call s c now = some (Stopwatch.call s c now) ∧ Inv (Stopwatch.call s c now) first now := by
  have h1 := h.time
  have h3 := h.total
  have hstop : stop s now = some (Stopwatch.stop s now) ∧ Inv (Stopwatch.stop s now) first now := by
    unfold stop Stopwatch.stop
    cases hr : s.running with
    | false => simpa using h
    | true =>
      have h2 := h.start hr
      simp only [hr, if_true] at h3 ⊢
      rw [checked_some (by unfold Representable; omega)]
      simp only
      rw [checked_some (by unfold Representable; omega)]
      refine ⟨rfl, ⟨?_, ?_, ?_⟩⟩
      · show 0 ≤ s.time + (now - s.start); omega
      · intro hx; cases hx
      · show s.time + (now - s.start) + (if false = true then _ else 0) ≤ _
        simp; omega
  cases c with
  | start =>
    refine ⟨rfl, ?_⟩
    simp only [Stopwatch.call, Stopwatch.start]
    cases hr : s.running with
    | true => simpa using h
    | false =>
      simp only [hr] at h3
      refine ⟨h1, fun _ => ⟨hf, Int.le_refl _⟩, ?_⟩
      simp at h3 ⊢
      omega
  | stop => exact hstop
  | stopAndTime =>
    simp only [call, stopAndTime, hstop.1, Stopwatch.call, Stopwatch.stopAndTime]
    exact ⟨trivial, hstop.2⟩
  | reset =>
    refine ⟨rfl, Int.le_refl _, (fun hx => by cases hx), ?_⟩
    simp [Stopwatch.call, Stopwatch.reset]; omega
  | restart =>
    refine ⟨rfl, Int.le_refl _, fun _ => ⟨hf, Int.le_refl _⟩, ?_⟩
    simp [Stopwatch.call, Stopwatch.restart]; omega

theorem inv_run {first now : Int} (hb : now - first < 2 ^ 63) (history : List (Int × Call)) :
    ∀ {s : State} {t : Int}, Inv s first t → first ≤ t → t ≤ now → MonotoneClock ((t, .stop) :: history) →
      (∀ e ∈ history, e.1 ≤ now) →
      run s history = some (Stopwatch.run s history) ∧ Inv (Stopwatch.run s history) first now := by
  induction history with
  | nil => intro s t h _ h2 _ _; exact ⟨rfl, inv_later h h2⟩
  | cons e history ih =>
    intro s t h h1 h2 hm hn
    obtain ⟨he, hm'⟩ := List.pairwise_cons.1 hm
    have h3 : t ≤ e.1 := he e (by simp)
    have h4 := hn e (by simp)
    have h5 := inv_call (inv_later h h3) (by omega) (by omega) e.2
    unfold run
    rw [h5.1]
    exact ih (t := e.1) h5.2 (by omega) h4
      (List.pairwise_cons.2 ⟨(List.pairwise_cons.1 hm').1, (List.pairwise_cons.1 hm').2⟩)
      (fun f hf => hn f (by simp [hf]))

end Pluto.StopwatchBits
