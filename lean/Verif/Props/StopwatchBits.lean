import Verif.Props.Stopwatch
import Verif.Proofs.StopwatchBits

/-! # C143: a stopwatch with integers of 64 bits -/

namespace Pluto.Props
open Pluto.Stopwatch (State Call)
open Pluto.StopwatchSpec Pluto.StopwatchBits

/-- C143. If the clock never runs backwards and less than `2 ^ 63` ticks pass from the first call on, nothing overflows,
whatever is called, and the stopwatch is the one of `Stopwatch.lean`, so that C38, C39 and C40 hold for it. -/
theorem C143_no_overflow (e : Int × Call) (later : List (Int × Call)) (hmono : MonotoneClock (e :: later)) (now : Int)
    (hnow : ∀ f ∈ e :: later, f.1 ≤ now) (hb : now - e.1 < 2 ^ 63) :
    ∃ s, StopwatchBits.run (Stopwatch.create false e.1) (e :: later) = some s ∧
      s = Stopwatch.run (Stopwatch.create false e.1) (e :: later) ∧
      StopwatchBits.timeAt s now = some (Stopwatch.timeAt s now) := by
  have h0 : Inv (Stopwatch.create false e.1) e.1 e.1 :=
    ⟨Int.le_refl _, (fun hx => by cases hx), by simp [Stopwatch.create]⟩
  have h := inv_run hb (e :: later) h0 (Int.le_refl _) (hnow e (by simp))
    (List.pairwise_cons.2 ⟨fun f hf => by
      rcases List.mem_cons.1 hf with rfl | hf
      · exact Int.le_refl _
      · exact (List.pairwise_cons.1 hmono).1 f hf, hmono⟩) hnow
  exact ⟨_, h.1, rfl, inv_timeAt h.2 hb⟩

/-- C143. So `time()` is the number of ticks during which the stopwatch was on. -/
theorem C143_measures (e : Int × Call) (later : List (Int × Call))
    (hlater : ∀ f ∈ later, f.2 ≠ .reset ∧ f.2 ≠ .restart) (hmono : MonotoneClock (e :: later)) (now : Int)
    (hnow : ∀ f ∈ e :: later, f.1 ≤ now) (hb : now - e.1 < 2 ^ 63) :
    ∃ s, StopwatchBits.run (Stopwatch.create false e.1) (e :: later) = some s ∧
      StopwatchBits.timeAt s now = some (ticksOn (e :: later) e.1 now : Int) := by
  obtain ⟨s, h1, h2, h3⟩ := C143_no_overflow e later hmono now hnow hb
  refine ⟨s, h1, ?_⟩
  rw [h3, h2, (C38_time_since_construction e later hlater hmono now hnow).1]

/-- C143. The condition on the clock is needed: if it is set back, a time can overflow although no reading and no
interval does. -/
theorem C143_fails_set_back :
    StopwatchBits.run {} [(0, .start), (2 ^ 63 - 1, .stop), (0, .start), (1, .stop)] = none := by decide

/-- C143. The count of units in a time of `d` ticks, for any duration type: let `n / m` be the number of units in a tick, in
lowest terms, and let `c` be the number of units, rounded towards zero.  The behaviour is defined if and only if `d * n`
has 64 bits.  Then the count is the one number of the type that is `c` modulo `2 ^ bits`; so it is `c` if and only if the
type has the value `c`. -/
theorem C143_count_partial {tick unit : Ratio} (ht : Proper tick) (hu : Proper unit) {n m bits : Nat} (hb : 0 < bits)
    (hl : LowestTerms tick unit n m) {s : State} {now d c : Int} (hd : StopwatchBits.timeAt s now = some d)
    (h64 : Representable 64 d) (hc : InUnits tick unit d c) :
    ((StopwatchBits.count tick unit bits s now).isSome = true ↔ Representable 64 (d * n)) ∧
      ∀ r, StopwatchBits.count tick unit bits s now = some r →
        Representable bits r ∧ (2 : Int) ^ bits ∣ r - c ∧ (r = c ↔ Representable bits c) := by
  unfold StopwatchBits.count
  simp only [hd]
  rw [cast_spec ht hu hl hc h64, ← fits_iff]
  cases hf : fits 64 (d * n) with
  | false => simp
  | true =>
    simp only [if_true, Option.isSome_some, true_and, Option.some.injEq]
    rintro r rfl
    have h1 := narrow_fits hb c
    refine ⟨h1, narrow_mod bits c, fun h => ?_, narrow_eq hb⟩
    rw [h] at h1
    exact h1

/-- C143. There is always such a number of units, and only one. -/
theorem C143_units {tick unit : Ratio} (ht : Proper tick) (hu : Proper unit) (d : Int) :
    ∃ c, InUnits tick unit d c ∧ ∀ c', InUnits tick unit d c' → c' = c := by
  obtain ⟨c, hc⟩ := inUnits_exists ht hu d
  refine ⟨c, hc, fun c' hc' => ?_⟩
  have hl : LowestTerms tick unit (ratioDivide tick unit).num (ratioDivide tick unit).den := by
    have hg : 0 < (tick.num * unit.den).gcd (tick.den * unit.num) :=
      Nat.gcd_pos_of_pos_left _ (Nat.mul_pos ht.1 hu.2)
    refine ⟨Nat.coprime_div_gcd_div_gcd hg, ?_⟩
    unfold ratioDivide
    simp only
    generalize tick.num * unit.den = N at *
    generalize tick.den * unit.num = D at *
    obtain ⟨N', hN'⟩ := Nat.gcd_dvd_left N D
    obtain ⟨D', hD'⟩ := Nat.gcd_dvd_right N D
    have e1 : N / N.gcd D = N' := Nat.div_eq_of_eq_mul_right hg hN'
    have e2 : D / N.gcd D = D' := Nat.div_eq_of_eq_mul_right hg hD'
    rw [e1, e2]
    calc N' * D = N' * (N.gcd D * D') := by rw [← hD']
      _ = D' * (N.gcd D * N') := by ring
      _ = D' * N := by rw [← hN']
  rw [← inUnits_tdiv ht hu hl hc, inUnits_tdiv ht hu hl hc']

/-- C143. In units that are a whole number of ticks, with 64 bits, the behaviour is always defined and the count is
right. -/
theorem C143_coarse {tick unit : Ratio} (ht : Proper tick) (hu : Proper unit) {m : Nat} (hm : 0 < m)
    (hl : LowestTerms tick unit 1 m) {s : State} {now d : Int} (hd : StopwatchBits.timeAt s now = some d)
    (h64 : Representable 64 d) :
    InUnits tick unit d (d.tdiv m) ∧ StopwatchBits.count tick unit 64 s now = some (d.tdiv m) := by
  obtain ⟨c, hc⟩ := inUnits_exists ht hu d
  have hq := inUnits_tdiv ht hu hl hc
  rw [Nat.cast_one, Int.mul_one] at hq
  rw [hq]
  refine ⟨hc, ?_⟩
  unfold StopwatchBits.count
  simp only [hd]
  rw [cast_spec ht hu hl hc h64, Nat.cast_one, Int.mul_one, if_pos (fits_iff.2 h64), narrow_eq (by decide)]
  have ha : c.natAbs ≤ d.natAbs := by
    rw [← hq, Int.natAbs_tdiv]
    exact Nat.div_le_self ..
  by_cases h0 : 0 ≤ d
  · have : 0 ≤ c := by rw [← hq]; exact Int.tdiv_nonneg h0 (by omega)
    unfold Representable at h64 ⊢
    omega
  · unfold Representable at h64 ⊢
    have : c.natAbs ≤ 2 ^ 63 := by omega
    have hn : c ≤ 0 := by
      have h6 : (-d).tdiv m = -(d.tdiv m) := Int.neg_tdiv ..
      have h7 : 0 ≤ (-d).tdiv m := Int.tdiv_nonneg (by omega) (by omega)
      omega
    omega

/-- C143. So the functions for nanoseconds to hours, and those for the parts of a time, are those of `Stopwatch.lean`, with
a clock that counts nanoseconds. -/
theorem C143_standard {s : State} {now : Int} (hd : StopwatchBits.timeAt s now = some (Stopwatch.timeAt s now))
    (h64 : Representable 64 (Stopwatch.timeAt s now)) :
    StopwatchBits.count nano nano 64 s now = some (Stopwatch.inNanoseconds 1 s now) ∧
    StopwatchBits.count nano micro 64 s now = some (Stopwatch.inMicroseconds 1 s now) ∧
    StopwatchBits.count nano milli 64 s now = some (Stopwatch.inMilliseconds 1 s now) ∧
    StopwatchBits.count nano second 64 s now = some (Stopwatch.inSeconds 1 s now) ∧
    StopwatchBits.count nano minute 64 s now = some (Stopwatch.inMinutes 1 s now) ∧
    StopwatchBits.count nano hour 64 s now = some (Stopwatch.inHours 1 s now) := by
  have hn : Proper nano := ⟨by decide, by decide⟩
  refine ⟨?_, ?_, ?_, ?_, ?_, ?_⟩
  · rw [(C143_coarse hn hn (m := 1) (by decide) ⟨by decide, rfl⟩ hd h64).2]
    simp [Stopwatch.inNanoseconds, Stopwatch.count, Stopwatch.durationCast]
  · rw [(C143_coarse hn ⟨by decide, by decide⟩ (m := 1000) (by decide) (by unfold LowestTerms micro nano; norm_num) hd h64).2]
    simp [Stopwatch.inMicroseconds, Stopwatch.count, Stopwatch.durationCast]
  · rw [(C143_coarse hn ⟨by decide, by decide⟩ (m := 1000000) (by decide) (by unfold LowestTerms milli nano; norm_num) hd h64).2]
    simp [Stopwatch.inMilliseconds, Stopwatch.count, Stopwatch.durationCast]
  · rw [(C143_coarse hn ⟨by decide, by decide⟩ (m := 1000000000) (by decide) (by unfold LowestTerms second nano; norm_num) hd h64).2]
    simp [Stopwatch.inSeconds, Stopwatch.count, Stopwatch.durationCast]
  · rw [(C143_coarse hn ⟨by decide, by decide⟩ (m := 60000000000) (by decide) (by unfold LowestTerms minute nano; norm_num) hd h64).2]
    simp [Stopwatch.inMinutes, Stopwatch.count, Stopwatch.durationCast]
  · rw [(C143_coarse hn ⟨by decide, by decide⟩ (m := 3600000000000) (by decide) (by unfold LowestTerms hour nano; norm_num) hd h64).2]
    simp [Stopwatch.inHours, Stopwatch.count, Stopwatch.durationCast]

/-- C143. The remainder by a number of units is defined unless that number is zero, or minus one and the count is the
smallest number; it has the sign of the count and is smaller than the number. -/
theorem C143_rollover {tick unit : Ratio} {bits : Nat} {rollover : Int} {s : State} {now c : Int}
    (hc : StopwatchBits.count tick unit bits s now = some c) (h64 : Representable 64 c) :
    ((StopwatchBits.countRollover tick unit bits rollover s now).isSome = true ↔
      rollover ≠ 0 ∧ ¬ (rollover = -1 ∧ c = -2 ^ 63)) ∧
    ∀ r, StopwatchBits.countRollover tick unit bits rollover s now = some r →
      r.natAbs < rollover.natAbs ∧ rollover ∣ c - r ∧ (0 ≤ c → 0 ≤ r) ∧ (c ≤ 0 → r ≤ 0) := by
  unfold StopwatchBits.countRollover
  simp only [hc]
  unfold remainder
  by_cases h0 : rollover = 0
  · simp [h0]
  · rw [if_neg h0]
    have key : fits 64 (c.tdiv rollover) = true ↔ ¬ (rollover = -1 ∧ c = -2 ^ 63) := by
      rw [fits_iff]
      constructor
      · rintro h ⟨rfl, rfl⟩
        revert h
        unfold Representable
        decide
      · intro h
        have ha : (c.tdiv rollover).natAbs ≤ c.natAbs := by
          rw [Int.natAbs_tdiv]
          exact Nat.div_le_self ..
        unfold Representable at h64 ⊢
        by_cases h1 : c = -2 ^ 63
        · have h2 : rollover ≠ -1 := fun h2 => h ⟨h2, h1⟩
          by_cases h3 : rollover = 1
          · subst h3; rw [Int.tdiv_one]; exact h64
          · have h4 : (c.tdiv rollover).natAbs ≤ c.natAbs / 2 := by
              rw [Int.natAbs_tdiv]
              exact Nat.div_le_div_left (by omega) (by omega)
            omega
        · omega
    cases hf : fits 64 (c.tdiv rollover) with
    | false =>
      have : (rollover = -1 ∧ c = -2 ^ 63) := by
        by_contra hn
        rw [key.2 hn] at hf
        cases hf
      simp [this]
    | true =>
      simp only [if_true, Option.isSome_some, true_iff, Option.some.injEq]
      refine ⟨⟨h0, key.1 hf⟩, ?_⟩
      rintro r rfl
      have e := Int.tmod_add_mul_tdiv c rollover
      refine ⟨?_, ⟨c.tdiv rollover, by omega⟩, fun h => Int.tmod_nonneg _ h, fun h => ?_⟩
      · rw [Int.natAbs_tmod]
        exact Nat.mod_lt _ (by omega)
      · have h6 : (-c).tmod rollover = -(c.tmod rollover) := Int.neg_tmod ..
        have h7 : 0 ≤ (-c).tmod rollover := Int.tmod_nonneg _ (by omega)
        omega

/-- C143. A type that is too narrow: after 25 days a count of milliseconds with 32 bits is negative. -/
theorem C143_fails_narrow :
    StopwatchBits.count nano milli 32 { start := 0, running := true } (25 * 24 * 3600 * 10 ^ 9) = some (-2134967296) ∧
      Representable 64 (25 * 24 * 3600 * 10 ^ 9) := by
  constructor
  · decide
  · unfold Representable; norm_num

/-- C143. A unit that is too fine: after 107 days a count of picoseconds is undefined, also in a type that is large enough for
the time in nanoseconds; and so is after 100 years a count of thirds of a second, which would be small. -/
theorem C143_fails_fine :
    StopwatchBits.count nano ⟨1, 1000000000000⟩ 64 { start := 0, running := true } (107 * 24 * 3600 * 10 ^ 9) = none ∧
      StopwatchBits.count nano ⟨1, 3⟩ 64 { start := 0, running := true } (100 * 365 * 24 * 3600 * 10 ^ 9) = none := by
  constructor <;> decide

/-- A stopwatch that is started and stopped, and started again at 7 s, on a clock that began with a negative reading. -/
example :
    let h : List (Int × Call) := [(-5, .start), (3 * 10 ^ 9, .stop), (7 * 10 ^ 9, .start)]
    MonotoneClock h ∧ (∀ f ∈ h, f.1 ≤ 9 * 10 ^ 9) ∧ (9 * 10 ^ 9 - (-5) : Int) < 2 ^ 63 := by
  refine ⟨?_, ?_, ?_⟩
  · simp [MonotoneClock]
  · simp
  · norm_num

example :
    (StopwatchBits.run {} [(-5, .start), (3 * 10 ^ 9, .stop), (7 * 10 ^ 9, .start)]).bind
      (StopwatchBits.count nano second 64 · (9 * 10 ^ 9)) = some 5 := by decide

/-- Frames of a film: 24 in a second. -/
example : LowestTerms nano ⟨1, 24⟩ 3 125000000 ∧ InUnits nano ⟨1, 24⟩ 1999999999 47 ∧
    StopwatchBits.count nano ⟨1, 24⟩ 32 { time := 1999999999 } 0 = some 47 := by
  refine ⟨?_, ?_, by decide⟩
  · unfold LowestTerms nano; exact ⟨by decide, by norm_num⟩
  · unfold InUnits nano; norm_num

example : StopwatchBits.countRollover nano second 64 60 { time := -61 * 10 ^ 9 } 0 = some (-1) := by decide

end Pluto.Props
