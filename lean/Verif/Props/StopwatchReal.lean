import Verif.Props.StopwatchBits
import Verif.Proofs.StopwatchReal

/-! # C153: the time of a stopwatch as floating-point and as unsigned numbers -/

namespace Pluto.Props
open Pluto.Stopwatch (State)
open Pluto.StopwatchSpec Pluto.StopwatchBits Pluto.FloatTextSpec
open Pluto.FloatText (Format)

/-- C153. `float` and `double` have exponents enough. -/
theorem C153_types : WideEnough FloatText.float.bits FloatText.float.low FloatText.float.high ∧
    WideEnough FloatText.double.bits FloatText.double.low FloatText.double.high := by
  unfold WideEnough FloatText.float FloatText.double
  norm_num

/-- C153. A longer time is never a smaller number, whatever the unit: with a clock that never runs backwards, the number of a
running stopwatch never decreases. -/
theorem C153_monotone {t : Format} (h : WideEnough t.bits t.low t.high) {tick unit : Ratio} (ht : Proper tick)
    (hu : Proper unit) {s s' : State} {now now' d d' : Int} (h1 : StopwatchBits.timeAt s now = some d)
    (h2 : StopwatchBits.timeAt s' now' = some d') (hd : d ≤ d') :
    ∃ x x', countReal t tick unit s now = some x ∧ countReal t tick unit s' now' = some x' ∧ x ≤ x' := by
  refine ⟨_, _, ?_, ?_, cast_mono h ht hu hd⟩ <;> simp [countReal, h1, h2]

/-- C153. If the unit is a whole number of ticks or the tick a whole number of units, and a number of the type, the number is
the one of the type that is nearest to the time, for all times below `2 ^ bits` ticks: for `double` and nanoseconds, 104
days. -/
theorem C153_nearest {t : Format} (h : WideEnough t.bits t.low t.high) {tick unit : Ratio} (ht : Proper tick)
    (hu : Proper unit) {n m : Nat} (hl : LowestTerms tick unit n m) (hone : n = 1 ∨ m = 1)
    (hn : IsValue t.bits t.low t.high n) (hm : IsValue t.bits t.low t.high m) {s : State} {now d : Int}
    (h1 : StopwatchBits.timeAt s now = some d) (hd : |d| < 2 ^ t.bits) :
    ∃ x, countReal t tick unit s now = some x ∧ Nearest (IsValue t.bits t.low t.high) (exactUnits tick unit d) x := by
  refine ⟨_, ?_, cast_nearest h ht hu hl hone hn hm hd⟩
  simp [countReal, h1]

/-- C153. For all times of 64 bits the relative error is at most that of three roundings. -/
theorem C153_error {t : Format} (h : WideEnough t.bits t.low t.high) {tick unit : Ratio} (ht : Proper tick)
    (hu : Proper unit) {n m : Nat} (hl : LowestTerms tick unit n m) (hn : IsValue t.bits t.low t.high n)
    (hm : IsValue t.bits t.low t.high m) (hn' : n ≤ 2 ^ 62) (hm' : m ≤ 2 ^ 62) {s : State} {now d : Int}
    (h1 : StopwatchBits.timeAt s now = some d) (hd : Representable 64 d) :
    ∃ x, countReal t tick unit s now = some x ∧
      |x - exactUnits tick unit d| ≤ ((1 + 1 / 2 ^ t.bits) ^ 3 - 1) * |exactUnits tick unit d| := by
  refine ⟨_, ?_, cast_err h ht hu hl hn hm hn' hm' ?_⟩
  · simp [countReal, h1]
  · unfold Representable at hd
    rw [abs_le]
    norm_num at hd ⊢
    omega

/-- C153. A time that is not negative, as an unsigned number: let `c` be the number of units, rounded towards zero.  If the
product that is computed has 64 bits, the behaviour is defined, the number is the one of the type that is `c` modulo
`2 ^ bits`, and with a positive `rollover` it is the rest of that number. -/
theorem C153_unsigned_partial {tick unit : Ratio} (ht : Proper tick) (hu : Proper unit) {n m bits : Nat} (hb : bits ≤ 64)
    (hl : LowestTerms tick unit n m) {s : State} {now d c : Int} (h1 : StopwatchBits.timeAt s now = some d)
    (h64 : Representable 64 d) (h0 : 0 ≤ d) (hc : InUnits tick unit d c) (hp : Representable 64 (d * n)) :
    ∃ r, countUnsigned tick unit bits s now = some r ∧ 0 ≤ r ∧ r < 2 ^ bits ∧ (2 : Int) ^ bits ∣ c - r ∧
      (r = c ↔ c < 2 ^ bits) ∧
      ∀ rollover : Int, 0 < rollover → rollover < 2 ^ 63 →
        countUnsignedRollover tick unit bits rollover s now = some (r % rollover) := by
  have hr : countUnsigned tick unit bits s now = some (c % 2 ^ bits) := by
    unfold countUnsigned
    rw [h1]
    exact castUnsigned_small ht hu hl hc h0 h64 hp hb
  have hc0 : 0 ≤ c := by
    rw [← inUnits_tdiv ht hu hl hc]
    exact Int.tdiv_nonneg (by positivity) (by positivity)
  have hpos : (0 : Int) < 2 ^ bits := by positivity
  have hr0 := Int.emod_nonneg c hpos.ne'
  have hr1 := Int.emod_lt_of_pos c hpos
  refine ⟨_, hr, hr0, hr1, Int.dvd_self_sub_emod, ⟨fun h => by omega, fun h => Int.emod_eq_of_lt hc0 h⟩, ?_⟩
  intro rollover hro hro'
  unfold countUnsignedRollover
  simp only [hr]
  rw [if_neg (by omega)]
  split
  · rw [Int.tmod_eq_emod_of_nonneg hr0]
  · rw [Int.emod_eq_of_lt hro.le (show rollover < 2 ^ 64 by norm_num at hro' ⊢; omega)]

/-- C153. Negative times, which occur if the clock is set back, are other numbers: with unsigned integers of 64 bits and
units of `m` ticks it is the quotient of `2 ^ 64 + d` that is returned, not the number of units modulo anything. -/
theorem C153_fails_negative {tick unit : Ratio} (ht : Proper tick) (hu : Proper unit) {m : Nat}
    (hl : LowestTerms tick unit 1 m) (hm : m ≠ 1) {s : State} {now d : Int} (h1 : StopwatchBits.timeAt s now = some d)
    (hd : Representable 64 d) (h0 : d < 0) : countUnsigned tick unit 64 s now = some ((2 ^ 64 + d) / m) := by
  unfold countUnsigned
  rw [h1]
  exact castUnsigned_negative ht hu hl hm h0 hd

/-- C153. A nanosecond less than nothing is 18446744073 seconds; with 32 bits it is no second. -/
theorem C153_fails_second :
    countUnsigned nano second 64 { time := -1 } 0 = some 18446744073 ∧
      countUnsigned nano second 32 { time := -1 } 0 = some 0 := by decide

/-- C153. A negative `rollover` has no effect with 64 bits; with signed integers it has that of the positive one. -/
theorem C153_fails_rollover :
    countUnsignedRollover nano nano 64 (-60) { time := 61 } 0 = some 61 ∧
      StopwatchBits.countRollover nano nano 64 (-60) { time := 61 } 0 = some 1 := by decide

/-! ## Cases -/

/-- Seconds as `double`. -/
example : ∃ x, countReal FloatText.double nano second { time := 1500000000 } 0 = some x ∧
    Nearest (IsValue 53 (-1074) 971) (exactUnits nano second 1500000000) x :=
  C153_nearest C153_types.2 (by unfold Proper nano; norm_num) (by unfold Proper second; norm_num)
    (n := 1) (m := 1000000000) (by unfold LowestTerms nano second; norm_num) (.inl rfl)
    ⟨1, 0, by norm_num [FloatText.double], by norm_num [FloatText.double], by norm_num [FloatText.double], by norm_num⟩
    ⟨1000000000, 0, by norm_num [FloatText.double], by norm_num [FloatText.double], by norm_num [FloatText.double],
      by norm_num⟩ rfl (by norm_num [FloatText.double])

/-- Seconds as `float`, after a year. -/
example : ∃ x, countReal FloatText.float nano second { time := 31536000000000001 } 0 = some x ∧
    |x - exactUnits nano second 31536000000000001| ≤
      ((1 + 1 / 2 ^ 24) ^ 3 - 1) * |exactUnits nano second 31536000000000001| :=
  C153_error C153_types.1 (by unfold Proper nano; norm_num) (by unfold Proper second; norm_num)
    (n := 1) (m := 1000000000) (by unfold LowestTerms nano second; norm_num)
    ⟨1, 0, by norm_num [FloatText.float], by norm_num [FloatText.float], by norm_num [FloatText.float], by norm_num⟩
    ⟨1953125, 9, by norm_num [FloatText.float], by norm_num [FloatText.float], by norm_num [FloatText.float], by norm_num⟩
    (by norm_num) (by norm_num) rfl (by unfold Representable; norm_num)

example : ∃ x x', countReal FloatText.float nano second { time := 16777217 } 0 = some x ∧
    countReal FloatText.float nano second { time := 16777218 } 0 = some x' ∧ x ≤ x' :=
  C153_monotone C153_types.1 (by unfold Proper nano; norm_num) (by unfold Proper second; norm_num) rfl rfl (by norm_num)

example : ∃ r, countUnsigned nano second 32 { time := 90500000000 } 0 = some r ∧ 0 ≤ r ∧ r < 2 ^ 32 ∧
    (2 : Int) ^ 32 ∣ 90 - r ∧ (r = 90 ↔ (90 : Int) < 2 ^ 32) ∧
    ∀ rollover : Int, 0 < rollover → rollover < 2 ^ 63 →
      countUnsignedRollover nano second 32 rollover { time := 90500000000 } 0 = some (r % rollover) :=
  C153_unsigned_partial (by unfold Proper nano; norm_num) (by unfold Proper second; norm_num) (by norm_num)
    (n := 1) (m := 1000000000) (by unfold LowestTerms nano second; norm_num) rfl (by unfold Representable; norm_num)
    (by norm_num) (by unfold InUnits nano second; decide) (by unfold Representable; norm_num)

example : countUnsigned nano second 64 { time := -1500000000 } 0 = some ((2 ^ 64 + -1500000000) / 1000000000) :=
  C153_fails_negative (by unfold Proper nano; norm_num) (by unfold Proper second; norm_num)
    (by unfold LowestTerms nano second; norm_num) (m := 1000000000) (by norm_num) rfl
    (by unfold Representable; norm_num) (by norm_num)

end Pluto.Props
