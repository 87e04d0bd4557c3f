import Verif.Proofs.Stopwatch
import Mathlib.Tactic.Ring
import Mathlib.Tactic.NormNum

/-! # Properties of the stopwatch (C38-C40) -/

namespace Pluto.Props

open Stopwatch StopwatchSpec

/-! ## C38: what is measured -/

/-- C38.  After any history, if the last `reset` or `restart` is the call `e`, `time()` is
the number of ticks from then until now at which the stopwatch was on. -/
theorem C38_time_since_reset (initial : State) (before : List (Int × Call)) (e : Int × Call)
    (later : List (Int × Call)) (he : e.2 = .reset ∨ e.2 = .restart)
    (hlater : ∀ f ∈ later, f.2 ≠ .reset ∧ f.2 ≠ .restart)
    (hmono : MonotoneClock (e :: later)) (now : Int) (hnow : ∀ f ∈ e :: later, f.1 ≤ now) :
    timeAt (run initial (before ++ e :: later)) now = ticksOn (e :: later) e.1 now := by
  rw [run, List.foldl_append]
  exact measured _ e later (.inl he) hlater hmono now hnow

/-- C38.  Without a `reset` or `restart` the ticks are counted from the first call; an
unused stopwatch shows zero.  A stopwatch constructed with `startNow` is one whose first
call is `start`. -/
theorem C38_time_since_construction (e : Int × Call) (later : List (Int × Call))
    (hlater : ∀ f ∈ later, f.2 ≠ .reset ∧ f.2 ≠ .restart)
    (hmono : MonotoneClock (e :: later)) (now : Int) (hnow : ∀ f ∈ e :: later, f.1 ≤ now) :
    timeAt (run (create false e.1) (e :: later)) now = ticksOn (e :: later) e.1 now ∧
      timeAt (create false e.1) now = 0 ∧
      run (create true e.1) later = run (create false e.1) ((e.1, .start) :: later) :=
  ⟨measured _ e later (.inr rfl) hlater hmono now hnow, rfl, rfl⟩

/-- C38.  `is_running` tells whether the last call turned the stopwatch on. -/
theorem C38_is_running (initial : State) (before : List (Int × Call)) (e : Int × Call) :
    isRunning (run initial (before ++ [e])) = turnsOn e.2 := by
  rw [run, List.foldl_append]
  exact isRunning_call _ _ _

/-- C38.  `stop_and_time` returns what `time()` would have returned, which is what
`time()` returns afterwards, at any later time. -/
theorem C38_stop_and_time (s : State) (now later : Int) :
    (stopAndTime s now).2 = timeAt s now ∧ timeAt (stopAndTime s now).1 later = timeAt s now := by
  cases hr : s.running <;> simp [stopAndTime, stop, timeAt, hr]

example : timeAt (run {} [(0, .start), (5, .stop), (7, .start), (8, .start), (10, .stop)]) 20 = 8 := by
  decide

example : ticksOn [(0, .start), (5, .stop), (7, .start), (8, .start), (10, .stop)] 0 20 = 8 := by
  decide

/-! ## C39: the parts of the time -/

/-- The nanoseconds that the six parts stand for. -/
def recompose (h m s ms us ns : Int) : Int :=
  ((((h * 60 + m) * 60 + s) * 1000 + ms) * 1000 + us) * 1000 + ns

/-- C39.  For every state, clock reading and length of the tick the parts recompose
exactly to `in_nanoseconds`, even if the time is negative because the clock ran
backwards; and if the time is not negative each part is in its range. -/
theorem C39_parts (tick : Nat) (w : State) (now : Int) :
    recompose (hoursPart tick w now) (minutesPart tick w now) (secondsPart tick w now)
        (millisecondsPart tick w now) (microsecondsPart tick w now) (nanosecondsPart tick w now) =
      inNanoseconds tick w now ∧
    (0 ≤ timeAt w now →
      0 ≤ hoursPart tick w now ∧
      (0 ≤ minutesPart tick w now ∧ minutesPart tick w now < 60) ∧
      (0 ≤ secondsPart tick w now ∧ secondsPart tick w now < 60) ∧
      (0 ≤ millisecondsPart tick w now ∧ millisecondsPart tick w now < 1000) ∧
      (0 ≤ microsecondsPart tick w now ∧ microsecondsPart tick w now < 1000) ∧
      (0 ≤ nanosecondsPart tick w now ∧ nanosecondsPart tick w now < 1000)) := by
  unfold recompose hoursPart minutesPart secondsPart millisecondsPart microsecondsPart
    nanosecondsPart inNanoseconds countRollover count durationCast
  generalize timeAt w now = d
  have hpos : 0 ≤ d → 0 ≤ d * (tick : Int) := fun h => Int.mul_nonneg h (by omega)
  generalize d * (tick : Int) = n at *
  simp only [Nat.cast_ofNat, Nat.cast_one]
  have c1 : n.tdiv 1000000 = (n.tdiv 1000).tdiv 1000 :=
    tdiv_tdiv_lit n 1000 1000
  have c2 : n.tdiv 1000000000 = (n.tdiv 1000000).tdiv 1000 :=
    tdiv_tdiv_lit n 1000000 1000
  have c3 : n.tdiv 60000000000 = (n.tdiv 1000000000).tdiv 60 :=
    tdiv_tdiv_lit n 1000000000 60
  have c4 : n.tdiv 3600000000000 = (n.tdiv 60000000000).tdiv 60 :=
    tdiv_tdiv_lit n 60000000000 60
  have d0 := Int.tmod_add_mul_tdiv n 1000
  have d1 := Int.tmod_add_mul_tdiv (n.tdiv 1000) 1000
  have d2 := Int.tmod_add_mul_tdiv (n.tdiv 1000000) 1000
  have d3 := Int.tmod_add_mul_tdiv (n.tdiv 1000000000) 60
  have d4 := Int.tmod_add_mul_tdiv (n.tdiv 60000000000) 60
  rw [← c1] at d1
  rw [← c2] at d2
  rw [← c3] at d3
  rw [← c4] at d4
  rw [Int.tdiv_one]
  refine ⟨by omega, fun h => ?_⟩
  have h0 := hpos h
  have h1 : 0 ≤ n.tdiv 1000 := Int.tdiv_nonneg h0 (by decide)
  have h2 : 0 ≤ n.tdiv 1000000 := Int.tdiv_nonneg h0 (by decide)
  have h3 : 0 ≤ n.tdiv 1000000000 := Int.tdiv_nonneg h0 (by decide)
  have h4 : 0 ≤ n.tdiv 60000000000 := Int.tdiv_nonneg h0 (by decide)
  exact ⟨Int.tdiv_nonneg h0 (by decide),
    ⟨Int.tmod_nonneg _ h4, Int.tmod_lt_of_pos _ (by decide)⟩,
    ⟨Int.tmod_nonneg _ h3, Int.tmod_lt_of_pos _ (by decide)⟩,
    ⟨Int.tmod_nonneg _ h2, Int.tmod_lt_of_pos _ (by decide)⟩,
    ⟨Int.tmod_nonneg _ h1, Int.tmod_lt_of_pos _ (by decide)⟩,
    ⟨Int.tmod_nonneg _ h0, Int.tmod_lt_of_pos _ (by decide)⟩⟩

/-- C39.  The `in_…` functions give the whole units of a time that is not negative: the
largest number of them that fit. -/
theorem C39_units (tick : Nat) (w : State) (now : Int) (h : 0 ≤ timeAt w now) :
    let n := timeAt w now * tick
    inNanoseconds tick w now = n ∧
      (inMicroseconds tick w now * 1000 ≤ n ∧ n < (inMicroseconds tick w now + 1) * 1000) ∧
      (inMilliseconds tick w now * 1000000 ≤ n ∧ n < (inMilliseconds tick w now + 1) * 1000000) ∧
      (inSeconds tick w now * 1000000000 ≤ n ∧ n < (inSeconds tick w now + 1) * 1000000000) ∧
      (inMinutes tick w now * 60000000000 ≤ n ∧ n < (inMinutes tick w now + 1) * 60000000000) ∧
      (inHours tick w now * 3600000000000 ≤ n ∧ n < (inHours tick w now + 1) * 3600000000000) := by
  unfold inNanoseconds inMicroseconds inMilliseconds inSeconds inMinutes inHours count durationCast
  generalize timeAt w now = d at *
  have h0 : 0 ≤ d * (tick : Int) := Int.mul_nonneg h (by omega)
  generalize d * (tick : Int) = n at *
  have key : ∀ u : Nat, n.tdiv u = n / (u : Int) := fun u => Int.tdiv_eq_ediv_of_nonneg h0
  simp only [key]
  omega

/-- C39 is about one reading of the clock: each part reads the clock anew, so the parts
of a running stopwatch need not fit together.  Here the minutes are read just before and
the seconds just after the first minute is complete: both are zero, although the time
was never less than 59 s. -/
theorem C39_torn :
    let w : State := { time := 0, start := 0, running := true }
    let t1 : Int := 59999999999
    let t2 : Int := 60000000000
    recompose (hoursPart 1 w t1) (minutesPart 1 w t1) (secondsPart 1 w t2) (millisecondsPart 1 w t2)
        (microsecondsPart 1 w t2) (nanosecondsPart 1 w t2) = 0 ∧
      inNanoseconds 1 w t1 = t1 ∧ inNanoseconds 1 w t2 = t2 := by decide

/-- C39.  How far the parts of a running stopwatch can be from the time if they are read from the hours down while the clock
does not run backwards: they are never more than the time at the last reading, and less than the time at the first
reading by less than an hour. -/
theorem C39_torn_down (tick : Nat) (w : State) (t1 t2 t3 t4 t5 t6 : Int) (h0 : 0 ≤ timeAt w t1) (h1 : t1 ≤ t2)
    (h2 : t2 ≤ t3) (h3 : t3 ≤ t4) (h4 : t4 ≤ t5) (h5 : t5 ≤ t6) :
    let n := recompose (hoursPart tick w t1) (minutesPart tick w t2) (secondsPart tick w t3) (millisecondsPart tick w t4)
      (microsecondsPart tick w t5) (nanosecondsPart tick w t6)
    inNanoseconds tick w t1 - 3600000000000 < n ∧ n ≤ inNanoseconds tick w t6 := by
  obtain ⟨n1, n2, n3, n4, n5, n6, e, hm⟩ := readings tick w h0 h1 h2 h3 h4 h5
  unfold recompose hoursPart minutesPart secondsPart millisecondsPart microsecondsPart
    nanosecondsPart inNanoseconds countRollover count durationCast
  simp only [Nat.cast_ofNat, Nat.cast_one, Int.tdiv_one]
  rw [e.1, e.2.1, e.2.2.1, e.2.2.2.1, e.2.2.2.2.1, e.2.2.2.2.2]
  obtain ⟨p0, p1, p2, p3, p4, p5⟩ := hm
  rw [whole (by omega : 0 ≤ n1), part (by omega : 0 ≤ n2), part (by omega : 0 ≤ n3), part (by omega : 0 ≤ n4),
    part (by omega : 0 ≤ n5), Int.tmod_eq_emod_of_nonneg (by omega : 0 ≤ n6)]
  omega

/-- C39.  Likewise if they are read from the nanoseconds up: they are never less than the time at the first reading, and more
than the time at the last reading by less than an hour. -/
theorem C39_torn_up (tick : Nat) (w : State) (t1 t2 t3 t4 t5 t6 : Int) (h0 : 0 ≤ timeAt w t1) (h1 : t1 ≤ t2)
    (h2 : t2 ≤ t3) (h3 : t3 ≤ t4) (h4 : t4 ≤ t5) (h5 : t5 ≤ t6) :
    let n := recompose (hoursPart tick w t6) (minutesPart tick w t5) (secondsPart tick w t4) (millisecondsPart tick w t3)
      (microsecondsPart tick w t2) (nanosecondsPart tick w t1)
    inNanoseconds tick w t1 ≤ n ∧ n < inNanoseconds tick w t6 + 3600000000000 := by
  obtain ⟨n1, n2, n3, n4, n5, n6, e, hm⟩ := readings tick w h0 h1 h2 h3 h4 h5
  unfold recompose hoursPart minutesPart secondsPart millisecondsPart microsecondsPart
    nanosecondsPart inNanoseconds countRollover count durationCast
  simp only [Nat.cast_ofNat, Nat.cast_one, Int.tdiv_one]
  rw [e.1, e.2.1, e.2.2.1, e.2.2.2.1, e.2.2.2.2.1, e.2.2.2.2.2]
  obtain ⟨p0, p1, p2, p3, p4, p5⟩ := hm
  rw [whole (by omega : 0 ≤ n6), part (by omega : 0 ≤ n5), part (by omega : 0 ≤ n4), part (by omega : 0 ≤ n3),
    part (by omega : 0 ≤ n2), Int.tmod_eq_emod_of_nonneg (by omega : 0 ≤ n1)]
  omega

/-- The bounds of `C39_torn_down` are close: the parts of a time just before and just after two hours. -/
example : let w : State := { time := 0, start := 0, running := true }
    0 ≤ timeAt w 7199999999999 ∧ recompose (hoursPart 1 w 7199999999999) (minutesPart 1 w 7200000000000)
      (secondsPart 1 w 7200000000000) (millisecondsPart 1 w 7200000000000) (microsecondsPart 1 w 7200000000000)
      (nanosecondsPart 1 w 7200000000000) = 3600000000000 := by decide

/-- C39.  The parts of a stopped stopwatch do not depend on the clock. -/
theorem C39_stopped (tick unit : Nat) (rollover : Int) (w : State) (h : isRunning w = false)
    (t1 t2 : Int) :
    count tick unit w t1 = count tick unit w t2 ∧
      countRollover tick unit rollover w t1 = countRollover tick unit rollover w t2 := by
  have : w.running = false := h
  simp [count, countRollover, timeAt, this]

example : hoursPart 1 { time := 3723004005006 } 0 = 1 ∧ minutesPart 1 { time := 3723004005006 } 0 = 2 ∧
    secondsPart 1 { time := 3723004005006 } 0 = 3 ∧ millisecondsPart 1 { time := 3723004005006 } 0 = 4 ∧
    microsecondsPart 1 { time := 3723004005006 } 0 = 5 ∧
    nanosecondsPart 1 { time := 3723004005006 } 0 = 6 := by decide

/-! ## C40: idempotent and monotone -/

/-- C40.  `start` while running and `stop` while stopped change nothing. -/
theorem C40_idempotent (s : State) (now : Int) :
    (isRunning s = true → start s now = s) ∧ (isRunning s = false → stop s now = s) ∧
      ∀ t, start (start s now) t = start s now ∧ stop (stop s now) t = stop s now := by
  cases hr : s.running <;> simp [isRunning, start, stop, hr]

/-- C40.  With a monotone clock `time()` never decreases as long as the stopwatch is not
reset, whatever is called in between; it is never negative. -/
theorem C40_monotone (s : State) (t : Int) (history : List (Int × Call)) (now : Int)
    (hno : ∀ f ∈ history, f.2 ≠ .reset ∧ f.2 ≠ .restart)
    (hmono : MonotoneClock ((t, .stop) :: history)) (hnow : ∀ f ∈ history, f.1 ≤ now) (ht : t ≤ now) :
    timeAt s t ≤ timeAt (run s history) now := by
  induction history generalizing s t with
  | nil =>
    cases hr : s.running <;> simp [run, timeAt, hr]
    exact ht
  | cons e history ih =>
    unfold MonotoneClock at hmono
    rw [List.pairwise_cons] at hmono
    have hte : t ≤ e.1 := hmono.1 e (by simp)
    have step : timeAt s t ≤ timeAt (call s e.2 e.1) e.1 := by
      rw [timeAt_call _ _ _ _ (hno e (by simp))]
      have : (if turnsOn e.2 = true then e.1 - e.1 else 0) = 0 := by split <;> omega
      rw [this]
      cases hr : s.running <;> simp [timeAt, hr]
      exact hte
    refine Int.le_trans step (ih _ e.1 (fun f hf => hno f (by simp [hf])) ?_
      (fun f hf => hnow f (by simp [hf])) (hnow e (by simp)))
    refine List.pairwise_cons.2 ⟨fun f hf => ?_, (List.pairwise_cons.1 hmono.2).2⟩
    exact (List.pairwise_cons.1 hmono.2).1 f hf

/-- C40.  While the stopwatch is stopped its time is constant. -/
theorem C40_stopped (s : State) (h : isRunning s = false) (t1 t2 : Int) :
    timeAt s t1 = timeAt s t2 := by
  have : s.running = false := h
  simp [timeAt, this]

/-- C40.  While it runs the time grows as fast as the clock. -/
theorem C40_running (s : State) (h : isRunning s = true) (t1 t2 : Int) :
    timeAt s t2 - timeAt s t1 = t2 - t1 := by
  have : s.running = true := h
  simp [timeAt, this]

example : MonotoneClock [(3, .stop), (4, .start), (4, .stop), (9, .start)] := by
  unfold MonotoneClock; decide

end Pluto.Props
