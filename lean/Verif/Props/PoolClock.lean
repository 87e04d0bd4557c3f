import Verif.Proofs.PoolClock

/-!
# How long `run_after` waits (C115)
-/

namespace Pluto.Props
open Pluto.PoolClock

/-- C115, the part that holds: if nobody sets the clock forward, a task given to `run_after(duration, task)` does not start before
that much real time has passed since the call. `owed` has the tasks with the sum of the real time of the call and the duration. -/
theorem C115_waits_partial {n : Nat} {now : Int} {s : State} (h : Reachable (fun s t => t ≤ s.pool.now) n now s) {t : Nat}
    {due : Int} (ht : (t, due) ∈ s.owed) {e : Pool.Entry} (he : e ∈ s.pool.started) (het : e.task = t) : due ≤ s.real := by
  subst het
  have := ((good h).inv.started e he).2 due ht
  omega

/-- C115 if the clock is set in both directions, but is always right up to `ε` (for example by NTP): no task starts more than `2 ε`
too early. The clock was right up to `ε` at the beginning, and is so whenever it is set. -/
theorem C115_early_partial {n : Nat} {right now ε : Int} {s : State} (h0 : right - ε ≤ now ∧ now ≤ right + ε)
    (h : Reachable (fun s t => right + s.real - ε ≤ t ∧ t ≤ right + s.real + ε) n now s) {t : Nat}
    {due : Int} (ht : (t, due) ∈ s.owed) {e : Pool.Entry} (he : e ∈ s.pool.started) (het : e.task = t) :
    due - 2 * ε ≤ s.real := by
  subst het
  have h : Reachable (fun s t => right - ε ≤ t - s.real ∧ t - s.real ≤ right + ε) n now s := by
    clear ht he
    induction h with
    | init => exact .init
    | step ev _ hok hs ih => exact ih.step ev (fun t ht => by have := hok t ht; omega) hs
  have := ((good_right h0 h).inv.started e he).2 due ht
  omega

/-- What is owed is what the calls asked for: a call at real time `r` with duration `d` makes its task, whichever number it gets,
owe `r + d`. -/
theorem C115_owed {s s₁ s₂ : State} {d : Int} {prio : Int} {caller : Option Nat}
    (h1 : step s (.call d) = some s₁) (ho : s₁.overflow = false)
    (h2 : step s₁ (.enter s.calls.length prio caller) = some s₂) :
    s₂.owed = (s.pool.nextTask, s.real + d) :: s.owed ∧ s₂.calls = s.calls := by
  unfold step at h1
  split at h1
  · cases h1
  simp only at h1
  split at h1
  · cases h1
    unfold step at h2
    split at h2
    · cases h2
    simp only [List.getElem?_append_right (Nat.le_refl _), Nat.sub_self, List.getElem?_cons_zero] at h2
    obtain ⟨p, -, rfl⟩ := Option.map_eq_some_iff.1 h2
    refine ⟨rfl, ?_⟩
    simp [List.eraseIdx_append_of_length_le]
  · cases h1; cases ho

/-- One hour in nanoseconds. -/
def hour : Int := 3600 * 10 ^ 9

/-- A task is given to `run_after` with a duration of one hour; then the events `evs`; then the scheduler moves it and a worker
starts it. -/
def hourTask (evs : List Event) : List Event :=
  [.pool (.worker 0), .call hour, .enter 0 0 none, .pool .createScheduler, .pool (.assignScheduler 0), .pool (.scheduler 0 none)] ++
    evs ++ [.pool (.schedulerTimeout 0), .pool (.scheduler 0 (some 0)), .pool (.worker 0)]

theorem reachable_run {ok : State → Int → Prop} {n : Nat} {now : Int} {s s' : State} (h : Reachable ok n now s)
    (evs : List Event) (hok : ∀ t, Event.set t ∈ evs → ∀ s, ok s t) (hr : run s evs = some s') : Reachable ok n now s' := by
  induction evs generalizing s with
  | nil => cases hr; exact h
  | cons ev evs ih =>
    unfold run at hr
    split at hr
    · rename_i s1 hs
      exact ih (h.step ev (fun t ht => hok t (ht ▸ List.mem_cons_self ..) _) hs)
        (fun t ht => hok t (List.mem_cons_of_mem _ ht)) hr
    · cases hr

/-- The clock is not set, and one hour passes: the task starts. -/
example : ∃ s e, Reachable (fun s t => t ≤ s.pool.now) 1 1700000000000000000 s ∧ e ∈ s.pool.started ∧
    (e.task, hour) ∈ s.owed ∧ s.real = hour := by
  refine ⟨(run (init 1 1700000000000000000) (hourTask [.pass 1000000000000, .pass 2600000000000])).getD (init 1 0),
    ⟨0, 0, 0, false⟩, reachable_run .init (hourTask [.pass 1000000000000, .pass 2600000000000]) (by simp [hourTask]) rfl, ?_, ?_, ?_⟩
  · decide
  · decide
  · decide

/-- C115 fails if the clock is set: the task starts although no time has passed since the call. -/
theorem C115_fails_set : ∃ s e, Reachable (fun _ _ => True) 1 1700000000000000000 s ∧ e ∈ s.pool.started ∧
    (e.task, hour) ∈ s.owed ∧ s.real = 0 := by
  refine ⟨(run (init 1 1700000000000000000) (hourTask [.set 1700003600000000000])).getD (init 1 0), ⟨0, 0, 0, false⟩,
    reachable_run .init (hourTask [.set 1700003600000000000]) (fun _ _ _ => trivial) rfl, ?_, ?_, ?_⟩
  · decide
  · decide
  · decide

/-- `2 ε` is exact: with a clock that is right up to ten seconds, a task starts twenty seconds early. -/
theorem C115_early_exact : ∃ s e, Reachable (fun s t => 1700000000000000000 + s.real - 10000000000 ≤ t ∧
      t ≤ 1700000000000000000 + s.real + 10000000000) 1 1699999990000000000 s ∧ e ∈ s.pool.started ∧
    (e.task, hour) ∈ s.owed ∧ s.real = hour - 2 * 10000000000 := by
  have h1 : ∃ s, run (init 1 1699999990000000000) ((hourTask []).take 6 ++ [.pass 3580000000000]) = some s ∧ s.real = 3580000000000 ∧
      (run s (Event.set 1700003590000000000 :: (hourTask []).drop 6)).isSome := ⟨_, rfl, rfl, rfl⟩
  obtain ⟨s, hs, hreal, -⟩ := h1
  have hr := reachable_run (ok := fun s t => 1700000000000000000 + s.real - 10000000000 ≤ t ∧
      t ≤ 1700000000000000000 + s.real + 10000000000) .init _ (by simp [hourTask]) hs
  obtain ⟨s1, hs1⟩ : ∃ s1, step s (.set 1700003590000000000) = some s1 := by cases hs; exact ⟨_, rfl⟩
  have hr1 := hr.step _ (fun t ht => by cases ht; omega) hs1
  obtain ⟨s2, hs2⟩ : ∃ s2, run s1 ((hourTask []).drop 6) = some s2 := by cases hs; cases hs1; exact ⟨_, rfl⟩
  refine ⟨s2, ⟨0, 0, 0, false⟩, reachable_run hr1 _ (by simp [hourTask]) hs2, ?_, ?_, ?_⟩ <;>
    (cases hs; cases hs1; cases hs2; decide)

/-- C115 fails for the longest durations: whenever the clock shows a time after its epoch, `run_after(duration::max(), task)` has
undefined behaviour, and so does every duration that is longer than the clock can show. -/
theorem C115_fails_longest {s : State} (h : s.overflow = false) (d : Int) (hd : 2 ^ 63 ≤ s.pool.now + d) :
    ∃ s', step s (.call d) = some s' ∧ s'.overflow = true := by
  refine ⟨{ s with overflow := true }, ?_, rfl⟩
  unfold step
  rw [if_neg (by simp [h])]
  simp only
  rw [if_neg]
  unfold Fits
  omega

example : ∃ s', step (init 1 1700000000000000000) (.call (2 ^ 63 - 1)) = some s' ∧ s'.overflow = true :=
  C115_fails_longest rfl _ (by decide)

/-- C115: a call has defined behaviour exactly if the clock can show the time. -/
theorem C115_defined {s s' : State} {d : Int} (h : step s (.call d) = some s') :
    s'.overflow = false ↔ -2 ^ 63 ≤ s.pool.now + d ∧ s.pool.now + d < 2 ^ 63 := by
  unfold step at h
  split at h
  · cases h
  rename_i ho
  simp only at h
  split at h
  · rename_i hf
    cases h
    simp only [Bool.not_eq_true] at ho
    exact ⟨fun _ => hf, fun _ => ho⟩
  · rename_i hf
    cases h
    simp only [Bool.true_eq_false, false_iff]
    exact hf

end Pluto.Props
