import Verif.Proofs.PoolOrder
import Verif.Props.Pool

/-!
# The order in which tasks of a thread pool are completed (C138), and its schedule at the end (C139)

The documentation says that tasks of higher priority "are always completed first" and that a pool with the action
`complete_tasks` completes all tasks.
-/

namespace Pluto.Props
open Pluto.Pool Pluto.Spec.Pool

/-! ## Completion in the order of priorities -/

/-- C138, for pools that never had a target above 1: of two tasks that waited at the same time, the one with the
higher priority (or the same and submitted first) is complete before the other is even started. Missing: pools with
more workers, see `C138_fails`. -/
theorem C138_single_partial {n : Nat} {s s' : State} {e e' : Entry} {evs : List Event} (h : Reachable n s)
    (he : e ∈ s.queue) (he' : e' ∈ s.queue) (hb : e'.prio < e.prio ∨ e'.prio = e.prio ∧ e.seq < e'.seq)
    (hr : run s evs = some s') (hm : s'.maxTarget ≤ 1) (hst : e' ∈ s'.started) : e.task ∈ s'.completed := by
  have r' := reachable_run h hr
  have hl : (running s').length ≤ 1 := by
    have := running_length s'; have := (live r').high; omega
  obtain ⟨a, b, c, hs⟩ := started_in_order h he he' hb hr hst
  have hseq := single_completed r' hm
  rw [hs] at hseq
  generalize running s' = l at hseq hl
  match l, hl with
  | [], _ =>
    rw [List.append_nil] at hseq
    rw [← hseq]
    simp
  | [t], _ =>
    rcases List.eq_nil_or_concat c with rfl | ⟨c', x, rfl⟩
    · have : (a ++ e :: b).map (·.task) = s'.completed := by
        have h2 : (a ++ e :: b).map (·.task) ++ [e'.task] = s'.completed ++ [t] := by
          rw [← hseq]; simp
        exact (List.append_inj' h2 rfl).1
      rw [← this]
      simp
    · have : (a ++ e :: b ++ e' :: c').map (·.task) = s'.completed := by
        have h2 : (a ++ e :: b ++ e' :: c').map (·.task) ++ [x.task] = s'.completed ++ [t] := by
          rw [← hseq]; simp
        exact (List.append_inj' h2 rfl).1
      rw [← this]
      simp

/-- C138, for all pools: of two tasks that waited at the same time, the one with the higher priority (or the same and
submitted first) is started first: when the other has been started, it is running or complete, and it comes first in
the order of starts. -/
theorem C138_started {n : Nat} {s s' : State} {e e' : Entry} {evs : List Event} (h : Reachable n s)
    (he : e ∈ s.queue) (he' : e' ∈ s.queue) (hb : e'.prio < e.prio ∨ e'.prio = e.prio ∧ e.seq < e'.seq)
    (hr : run s evs = some s') (hst : e' ∈ s'.started) :
    (∃ a b c, s'.started = a ++ e :: b ++ e' :: c) ∧ (e.task ∈ running s' ∨ e.task ∈ s'.completed) := by
  have r' := reachable_run h hr
  obtain ⟨a, b, c, hs⟩ := started_in_order h he he' hb hr hst
  refine ⟨⟨a, b, c, hs⟩, ?_⟩
  have := (C12_started_once r').2.2.mem_iff (a := e.task)
  rw [hs] at this
  exact List.mem_append.1 (this.1 (by simp))

/-- C138. A pool with one worker completes tasks in the order in which it starts them. -/
theorem C138_single_sequence {n : Nat} {s : State} (h : Reachable n s) (hm : s.maxTarget ≤ 1) :
    (s.started.map (·.task) = s.completed ++ running s) ∧ (running s).length ≤ 1 := by
  refine ⟨single_completed h hm, ?_⟩
  have := running_length s
  have := (live h).high
  omega

/-- C138 fails with two workers: task 1, which has the higher priority and waited with task 0, is still running when
task 0 is complete. -/
theorem C138_fails : ∃ s s' : State, Reachable 2 s ∧ s.queue.map (·.task) = [1, 0] ∧ s.queue.map (·.prio) = [5, 0] ∧
    run s [.worker 0, .worker 1, .taskReturns 1] = some s' ∧ s'.completed = [0] ∧ running s' = [1] :=
  ⟨_, _, pool_reachable (n := 2) (evs := [.runAsync 0 none, .runAsync 5 none]) rfl, rfl, rfl, rfl, rfl, rfl⟩

/-- One worker, three tasks that wait together: the hypotheses of `C138_single_partial` are met. -/
example : ∃ s s' e e', Reachable 1 s ∧ e ∈ s.queue ∧ e' ∈ s.queue ∧ e'.prio < e.prio ∧
    run s [.worker 0, .taskReturns 0, .worker 0] = some s' ∧ s'.maxTarget ≤ 1 ∧ e' ∈ s'.started ∧
    s'.completed = [1] ∧ running s' = [0] ∧ s'.queue.map (·.task) = [2] :=
  ⟨_, _, ⟨5, 1, 1, false⟩, ⟨0, 0, 0, false⟩,
    pool_reachable (n := 1) (evs := [.runAsync 0 none, .runAsync 5 none, .runAsync (-3) none]) rfl, by decide, by decide,
    by decide, rfl, by decide, by decide, rfl, rfl, rfl⟩

/-! ## The schedule when the pool is destroyed -/

/-- C139, for tasks that are not in the schedule any more when the destructor is called: if the action is
`complete_tasks`, there is a worker and there are not more workers than the target, every task ever submitted has been
executed when the destructor returns, unless it is still in the schedule. Missing: the tasks in the schedule, see
`C139_fails_calm`. -/
theorem C139_all_partial {n : Nat} {s₀ s₁ s₂ : State} {evs : List Event} (h : Reachable n s₀)
    (ha : s₀.onStop = .completeTasks) (hw : s₀.workers ≠ []) (ht : s₀.workers.length ≤ s₀.target)
    (h₁ : step s₀ .stop = some s₁) (h₂ : run s₁ evs = some s₂) (hev : ∀ c, .setOnStop .joinAll c ∉ evs)
    (hd : s₂.stage = .destroyed) (t : Nat) (hlt : t < s₀.nextTask) (hn : ∀ e ∈ s₀.scheduled, e.task ≠ t) :
    t ∈ s₂.completed := by
  have r₂ := reachable_run (.step _ h h₁) h₂
  obtain ⟨hq, -, hst⟩ := C19_completes_partial h ha hw ht h₁ h₂ hev hd
  have hm := (C12_conserved h).mem_iff (a := t)
  rw [List.mem_range] at hm
  have hmem := hm.2 hlt
  simp only [List.mem_append, List.mem_map] at hmem
  have grows : ∀ e ∈ s₀.started, e.task ∈ s₂.completed :=
    fun e he => hst e (started_run (started_step he h₁) h₂)
  have hs := (C12_started_once h).2.2.mem_iff (a := t)
  rcases hmem with ((⟨e, he, rfl⟩ | ⟨e, he, rfl⟩) | hmem) | hmem
  · exact absurd rfl (hn e he)
  · exact hq e he
  · obtain ⟨e, he, rfl⟩ := List.mem_map.1 (hs.2 (List.mem_append_left _ hmem))
    exact grows e he
  · obtain ⟨e, he, rfl⟩ := List.mem_map.1 (hs.2 (List.mem_append_right _ hmem))
    exact grows e he

/-- C139. After the destructor has set the flag, each thread that tends the schedule moves at most one task from the
schedule to the queue; all others stay in the schedule, and tasks in the schedule are never started, whatever the
action. -/
theorem C139_at_most {n : Nat} {s₀ s₁ s₂ : State} {evs : List Event} (h : Reachable n s₀)
    (h₁ : step s₀ .stop = some s₁) (h₂ : run s₁ evs = some s₂) :
    ∃ d, s₂.moved = s₀.moved ++ d ∧ d.length ≤ s₀.schedulers.countP tends ∧
      ∀ e ∈ s₀.scheduled, e ∉ d → e ∈ s₂.scheduled ∧ (∀ x ∈ s₂.started, x.task ≠ e.task) ∧ e.task ∉ s₂.completed := by
  have r₁ : Reachable n s₁ := .step _ h h₁
  have r₂ := reachable_run r₁ h₂
  have hstep : s₁.stopping = true ∧ s₁.moved = s₀.moved ∧ s₁.schedulers = s₀.schedulers ∧ s₁.scheduled = s₀.scheduled := by
    obtain ⟨-, h₁⟩ := step_cases h₁
    cases h₁ with
    | stop => exact ⟨rfl, rfl, rfl, rfl⟩
  obtain ⟨e1, e2, e3, e4⟩ := hstep
  obtain ⟨-, d, hd, hl, hk⟩ := moving_run e1 h₂
  rw [e2] at hd
  rw [e3] at hl
  rw [e4] at hk
  refine ⟨d, hd, by omega, fun e he hn => ?_⟩
  have hm := (hk e he).resolve_right hn
  have c := conserved r₂
  have c1 := c.total e.task
  have c2 := c.started e.task
  have c3 : 0 < (s₂.scheduled.map (·.task)).count e.task := List.count_pos_iff.2 (List.mem_map_of_mem hm)
  refine ⟨hm, fun x hx hxe => ?_, fun hcm => ?_⟩
  · have : 0 < (s₂.started.map (·.task)).count e.task := List.count_pos_iff.2 (by rw [← hxe]; exact List.mem_map_of_mem hx)
    split at c1 <;> omega
  · have : 0 < s₂.completed.count e.task := List.count_pos_iff.2 hcm
    split at c1 <;> omega

/-- C139 fails whenever two tasks are in the schedule: in calm executions (no call of `run_at` overlaps the creation of
the scheduler thread) at most one of the tasks in the schedule when the destructor is called is ever executed, even if
the action is `complete_tasks`, however long the destructor waits. -/
theorem C139_fails_calm {n : Nat} {s₀ s₁ s₂ : State} {evs : List Event} (h : CalmReachable n s₀)
    (h₁ : step s₀ .stop = some s₁) (h₂ : run s₁ evs = some s₂) {e e' : Timed} (he : e ∈ s₀.scheduled)
    (he' : e' ∈ s₀.scheduled) (hne : e ≠ e') : e.task ∉ s₂.completed ∨ e'.task ∉ s₂.completed := by
  obtain ⟨d, -, hl, hk⟩ := C139_at_most (CalmReachable.reachable h) h₁ h₂
  have := calm_tends h
  by_cases hd : e ∈ d
  · by_cases hd' : e' ∈ d
    · match d, (show d.length ≤ 1 by omega) with
      | [x], _ => rw [List.mem_singleton.1 hd, List.mem_singleton.1 hd'] at hne; exact absurd rfl hne
    · exact .inr (hk e' he' hd').2.2
  · exact .inl (hk e he hd).2.2

/-- A task that is scheduled for later is dropped although the action is `complete_tasks`, there is a worker and there
are not more workers than the target; the task that waits is executed. -/
theorem C139_fails_one : ∃ s s' : State, CalmReachable 1 s ∧ s.onStop = .completeTasks ∧
    s.workers.length ≤ s.target ∧ s.scheduled.map (·.task) = [0] ∧ s.queue.map (·.task) = [1] ∧ s.pendingOne = 0 ∧
    run s [.stop, .stopNotifyWorkers, .stopNotifyScheduler, .worker 0, .taskReturns 0, .worker 0, .scheduler 0 none,
      .stopReturns] = some s' ∧ s'.stage = .destroyed ∧ s'.completed = [1] ∧ s'.scheduled.map (·.task) = [0] := by
  refine ⟨_, _, .step (.notifyOne none) (.step (.runAsync 0 none) (.step (.scheduler 0 none) (.step (.assignScheduler 0)
    (.step .createScheduler (.step (.runAt 100 0 none) (.step (.setOnStop .completeTasks none) .init trivial rfl)
    ⟨rfl, rfl⟩ rfl) trivial rfl) trivial rfl) trivial rfl) trivial rfl) trivial rfl, rfl, Nat.le_refl _, rfl, rfl, rfl, rfl, rfl,
    rfl, rfl⟩

/-- The scheduler thread can still move one task when its time has come, and the workers then execute it: two tasks
scheduled, the first is completed, the second is not. -/
example : ∃ s s' : State, Reachable 1 s ∧ s.scheduled.map (·.task) = [0, 1] ∧ s.schedulers.countP tends = 1 ∧
    run s [.clock 200, .stop, .schedulerTimeout 0, .scheduler 0 none, .worker 0, .taskReturns 0, .worker 0,
      .stopNotifyWorkers, .stopNotifyScheduler, .stopReturns] = some s' ∧ s'.stage = .destroyed ∧
    s'.completed = [0] ∧ s'.scheduled.map (·.task) = [1] :=
  ⟨_, _, pool_reachable (n := 1) (evs := [.setOnStop .completeTasks none, .runAt 100 0 none, .createScheduler,
    .assignScheduler 0, .scheduler 0 none, .runAt 150 0 none]) rfl, rfl, rfl, rfl, rfl, rfl, rfl⟩

/-- The hypotheses of `C139_all_partial` are met: three tasks, of which one is running, one waits and one is
scheduled. -/
example : ∃ s s' : State, Reachable 1 s ∧ s.onStop = .completeTasks ∧ s.workers ≠ [] ∧ s.workers.length ≤ s.target ∧
    s.nextTask = 3 ∧ s.scheduled.map (·.task) = [0] ∧
    run s [.stop, .stopNotifyWorkers, .stopNotifyScheduler, .taskReturns 0, .worker 0, .taskReturns 0, .worker 0,
      .scheduler 0 none, .stopReturns] = some s' ∧ s'.stage = .destroyed ∧ s'.completed = [1, 2] :=
  ⟨_, _, pool_reachable (n := 1) (evs := [.setOnStop .completeTasks none, .runAt 100 0 none, .createScheduler,
    .assignScheduler 0, .scheduler 0 none, .runAsync 0 none, .worker 0, .runAsync 0 none]) rfl, rfl, by decide, by decide,
    rfl, rfl, rfl, rfl, rfl⟩

end Pluto.Props
