import Verif.Proofs.PoolExit

/-!
# Properties of who destroys the pool (C145)
-/

namespace Pluto.Props
open Pluto.PoolExit Pluto.Spec.PoolExit

/-- C145, for a destructor that a thread outside the pool has called: it returns, however the
threads are scheduled, in whatever order it joins the workers, provided that every task returns.

Missing: a destructor that a task of the pool has called; see `C145_fails`. -/
theorem C145_returns_partial {n : Nat} {s : State} (h : Reachable n s)
    (hj : s.pool.stage = .joining) (hb : s.by_ = none) : ∃ bound, Returns s bound := by
  refine ⟨left s, fun evs s' he hr hc => ?_⟩
  obtain ⟨h1, h2, h3⟩ := ending_run he h hj hr hc
  have hr' := reachable_run h hr
  have ht : s'.terminated = false := PoolExit.alive hr' (h2.trans hb)
  exact ⟨by omega, ht, fun hq => (rest hr' hc h3 ht hq).2⟩

/-- C145 fails: when a task has called the destructor, it never returns, whatever happens. -/
theorem C145_fails {n : Nat} {s : State} (h : Reachable n s) {t : Nat} (ht : s.by_ = some t) :
    s.pool.stage ≠ .destroyed :=
  never h ht

/-- C145 fails: when a task has called the destructor, the program is terminated, provided that
all other tasks return. -/
theorem C145_dies {n : Nat} {s : State} (h : Reachable n s) (hj : s.pool.stage = .joining)
    {t : Nat} (ht : s.by_ = some t) : ∃ bound, Dies s bound := by
  refine ⟨left s, fun evs s' he hr hc => ?_⟩
  obtain ⟨h1, h2, h3⟩ := ending_run he h hj hr hc
  have hr' := reachable_run h hr
  refine ⟨by omega, never hr' (h2.trans ht), fun hq => ?_⟩
  by_contra hterm
  have := (rest hr' hc h3 (by simpa using hterm) hq).1
  rw [h2, ht] at this
  cases this

/-- C145 fails: nothing keeps a task that runs from calling the destructor, which then sends its
notifications and begins to join. -/
theorem C145_destroy {s : State} {t : Nat} (hr : .running t ∈ s.pool.workers)
    (ha : s.pool.stage = .alive) (hc : s.pool.crash = none) (hn : s.terminated = false) :
    ∃ s', run s [.destroy t, .pool .stopNotifyWorkers,
      .joins (List.range s.pool.workers.length)] = some s' ∧
      s'.pool.stage = .joining ∧ s'.by_ = some t := by
  have hr' : s.pool.workers.contains (.running t) = true := by simpa using hr
  refine ⟨⟨{ s.pool with
      stopping := true
      stage := .joining
      stopSeq := s.pool.nextSeq
      workers := s.pool.workers.map Pool.wakeWorker
      schedulers := s.pool.schedulers.map Pool.wakeScheduler }, some t,
    List.range s.pool.workers.length, false⟩, ?_, rfl, rfl⟩
  have hs : s.pool.crash.isSome = false := by rw [hc]; rfl
  simp only [run, step, hn, hr', ha, if_true, poolStep, Pool.step, hs]
  simp [PoolNest.actor, List.isPerm_iff, hs]

/-- Two workers, of which worker 1 runs a task that calls the destructor. -/
private def exampleTask : List Event :=
  [.pool (.runAsync 0 none), .pool (.worker 1), .pool (.worker 0), .destroy 0,
   .pool .stopNotifyWorkers, .joins [0, 1]]

/-- C145 fails: the destructor joins worker 0, and then worker 1, in which it runs itself. -/
example : ∃ s s', run (init 2) exampleTask = some s ∧ s.by_ = some 0 ∧ s.pool.stage = .joining ∧
    step s .join = none ∧
    run s [.pool (.worker 0), .join, .join] = some s' ∧ s'.terminated = true ∧
    s'.pool.stage ≠ .destroyed := ⟨_, _, rfl, rfl, rfl, rfl, rfl, rfl, by decide⟩

/-- The same when the order of the workers is the other one: worker 0 is never joined. -/
example : ∃ s, run (init 2) [.pool (.runAsync 0 none), .pool (.worker 1), .pool (.worker 0), .destroy 0,
    .pool .stopNotifyWorkers, .joins [1, 0], .join] = some s ∧ s.terminated = true ∧
    s.pool.workers = [.ready, .running 0] := ⟨_, rfl, rfl, rfl⟩

/-- A thread outside the pool calls the destructor, while a task runs. -/
example : ∃ s s', run (init 2) [.pool (.runAsync 0 none), .pool (.worker 1), .pool (.worker 0),
    .pool .stop, .pool .stopNotifyWorkers, .joins [1, 0]] = some s ∧ s.by_ = none ∧
    s.pool.stage = .joining ∧ step s .join = none ∧
    run s [.pool (.worker 0), .pool (.taskReturns 1), .pool (.worker 1), .join, .join,
      .pool .stopReturns] = some s' ∧ s'.pool.stage = .destroyed :=
  ⟨_, _, rfl, rfl, rfl, rfl, rfl, rfl⟩

end Pluto.Props
