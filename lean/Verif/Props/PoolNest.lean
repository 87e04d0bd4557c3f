import Verif.Proofs.PoolDoomed
import Verif.Props.Pool

/-!
# Properties of tasks that wait for the pool (C89-C91)

`PoolNest.Reachable n s`: an execution of a pool created with `n` workers leads to `s`, in
which a task that has called `run_sync` or one of the two waiting functions does nothing
until the call returns (Model/PoolNest.lean).  These executions are executions of
Model/Pool.lean, so what Props/Pool.lean says about `Pool.Reachable` holds for them.
-/

namespace Pluto.Props
open Pluto.Pool (Event)
open Pluto.PoolNest Pluto.Spec.PoolNest

theorem nest_reachable {n : Nat} {s : PoolNest.State} {evs : List Event}
    (h : PoolNest.run (PoolNest.init n) evs = some s) : PoolNest.Reachable n s :=
  PoolNest.reachable_run .init h

/-- Executions in which tasks wait are executions of the pool. -/
theorem nest_pool {n : Nat} {s : PoolNest.State} (h : PoolNest.Reachable n s) :
    Pool.Reachable n s.pool := PoolNest.pool_reachable h

/-! ## `run_sync` in tasks -/

/-- C89: tasks call `run_sync` and `wait_until_no_tasks_waiting`. When nobody makes new
calls and every task that does not wait returns, the pool comes to rest after a bounded
number of steps; at rest all tasks are complete and all calls have returned, unless every
worker is occupied by a task that waits, or a task has called
`wait_until_all_tasks_complete`. Missing: the first exception, see `C89_fails`; the second
is C90. -/
theorem C89_comes_to_rest_partial {n : Nat} {s : PoolNest.State} (h : PoolNest.Reachable n s)
    (hc : s.pool.crash = none) (hs : s.pool.stopping = false) (ht : 0 < s.pool.target) :
    ∃ bound, ∀ evs s', (∀ ev ∈ evs, Own ev = true) → PoolNest.run s evs = some s' →
      evs.length ≤ bound ∧
      ((∀ ev, Own ev = true → PoolNest.step s' ev = none) →
        AllOccupied s' ∨ (∃ t, some t ∈ s'.allCallers) ∨
        ((s'.pool.scheduled.map (·.task) ++ s'.pool.completed).Perm
            (List.range s'.pool.nextTask) ∧
          (∀ p ∈ s'.pool.workers, p = .blocked) ∧ s'.pool.syncs = [] ∧
          s'.pool.waitNone = [] ∧ s'.pool.waitAll = [])) := by
  refine ⟨steps (Pool.work s.pool) s, ?_⟩
  intro evs s' he hr
  obtain ⟨h1, h2, h3, h4⟩ := PoolNest.own_run he hr
  refine ⟨by omega, fun hrest => ?_⟩
  have hr' := PoolNest.reachable_run h hr
  rcases PoolNest.rest hr' (by rw [h4]; exact hc) (by rw [h2]; exact hs) (by rw [h3]; exact ht)
    hrest with h | h | ⟨g1, g2, g3, g4, g5⟩
  · exact .inl h
  · exact .inr (.inl h)
  · refine .inr (.inr ⟨?_, g2, g3, g4, g5⟩)
    have hcons := C12_conserved (nest_pool hr')
    have hrun : Spec.Pool.running s'.pool = [] := by
      unfold Spec.Pool.running
      rw [List.filterMap_eq_nil_iff]
      intro p hp
      rw [g2 p hp]
    rw [g1, hrun] at hcons
    simpa using hcons

/-- C89: every worker is occupied only if at least as many tasks wait as the pool has
workers. So one worker more than the tasks that ever wait at the same time is enough. -/
theorem C89_enough_workers {n : Nat} {s : PoolNest.State} (h : PoolNest.Reachable n s)
    (hocc : AllOccupied s) : s.pool.workers.length ≤ (insiders s).length := by
  have hmem : ∀ t, inside s t = true → t ∈ insiders s := by
    intro t ht
    unfold insiders
    rcases inside_iff.1 ht with ⟨u, hu⟩ | ht | ht
    · exact List.mem_append_left _ (List.mem_append_left _ (List.mem_map.2 ⟨_, hu, rfl⟩))
    · exact List.mem_append_left _ (List.mem_append_right _ (List.mem_filterMap.2 ⟨_, ht, rfl⟩))
    · exact List.mem_append_right _ (List.mem_filterMap.2 ⟨_, ht, rfl⟩)
  have hrun : (Spec.Pool.running s.pool).length = s.pool.workers.length := by
    unfold Spec.Pool.running
    rw [List.length_filterMap_eq_countP, List.countP_eq_length]
    intro p hp
    obtain ⟨t, rfl, -⟩ := hocc p hp
    rfl
  have hsub : Spec.Pool.running s.pool ⊆ insiders s := by
    intro t ht
    unfold Spec.Pool.running at ht
    obtain ⟨p, hp, hpt⟩ := List.mem_filterMap.1 ht
    obtain ⟨t', rfl, hin⟩ := hocc p hp
    simp only [Option.some.injEq] at hpt
    subst hpt
    exact hmem _ hin
  have hnd : (Spec.Pool.running s.pool).Nodup := by
    have := (C12_conserved (nest_pool h)).nodup_iff.2 List.nodup_range
    exact (List.nodup_append.1 (List.nodup_append.1 this).1).2.1
  rw [← hrun]
  exact (List.subperm_of_subset hnd hsub).length_le

/-- C89 fails, for every number of workers: as many tasks as there are workers call
`run_sync`; no task of the queue is ever started and no call returns, unless somebody
raises the number of workers. -/
theorem C89_fails (n : Nat) : ∃ s, PoolNest.Reachable n s ∧
    s.pool.workers.length = n ∧ s.pool.target = n ∧ s.syncing.length = n ∧
    s.pool.queue.length = n ∧ s.pool.completed = [] ∧ s.pool.crash = none ∧
    s.pool.stopping = false ∧ ∀ ev, Own ev = true → PoolNest.step s ev = none := by
  obtain ⟨s, h, hp⟩ := stuck_exists n
  have hl := congrArg List.length h.order
  refine ⟨s, h.reach, ?_, h.target, by simpa using hl, h.queue, h.completed, h.crash, h.stopping,
    (stuck_rest h hp).2⟩
  rw [h.workers]; simp

/-- Two workers; a task waits for another one and both complete. -/
example : ∃ s s', PoolNest.run (PoolNest.init 2) [.runAsync 0 none, .worker 0,
      .runSync 0 (some 0), .notifyOne none, .notifyOne none] = some s ∧
    s.syncing = [(0, 1)] ∧ PoolNest.step s (.taskReturns 0) = none ∧
    PoolNest.run s [.worker 1, .taskReturns 1, .syncReturns 1, .taskReturns 0, .worker 0,
      .worker 1] = some s' ∧
    s'.pool.completed = [1, 0] ∧ s'.pool.syncs = [] ∧ s'.syncing = [] ∧
    s'.pool.workers = [.blocked, .blocked] :=
  ⟨_, _, rfl, rfl, rfl, rfl, rfl, rfl, rfl, rfl⟩

/-- Two workers, both occupied; two tasks wait. -/
example : ∃ s, PoolNest.Reachable 2 s ∧ AllOccupied s ∧ (insiders s).length = 2 := by
  obtain ⟨s, h, hp⟩ := stuck_exists 2
  refine ⟨s, h.reach, (stuck_rest h hp).1, ?_⟩
  have := congrArg List.length h.order
  simpa [insiders, h.noneCallers, h.allCallers] using this

/-! ## `wait_until_all_tasks_complete` in tasks -/

/-- C90: a task that has called `wait_until_all_tasks_complete` stays inside the call and
goes on running forever, whatever happens; so `wait_until_all_tasks_complete` never returns
to anybody from then on, and neither does the destructor. -/
theorem C90_never_returns {n : Nat} {s s' : PoolNest.State} {evs : List Event} {t : Nat}
    (h : PoolNest.Reachable n s) (ht : some t ∈ s.allCallers) (hr : PoolNest.run s evs = some s') :
    some t ∈ s'.allCallers ∧ t ∈ Spec.Pool.running s'.pool ∧ s'.pool.stage ≠ .destroyed ∧
      ∀ i s'', PoolNest.step s' (.waitAll i) = some s'' →
        s''.pool.waitAll.length = s'.pool.waitAll.length := by
  have hr' := PoolNest.reachable_run h hr
  have hall : some t ∈ s'.allCallers := by
    clear hr'
    induction evs generalizing s with
    | nil => simp only [PoolNest.run, Option.some.injEq] at hr; subst hr; exact ht
    | cons ev evs ih =>
      simp only [PoolNest.run] at hr
      cases hst : PoolNest.step s ev with
      | none => rw [hst] at hr; cases hr
      | some s1 => rw [hst] at hr; exact ih (.step ev h hst) (all_forever h hst ht) hr
  have hrun := (nest hr').all t hall
  refine ⟨hall, ?_, ?_, ?_⟩
  · exact List.mem_filterMap.2 ⟨_, hrun, rfl⟩
  · intro hd
    have := (C20_joined (nest_pool hr') hd).1 _ hrun
    cases this
  · intro i s'' hs
    have hp := pool_step hs
    by_contra hne
    have hlt : s''.pool.waitAll.length < s'.pool.waitAll.length := by
      have hp' := (Pool.step_cases hp).2
      generalize s''.pool = p at hp' hne
      cases hp' with
      | waitAllBlocks _ hi hq => simp at hne
      | waitAllReturns _ hi hq =>
        have := (List.getElem?_eq_some_iff.1 hi).1
        simp only
        rw [List.length_eraseIdx_of_lt this]
        omega
    have := (C16_wait_all_safe (nest_pool hr') hp hlt).2.2
    have hm : t ∈ Spec.Pool.running s'.pool := List.mem_filterMap.2 ⟨_, hrun, rfl⟩
    rw [this] at hm
    cases hm

/-- A task calls the function; the worker is the only one. -/
example : ∃ s, PoolNest.run (PoolNest.init 1) [.runAsync 0 none, .notifyOne none, .worker 0,
      .callWaitAll (some 0), .waitAll 0, .callWaitAll none, .waitAll 1] = some s ∧
    s.allCallers = [some 0, none] ∧ s.pool.waitAll = [.blocked, .blocked] :=
  ⟨_, rfl, rfl, rfl⟩

/-! ## The destructor and tasks that wait -/

/-- C91: when the destructor has sent its notifications and every task that does not wait
returns, it returns, unless a task waits forever inside a function of the pool. Missing: a
condition under which no task does, see `C91_completes_partial` and the two
counterexamples. -/
theorem C91_destructor_partial {n : Nat} {s : PoolNest.State} (h : PoolNest.Reachable n s)
    (hj : s.pool.stage = .joining) :
    ∃ bound, ∀ evs s', (∀ ev ∈ evs, Ending ev = true) → PoolNest.run s evs = some s' →
      s'.pool.crash = none →
      evs.length ≤ bound ∧
      ((∀ ev, Ending ev = true → PoolNest.step s' ev = none) →
        (∃ s'', PoolNest.step s' .stopReturns = some s'' ∧ s''.pool.stage = .destroyed) ∨
        ∃ t, t ∈ Spec.Pool.running s'.pool ∧ inside s' t = true) := by
  refine ⟨steps (Pool.endWork s.pool) s, ?_⟩
  intro evs s' he hr hc
  obtain ⟨h1, h2⟩ := PoolNest.ending_run he h hj hr hc
  refine ⟨by omega, fun hrest => ?_⟩
  have hr' := PoolNest.reachable_run h hr
  by_cases hin : ∃ t, t ∈ Spec.Pool.running s'.pool ∧ inside s' t = true
  · exact .inr hin
  · refine .inl (PoolNest.ending_rest hr' hc h2 hrest ?_)
    intro t ht
    rcases joining_worker hr' hc h2 hrest _ ht with e | ⟨t', e, hi⟩
    · cases e
    · cases e
      exact hin ⟨t, List.mem_filterMap.2 ⟨_, ht, rfl⟩, hi⟩

/-- C91, if the action is `complete_tasks`, no worker is superfluous when the destructor
begins, and from then on no task calls `run_sync`: when nothing more can happen, the
destructor is able to return, unless every worker is occupied by a task that waits, or a
task is inside one of the two waiting functions. Missing: these exceptions and the other
action. -/
theorem C91_completes_partial {n : Nat} {s₀ s₁ s₂ : PoolNest.State} {evs : List Event}
    (h : PoolNest.Reachable n s₀) (ha : s₀.pool.onStop = .completeTasks)
    (hw : s₀.pool.workers ≠ []) (ht : s₀.pool.workers.length ≤ s₀.pool.target)
    (h₁ : PoolNest.step s₀ .stop = some s₁) (h₂ : PoolNest.run s₁ evs = some s₂)
    (hsync : ∀ p c, .runSync p c ∉ evs) (hact : ∀ c, .setOnStop .joinAll c ∉ evs)
    (hj : s₂.pool.stage = .joining) (hc : s₂.pool.crash = none)
    (hrest : ∀ ev, Ending ev = true → PoolNest.step s₂ ev = none) :
    (∃ s₃, PoolNest.step s₂ .stopReturns = some s₃ ∧ s₃.pool.stage = .destroyed) ∨
      AllOccupied s₂ ∨ ∃ t, some t ∈ s₂.noneCallers ∨ some t ∈ s₂.allCallers := by
  have r₁ : PoolNest.Reachable n s₁ := .step _ h h₁
  have r₂ := PoolNest.reachable_run r₁ h₂
  have hst₁ := (Pool.step_cases (pool_step h₁)).2
  have hl := Pool.live (nest_pool h)
  have hne : Pool.cnt Pool.isExited s₁.pool.workers = 0 ∧
      Pool.Completing s₀.pool.nextSeq s₁.pool := by
    generalize s₁.pool = p at hst₁
    cases hst₁ with
    | stop hst =>
      have hns : s₀.pool.stopping = false := by
        cases hs : s₀.pool.stopping with
        | false => rfl
        | true => exact absurd hst (hl.stage.1 hs)
      have h0 := hl.noExit hns
      refine ⟨h0, rfl, ha, ht, rfl, Nat.le_refl _, fun _ => ?_⟩
      have := List.length_pos_iff.2 hw
      simp only
      omega
  have hserved : Served s₁ := by
    intro _ hex
    obtain ⟨i, hi⟩ := List.mem_iff_getElem?.1 hex
    have := Pool.cnt_pos (p := Pool.isExited) hi rfl
    have := hne.1
    omega
  have hserved₂ := served_run r₁ hserved hne.2 h₂ hsync hact
  by_cases hocc : AllOccupied s₂
  · exact .inr (.inl hocc)
  by_cases hin : ∃ t, some t ∈ s₂.noneCallers ∨ some t ∈ s₂.allCallers
  · exact .inr (.inr hin)
  left
  have hworker := joining_worker r₂ hc hj hrest
  have hex : Pool.Phase.exited ∈ s₂.pool.workers := by
    unfold AllOccupied at hocc
    simp only [not_forall] at hocc
    obtain ⟨p, hp, hno⟩ := hocc
    rcases hworker p hp with rfl | h
    · exact hp
    · exact absurd h hno
  refine PoolNest.ending_rest r₂ hc hj hrest ?_
  exact none_running r₂ hc (fun u => hrest _ rfl) (fun i => hrest _ rfl)
    (fun x hx hq => hserved₂ ⟨x, hx, hq⟩ hex) (fun t ht => hin ⟨t, .inl ht⟩)
    (fun t ht => hin ⟨t, .inr ht⟩)

/-- C91, whatever the action: if every task inside `run_sync` waits for one that has been started, and none calls `run_sync`
from then on, the destructor is able to return when nothing more can happen, unless a task is inside one of the two waiting
functions. Missing: these exceptions. -/
theorem C91_started_partial {n : Nat} {s₁ s₂ : PoolNest.State} {evs : List Event}
    (h : PoolNest.Reachable n s₁) (hx : ∀ x ∈ s₁.syncing, x.2 ∉ s₁.pool.queue.map (·.task))
    (h₂ : PoolNest.run s₁ evs = some s₂) (hsync : ∀ p c, .runSync p c ∉ evs)
    (hj : s₂.pool.stage = .joining) (hc : s₂.pool.crash = none)
    (hrest : ∀ ev, Ending ev = true → PoolNest.step s₂ ev = none) :
    (∃ s₃, PoolNest.step s₂ .stopReturns = some s₃ ∧ s₃.pool.stage = .destroyed) ∨
      ∃ t, some t ∈ s₂.noneCallers ∨ some t ∈ s₂.allCallers := by
  have r₂ := PoolNest.reachable_run h h₂
  have hq := unqueued_run h hx hsync h₂
  by_cases hin : ∃ t, some t ∈ s₂.noneCallers ∨ some t ∈ s₂.allCallers
  · exact .inr hin
  left
  refine PoolNest.ending_rest r₂ hc hj hrest ?_
  exact none_running r₂ hc (fun u => hrest _ rfl) (fun i => hrest _ rfl)
    hq (fun t ht => hin ⟨t, .inl ht⟩) (fun t ht => hin ⟨t, .inr ht⟩)

/-- With `join_all`: a task waits for another one, which has been started; the destructor returns. -/
example : ∃ s₁ s₂ s₃, PoolNest.run (PoolNest.init 2) [.runAsync 0 none, .worker 0, .runSync 0 (some 0), .worker 1,
      .stop] = some s₁ ∧ s₁.syncing = [(0, 1)] ∧ s₁.pool.queue = [] ∧ s₁.pool.onStop = .joinAll ∧
    PoolNest.run s₁ [.stopNotifyWorkers, .stopNotifyScheduler, .taskReturns 1, .worker 1, .syncReturns 1, .taskReturns 0,
      .worker 0] = some s₂ ∧
    s₂.pool.stage = .joining ∧ PoolNest.step s₂ .stopReturns = some s₃ ∧ s₃.pool.stage = .destroyed :=
  ⟨_, _, _, rfl, rfl, rfl, rfl, rfl, rfl, rfl, rfl⟩

/-- C91, the exception with `join_all` is exact: if a task waits in `run_sync` for one that has not been started when the
destructor has begun, the destructor never returns and the call does not either, whatever happens, unless a task sets the
action to `complete_tasks`. -/
theorem C91_never_join_all {n : Nat} {s s' : PoolNest.State} {evs : List Event} (h : PoolNest.Reachable n s)
    (hst : s.pool.stopping = true) (ha : s.pool.onStop = .joinAll) {t u : Nat} (hx : (t, u) ∈ s.syncing)
    (hu : u ∈ s.pool.queue.map (·.task)) (hev : ∀ c, .setOnStop .completeTasks c ∉ evs)
    (hr : PoolNest.run s evs = some s') :
    s'.pool.stage ≠ .destroyed ∧ (t, u) ∈ s'.syncing ∧ u ∈ s'.pool.queue.map (·.task) := by
  obtain ⟨h1, h2⟩ := join_run h hst ha hx hu hev hr
  have hr' := PoolNest.reachable_run h hr
  refine ⟨fun hd => ?_, h1, h2⟩
  have := (C20_joined (nest_pool hr') hd).1 _ ((nest hr').sync _ h1).1
  cases this

/-- C91, whatever the action: if the destructor has begun and every worker has ended or is occupied by a task that waits in
`run_sync` for one that has not been started, and there is such a task, the destructor never returns, whatever happens. -/
theorem C91_never_occupied {n : Nat} {s s' : PoolNest.State} {evs : List Event} (h : PoolNest.Reachable n s)
    (hst : s.pool.stopping = true)
    (hw : ∀ p ∈ s.pool.workers, p = .exited ∨
      ∃ t u, p = .running t ∧ (t, u) ∈ s.syncing ∧ u ∈ s.pool.queue.map (·.task))
    {t u : Nat} (hx : (t, u) ∈ s.syncing) (hu : u ∈ s.pool.queue.map (·.task)) (hr : PoolNest.run s evs = some s') :
    s'.pool.stage ≠ .destroyed ∧ (t, u) ∈ s'.syncing ∧ u ∈ s'.pool.queue.map (·.task) := by
  obtain ⟨h1, h2⟩ := (doomed_run h ⟨hst, hw⟩ hr).2 t u hx hu
  have hr' := PoolNest.reachable_run h hr
  refine ⟨fun hd => ?_, h1, h2⟩
  have := (C20_joined (nest_pool hr') hd).1 _ ((nest hr').sync _ h1).1
  cases this

/-- C91 fails with `join_all`, for every number of workers: a task waits for another one that has not been started when the
destructor begins, and the destructor never returns. -/
theorem C91_fails_join_all (n : Nat) : ∃ s, PoolNest.Reachable (n + 1) s ∧ s.pool.stopping = true ∧
    s.pool.onStop = .joinAll ∧ (0, 1) ∈ s.syncing ∧
    ∀ evs s', (∀ c, .setOnStop .completeTasks c ∉ evs) → PoolNest.run s evs = some s' → s'.pool.stage ≠ .destroyed := by
  obtain ⟨s, h, hst, ha, hx, hu⟩ := join_exists n
  exact ⟨s, h, hst, ha, hx, fun evs s' hev hr => (C91_never_join_all h hst ha hx hu hev hr).1⟩

/-- C91 fails with `complete_tasks`, for every number of workers: the workers that find nothing to do end; then a task
calls `run_sync`, nobody is left to run what it waits for, and the destructor never returns. -/
theorem C91_fails_complete_tasks (n : Nat) : ∃ s, PoolNest.Reachable (n + 1) s ∧ s.pool.stopping = true ∧
    s.pool.onStop = .completeTasks ∧ (0, 1) ∈ s.syncing ∧
    ∀ evs s', PoolNest.run s evs = some s' → s'.pool.stage ≠ .destroyed := by
  obtain ⟨s, h, ha, hd, hx, hu⟩ := complete_exists n
  exact ⟨s, h, hd.stopping, ha, hx, fun evs s' hr => (C91_never_occupied h hd.stopping hd.workers hx hu hr).1⟩

/-- The first case with two workers, of which the other one ends. -/
example : ∃ s s', PoolNest.run (PoolNest.init 2) [.runAsync 0 none, .notifyOne none, .worker 0,
      .runSync 0 (some 0), .stop] = some s ∧ s.pool.queue.map (·.task) = [1] ∧ s.syncing = [(0, 1)] ∧
    PoolNest.run s [.stopNotifyWorkers, .stopNotifyScheduler, .worker 1] = some s' ∧
    s'.pool.stage = .joining ∧ s'.pool.workers = [.running 0, .exited] :=
  ⟨_, _, rfl, rfl, rfl, rfl, rfl, rfl⟩

/-- The second case with two workers. -/
example : ∃ s, PoolNest.run (PoolNest.init 2)
      [.setOnStop .completeTasks none, .runAsync 0 none, .notifyOne none, .worker 0, .stop, .stopNotifyWorkers,
      .stopNotifyScheduler, .worker 1, .runSync 0 (some 0)] = some s ∧
    s.pool.workers = [.running 0, .exited] ∧ s.pool.queue.map (·.task) = [1] ∧ s.syncing = [(0, 1)] :=
  ⟨_, rfl, rfl, rfl, rfl⟩

/-- The same pool with `complete_tasks`, where the call precedes the destructor, which
returns. -/
example : ∃ s₀ s₁ s₂ s₃, PoolNest.run (PoolNest.init 2) [.setOnStop .completeTasks none,
      .runAsync 0 none, .worker 0, .runSync 0 (some 0)] = some s₀ ∧
    s₀.pool.workers.length ≤ s₀.pool.target ∧ PoolNest.step s₀ .stop = some s₁ ∧
    PoolNest.run s₁ [.stopNotifyWorkers, .stopNotifyScheduler, .worker 1, .taskReturns 1,
      .worker 1, .syncReturns 1, .taskReturns 0, .worker 0] = some s₂ ∧
    s₂.pool.stage = .joining ∧ PoolNest.step s₂ .stopReturns = some s₃ ∧
    s₃.pool.completed = [1, 0] :=
  ⟨_, _, _, _, rfl, by decide, rfl, rfl, rfl, rfl, rfl⟩

end Pluto.Props
