import Verif.Props.Pool
import Verif.Proofs.PoolDefault

/-!
# C171: a pool that is created without a number of workers

The default is `std::thread::hardware_concurrency()` (`thread_pool.hpp` 112), which may be 0; it is the `n` of
`init n`.
-/

namespace Pluto.Props

open Pool Spec.Pool

/-- C171 (partial): if the default is not 0 and no caller sets the number to 0, every task is completed or still
scheduled when the pool has come to rest, which it does after a bounded number of its own steps.  Missing: a default
of 0, see `C171_fails`. -/
theorem C171_runs_partial {n : Nat} {s : State} {evs : List Event} (hn : 0 < n) (hr : run (init n) evs = some s)
    (hz : ∀ c, .setTarget 0 c ∉ evs) (hc : s.crash = none) (hs : s.stopping = false) :
    ∃ bound, ∀ evs' s', (∀ ev ∈ evs', Own ev = true) → run s evs' = some s' →
      evs'.length ≤ bound ∧
      ((∀ ev, Own ev = true → step s' ev = none) →
        (s'.scheduled.map (·.task) ++ s'.completed).Perm (List.range s'.nextTask)) := by
  obtain ⟨bound, h⟩ := C79_comes_to_rest (pool_reachable hr) hc hs (target_run (s := init n) hn hr hz)
  exact ⟨bound, fun evs' s' he hr' => ⟨(h evs' s' he hr').1, fun hq => ((h evs' s' he hr').2 hq).1⟩⟩

/-- C171 is false if the default is 0: until a caller sets another number, no task is ever started, every task stays
in the queue, and no call of `run_sync` returns, whatever happens. -/
theorem C171_fails {s : State} {evs : List Event} (hr : run (init 0) evs = some s)
    (hz : ∀ n c, .setTarget n c ∈ evs → n = 0) :
    s.workers = [] ∧ s.started = [] ∧ s.completed = [] ∧ evs.countP AddsTask ≤ s.queue.length ∧
      s.syncs.length = evs.countP CallsSync ∧ ∀ t, step s (.syncReturns t) = none := by
  obtain ⟨h, h1, h2⟩ := unmanned_run ⟨rfl, rfl, rfl, rfl, rfl⟩ hr hz
  refine ⟨h.workers, h.started, h.completed, by simpa [init] using h2, by simpa [init] using h1, fun t => ?_⟩
  have := h.fulfilled
  simp [step, this]

/-- C171: nor does a call of a waiting function return when a task has been added. -/
theorem C171_fails_waiting {s : State} {evs : List Event} (hr : run (init 0) evs = some s)
    (hz : ∀ n c, .setTarget n c ∈ evs → n = 0) (ha : ∃ ev ∈ evs, AddsTask ev = true) (i : Nat) :
    (∀ s', step s (.waitNone i) = some s' → s'.waitNone.length = s.waitNone.length) ∧
      ∀ s', step s (.waitAll i) = some s' → s'.waitAll.length = s.waitAll.length := by
  obtain ⟨-, -, -, h, -⟩ := C171_fails hr hz
  have hq : s.queue ≠ [] := by
    intro h0
    rw [h0] at h
    simp at h
    obtain ⟨ev, hm, hv⟩ := ha
    rw [h ev hm] at hv
    cases hv
  constructor <;> intro s' hs <;> obtain ⟨-, hs⟩ := step_cases hs <;> cases hs <;> simp_all

/-- C171: setting a positive number helps at any time: the pool then has that many workers, and completes also the
tasks that were added before. -/
theorem C171_raise {s s' : State} {evs : List Event} {n : Nat} {c : Option Nat} (hr : run (init 0) evs = some s)
    (hz : ∀ n c, .setTarget n c ∈ evs → n = 0) (hs : step s (.setTarget (n + 1) c) = some s')
    (hst : s.stopping = false) :
    s'.workers = List.replicate (n + 1) .ready ∧
      ∃ bound, ∀ evs' s'', (∀ ev ∈ evs', Own ev = true) → run s' evs' = some s'' →
        evs'.length ≤ bound ∧
        ((∀ ev, Own ev = true → step s'' ev = none) →
          (s''.scheduled.map (·.task) ++ s''.completed).Perm (List.range s''.nextTask)) := by
  obtain ⟨h, -⟩ := unmanned_run ⟨rfl, rfl, rfl, rfl, rfl⟩ hr hz
  have hw := h.workers
  have r' : Reachable 0 s' := .step _ (pool_reachable hr) hs
  have key : s'.workers = List.replicate (n + 1) .ready ∧ s'.target = n + 1 ∧ s'.crash = none ∧
      s'.stopping = false := by
    obtain ⟨hc, hs⟩ := step_cases hs
    cases hs with
    | grow _ _ _ h1 h2 => exact ⟨by simp [hw], rfl, hc, hst⟩
    | shrink _ _ _ h1 h2 => rw [hw] at h2; cases h2
    | _ => simp_all
  obtain ⟨h1, h2, h3, h4⟩ := key
  obtain ⟨bound, hb⟩ := C79_comes_to_rest r' h3 h4 (by omega)
  exact ⟨h1, bound, fun evs' s'' he hr' => ⟨(hb evs' s'' he hr').1, fun hq => ((hb evs' s'' he hr').2 hq).1⟩⟩

/-- A pool with no workers and two tasks, one of them added with `run_sync`; then with one worker. -/
example : ∃ s s' s'', run (init 0) [.runAsync 0 none, .runSync 1 none, .notifyOne none, .notifyOne none] = some s ∧
    s.queue.map (·.task) = [1, 0] ∧ s.syncs = [1] ∧ s.stopping = false ∧
    step s (.setTarget 1 none) = some s' ∧ run s' [.worker 0, .taskReturns 0, .worker 0, .taskReturns 0,
      .worker 0, .syncReturns 1] = some s'' ∧ s''.completed = [1, 0] ∧ s''.syncs = [] :=
  ⟨_, _, _, rfl, rfl, rfl, rfl, rfl, rfl, rfl, rfl⟩

example : ∃ s, run (init 2) [.runAsync 0 none, .setTarget 1 none] = some s ∧ s.crash = none ∧ s.stopping = false :=
  ⟨_, rfl, rfl, rfl⟩

end Pluto.Props
