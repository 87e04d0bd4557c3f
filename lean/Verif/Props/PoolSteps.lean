import Verif.Proofs.PoolStepsRun

/-! # The functions of a thread pool take effect one at a time: C141 -/

namespace Pluto.Props
open Pluto.PoolSteps Pluto.Spec.PoolSteps
open Pluto.Pool (Event Action Phase)

/-- Whenever nobody holds the mutex, the state is the one which the critical sections produce if each of them is executed at
once, in the order in which they were left, and what the functions without an effect have returned is what they return then. -/
theorem C141_atomic (n : Nat) (f : State) (h : Reachable n f) (hi : f.inside = none) (hc : f.base.crash = none) :
    Explains n f.log f.base := by
  obtain ⟨l, a, he, hcr, hs⟩ := Proofs.PoolSteps.sim h
  have hs := hs (hcr ▸ hc)
  rw [hi] at hs
  obtain ⟨rfl, rfl⟩ := hs
  exact he

/-- And the other way round: every order in which sections can be executed at once is one of an execution. -/
theorem C141_exact (n : Nat) (l : List Item) (s : Pool.State) (hc : s.crash = none) :
    Reachable n ⟨s, none, l⟩ ↔ Explains n l s :=
  ⟨fun h => C141_atomic n _ h rfl hc, fun h => Proofs.PoolSteps.of_explains h hc⟩

/-- So the states in which nobody holds the mutex are those that are reached if the sections are executed at once. -/
theorem C141_states (n : Nat) (s : Pool.State) (hc : s.crash = none) :
    (∃ l, Reachable n ⟨s, none, l⟩) ↔ Pool.Reachable n s :=
  ⟨fun ⟨_, h⟩ => Proofs.PoolSteps.reachable_of_explains (C141_atomic n _ h rfl hc), fun h => by
    obtain ⟨l, hl⟩ := Proofs.PoolSteps.explains_of_reachable h
    exact ⟨l, Proofs.PoolSteps.of_explains hl hc⟩⟩

/-- If an execution has undefined behaviour, so has one whose sections are executed at once. -/
theorem C141_crash (n : Nat) (f : State) (h : Reachable n f) : ∃ s, Pool.Reachable n s ∧ s.crash = f.base.crash := by
  obtain ⟨l, a, he, hcr, -⟩ := Proofs.PoolSteps.sim h
  exact ⟨a, Proofs.PoolSteps.reachable_of_explains he, hcr.symm⟩

/-- The thread that holds the mutex never has to wait for another one: it releases the mutex after finitely many of its own
statements (or the program has undefined behaviour). -/
theorem C141_released (n : Nat) (f : State) (h : Reachable n f) : ∃ (ws : List (Option Nat)) (f' : State),
    run f (ws.map .go) = some f' ∧ (f'.inside = none ∨ f'.base.crash.isSome = true) :=
  Proofs.PoolSteps.released h

/-- What the functions without an effect return changes in critical sections only. -/
theorem C141_guarded (f f' : State) (ev : Event) (h : step f (.outside ev) = some f') (g : Getter) :
    value f'.base g = value f.base g := by
  unfold step at h
  split at h
  · cases h
  · simp only at h
    split at h
    · rename_i hev
      cases hp : Pool.step f.base ev with
      | none => rw [hp] at h; cases h
      | some s =>
        rw [hp] at h
        cases h
        obtain ⟨-, ho⟩ := Proofs.PoolSteps.out_of_step hev.1 hp
        obtain ⟨h1, h2, -⟩ := Proofs.PoolSteps.out_prot ho
        rw [Proofs.PoolSteps.value_eq, Proofs.PoolSteps.value_eq, h1, h2]
    · cases h

/-- Tasks are added while a worker is in the middle of looking for one, which it does not see before it looks again: `run_async`
waits for the mutex. In the middle of a later section another worker wakes up spuriously. -/
def stepsExample : List Move :=
  [.enter (.event (.worker 0)), .go none, .go none, .go none, .go none, .go none, .go none,
    .enter (.event (.runAsync 5 none)), .go none, .outside (.spuriousWorker 0), .go none,
    .enter (.get .tasksSize none), .go none, .outside (.notifyOne none), .go none, .go none,
    .enter (.event (.worker 0)), .go none, .go none, .go none, .go none, .go none, .go none, .outside (.callWaitAll none), .go none,
    .go none, .go none, .enter (.event (.waitAll 0)), .go none, .go none, .outside (.taskReturns 0), .go none,
    .enter (.get .activeTasksSize none), .go none, .go none]

example : ∃ f, run (init 1) stepsExample = some f ∧ f.inside = none ∧ f.base.crash = none ∧
    f.log = [.event (.worker 0), .event (.runAsync 5 none), .got .tasksSize (.size 1), .event (.worker 0), .event (.waitAll 0),
      .got .activeTasksSize (.size 1)] ∧ f.base.workers = [.finished 0] := ⟨_, rfl, rfl, rfl, rfl, rfl⟩

/-- In the middle of `start_working` nobody else enters a section, though the queue is not what it is before or after it. -/
example : ∃ f, run (init 1) (stepsExample.take 23) = some f ∧ f.inside = some (.event (.worker 0), .notifyWorking .ready ⟨5, 0, 0, false⟩) ∧
    f.base.active = 0 ∧ f.base.queue = [] ∧ step f (.enter (.get .tasksSize none)) = none ∧
    (step f (.outside (.callWaitAll none))).isSome = true := ⟨_, rfl, rfl, rfl, rfl, rfl, rfl⟩

/-- Undefined behaviour in the middle of a section, as in C18: the scheduler thread detaches itself before the caller of `run_at`
has stored it. -/
example : ∃ f, run (init 1) [.enter (.event (.runAt 0 0 none)), .go none, .go none, .go none, .outside .createScheduler,
    .enter (.event (.scheduler 0 none)), .go none, .go none, .go none, .go none, .outside (.schedulerTimeout 0),
    .enter (.event (.scheduler 0 none)), .go none, .go none, .go none, .go none, .go none, .go none] = some f ∧
    f.inside.isSome = true ∧ f.base.crash = some .detachedUnassigned := ⟨_, rfl, rfl, rfl⟩

end Pluto.Props
