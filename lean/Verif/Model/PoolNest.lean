import Verif.Model.Pool

/-!
# Model of tasks that wait for the pool (`include/pluto/thread_pool.hpp`)

In Model/Pool.lean a task may end at any moment.  Here the tasks that are inside one of the
three functions that wait (`run_sync`, lines 270-286, `wait_until_no_tasks_waiting`, lines
341-349, `wait_until_all_tasks_complete`, lines 351-359) are recorded: such a task does
nothing else, and does not return or throw, until the function returns.  Every execution of
this model is one of Model/Pool.lean.

Not modelled: that a task is inside one of the functions that do not wait (it may go on
before the notification or the assignment that the function still has to make).
-/

namespace Pluto.PoolNest
open Pluto.Pool (Event)

/-- The pool and the tasks that wait for it.  `thread_pool.hpp` 271-286 and 341-359. -/
structure State where
  /-- the pool -/
  pool : Pool.State
  /-- tasks inside `run_sync` (line 285), each with the task for which it waits -/
  syncing : List (Nat × Nat) := []
  /-- the callers of `wait_until_no_tasks_waiting`, in the order of `pool.waitNone`: the
  task that has called it, or `none` for a thread outside the pool -/
  noneCallers : List (Option Nat) := []
  /-- the callers of `wait_until_all_tasks_complete`, in the order of `pool.waitAll` -/
  allCallers : List (Option Nat) := []
deriving DecidableEq, Repr

/-- The task that worker `i` is calling (line 415). -/
def taskOf (s : Pool.State) (i : Nat) : Option Nat :=
  match s.workers[i]? with
  | some (.running t) => some t
  | _ => none

/-- The task that does the step: it calls a function of the pool, or returns, or throws.
`thread_pool.hpp` 271-286 and 341-359. -/
def actor (s : Pool.State) : Event → Option Nat
  | .runAsync _ c => c.bind (taskOf s)
  | .runSync _ c => c.bind (taskOf s)
  | .runAt _ _ c => c.bind (taskOf s)
  | .runAfter _ _ c => c.bind (taskOf s)
  | .setTarget _ c => c.bind (taskOf s)
  | .setOnStop _ c => c.bind (taskOf s)
  | .callWaitNone c => c.bind (taskOf s)
  | .callWaitAll c => c.bind (taskOf s)
  | .taskReturns i => taskOf s i
  | .taskThrows i => taskOf s i
  | _ => none

/-- Whether a task is inside a function that waits (lines 285, 347, 357). -/
def inside (s : State) (t : Nat) : Bool :=
  decide (t ∈ s.syncing.map (·.1)) || decide (some t ∈ s.noneCallers) ||
    decide (some t ∈ s.allCallers)

/-- Which task is inside which function after the step `ev`, which leads to `p`.  `thread_pool.hpp` 271-286 and 341-359. -/
def record (s : State) (p : Pool.State) (ev : Event) : State :=
  match ev with
  | .runSync _ _ =>
    match actor s.pool ev with
    | some t => { s with pool := p, syncing := (t, s.pool.nextTask) :: s.syncing }
    | none => { s with pool := p }
  | .syncReturns u => { s with pool := p, syncing := s.syncing.filter (·.2 != u) }
  | .callWaitNone _ => { s with pool := p, noneCallers := s.noneCallers ++ [actor s.pool ev] }
  | .callWaitAll _ => { s with pool := p, allCallers := s.allCallers ++ [actor s.pool ev] }
  | .waitNone i =>
    if p.waitNone.length < s.pool.waitNone.length then
      { s with pool := p, noneCallers := s.noneCallers.eraseIdx i }
    else { s with pool := p }
  | .waitAll i =>
    if p.waitAll.length < s.pool.waitAll.length then
      { s with pool := p, allCallers := s.allCallers.eraseIdx i }
    else { s with pool := p }
  | _ => { s with pool := p }

/-- Whether the task that would do the step waits inside a function of the pool.  `thread_pool.hpp` 271-286 and 341-359. -/
def held (s : State) (ev : Event) : Bool :=
  match actor s.pool ev with
  | some t => inside s t
  | none => false

/-- One step: a step of the pool that is not one of a task that waits.  `thread_pool.hpp` 271-286 and 341-359. -/
def step (s : State) (ev : Event) : Option State :=
  if held s ev then none else (Pool.step s.pool ev).map fun p => record s p ev

/-- The constructor, lines 112-125. -/
def init (n : Nat) : State := { pool := Pool.init n }

/-- Several steps.  `thread_pool.hpp` 271-286 and 341-359. -/
def run (s : State) : List Event → Option State
  | [] => some s
  | ev :: evs =>
    match step s ev with
    | some s => run s evs
    | none => none

/-- States that executions of a pool created with `n` workers reach.  `thread_pool.hpp` 271-286 and 341-359. -/
inductive Reachable (n : Nat) : State → Prop where
  | init : Reachable n (init n)
  | step {s s' : State} (ev : Event) : Reachable n s → step s ev = some s' → Reachable n s'

end Pluto.PoolNest
