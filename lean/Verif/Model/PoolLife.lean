import Verif.Model.Pool

/-!
# Life times of objects in `include/pluto/thread_pool.hpp`

The steps are those of Model/Pool.lean.  In addition:

* the promise of `run_sync` (lines 274-285) is used by the worker from `set_value` until
  that returns; the value is there, and the caller can go on, before it returns;
* the function object of a task is destroyed at the end of the block in which the worker
  called it (line 419), and the scheduler destroys its own when it has copied it (line 372).
  Both hold the mutex then.  If the destructor of something the function object contains
  calls the pool, the thread locks a mutex that it owns, which is undefined.
-/

namespace Pluto.PoolLife

/-- The pool and the objects.  `thread_pool.hpp` 96-109, 275, 404. -/
structure State where
  /-- the pool; a promise exists while its task is in `pool.syncs`: it is a local variable
  of `run_sync` (274) -/
  pool : Pool.State
  /-- history: the tasks submitted by `run_sync`; they have a promise (277-280) -/
  promised : List Nat := []
  /-- tasks in whose `promise.set_value()` (279) a worker is, after the value has been set -/
  leaving : List Nat := []
  /-- a thread has locked the mutex that it owned -/
  relocked : Bool := false
deriving DecidableEq, Repr

/-- What can happen next.  `thread_pool.hpp` 275-285, 371-372, 404-419. -/
inductive Event where
  | pool (ev : Pool.Event)
  /-- `set_value` of task `t` returns (279) -/
  | leave (t : Nat)
deriving DecidableEq, Repr

/-- The task whose function object is destroyed in the step, while the mutex is held: lines
419 and 372. -/
def destroyed (s : Pool.State) : Pool.Event → Option Nat
  | .worker i =>
    match s.workers[i]? with
    | some (.finished t) => some t
    | _ => none
  | .scheduler i _ =>
    match s.schedulers[i]? with
    | some (.timedOut e _) => if e ∈ s.scheduled then some e.task else none
    | _ => none
  | _ => none

/-- Whether the step is one of a worker that is still inside `set_value` (279). -/
def held (s : State) : Pool.Event → Bool
  | .worker i =>
    match s.pool.workers[i]? with
    | some (.finished t) => decide (t ∈ s.leaving)
    | _ => false
  | _ => false

/-- Lines 274-280: `run_sync` gives its task a promise; a task with a promise sets it. -/
def record (s : State) (p : Pool.State) : Pool.Event → State
  | .runSync _ _ => { s with pool := p, promised := s.pool.nextTask :: s.promised }
  | .taskReturns i =>
    match s.pool.workers[i]? with
    | some (.running t) =>
      if t ∈ s.promised then { s with pool := p, leaving := t :: s.leaving }
      else { s with pool := p }
    | _ => { s with pool := p }
  | _ => { s with pool := p }

/-- One step.  `calls t` says whether something in the function object of task `t` calls the
pool when it is destroyed.  `thread_pool.hpp` 275-285, 371-372, 404-419. -/
def step (calls : Nat → Bool) (s : State) : Event → Option State
  | .leave t =>
    if s.relocked then none
    else if t ∈ s.leaving then some { s with leaving := s.leaving.erase t } else none
  | .pool ev =>
    if s.relocked || held s ev then none
    else
      match Pool.step s.pool ev with
      | none => none
      | some p =>
        match destroyed s.pool ev with
        | some t => if calls t then some { s with relocked := true } else some (record s p ev)
        | none => some (record s p ev)

/-- The constructor, lines 112-125. -/
def init (n : Nat) : State := { pool := Pool.init n }

/-- Several steps.  `thread_pool.hpp` 275-285, 371-372, 404-419. -/
def run (calls : Nat → Bool) (s : State) : List Event → Option State
  | [] => some s
  | ev :: evs =>
    match step calls s ev with
    | some s => run calls s evs
    | none => none

/-- States that executions of a pool created with `n` workers reach.  `thread_pool.hpp` 275-285, 371-372, 404-419. -/
inductive Reachable (calls : Nat → Bool) (n : Nat) : State → Prop where
  | init : Reachable calls n (init n)
  | step {s s' : State} (ev : Event) :
    Reachable calls n s → step calls s ev = some s' → Reachable calls n s'

end Pluto.PoolLife
