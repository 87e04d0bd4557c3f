import Verif.Model.PoolNest

/-!
# Model of who destroys the pool (`include/pluto/thread_pool.hpp`)

In Model/Pool.lean the destructor is called by a thread outside the pool, and one step stands
for all the joins.  Here a task of the pool may call it too: it deletes the pool, or it calls
`std::exit`, which destroys `thread_pool::instance()` (lines 159-163) in the thread that calls
it.  The destructor joins the workers one after the other (lines 137-143).

A thread that joins itself gets `std::system_error` (`resource_deadlock_would_occur`), and an
exception that leaves a destructor ends the program with `std::terminate`.

Simplified: that every implementation notices the join is assumed (a program that only
deadlocks here does not return from the destructor either).

As in Model/Pool.lean a task may call the destructor at any moment while it runs.
-/

namespace Pluto.PoolExit
open Pluto.PoolNest (actor taskOf)

/-- The pool and its destructor.  `thread_pool.hpp` 96-109 and 127-149. -/
structure State where
  /-- the pool -/
  pool : Pool.State
  /-- the task that has called the destructor; `none` if a thread outside the pool has, or if
  nobody has -/
  by_ : Option Nat := none
  /-- workers that the loop of lines 137-143 has still to join, in its order -/
  todo : List Nat := []
  /-- `std::terminate` has been called -/
  terminated : Bool := false
deriving DecidableEq, Repr

/-- What can happen next.  `thread_pool.hpp` 127-163. -/
inductive Event where
  /-- a step of the pool; `.stop` is the call of the destructor by a thread outside -/
  | pool (ev : Pool.Event)
  /-- task `t` calls the destructor, which sets the flag, lines 127-132 -/
  | destroy (t : Nat)
  /-- the destructor notifies the scheduler, line 135, and begins the loop of lines 137-143;
  `order` is the order of the `std::map`, that of the thread ids, which can be any -/
  | joins (order : List Nat)
  /-- the next round of the loop, lines 137-143 -/
  | join
deriving DecidableEq, Repr

/-- A step of the pool.  A task that is inside the destructor does nothing else.  The
destructor goes on to line 145 when the loop has ended. -/
def poolStep (s : State) (ev : Pool.Event) : Option State :=
  if ev = .stopNotifyScheduler then none
  else if (actor s.pool ev).isSome ∧ actor s.pool ev = s.by_ then none
  else if ev = .stopReturns ∧ s.todo ≠ [] then none
  else (Pool.step s.pool ev).map fun p => { s with pool := p }

/-- One round of the loop, lines 137-143: the destructor waits until the worker has ended, but
a worker cannot join itself. -/
def join (s : State) : Option State :=
  match s.todo with
  | [] => none
  | i :: rest =>
    if s.by_.isSome ∧ taskOf s.pool i = s.by_ then some { s with terminated := true }
    else if s.pool.workers[i]? = some .exited then some { s with todo := rest }
    else none

/-- One step; `none` if the event cannot happen in this state.  `thread_pool.hpp` 127-163. -/
def step (s : State) (ev : Event) : Option State :=
  if s.terminated then none
  else match ev with
  | .pool ev => poolStep s ev
  | .destroy t =>
    if s.pool.workers.contains (.running t) then
      (Pool.step s.pool .stop).map fun p => { s with pool := p, by_ := some t }
    else none
  | .joins order =>
    if order.isPerm (List.range s.pool.workers.length) then
      (Pool.step s.pool .stopNotifyScheduler).map fun p => { s with pool := p, todo := order }
    else none
  | .join => if s.pool.stage = .joining ∧ s.pool.crash = none then join s else none

/-- The constructor, lines 112-125. -/
def init (n : Nat) : State := { pool := Pool.init n }

/-- Several steps.  `thread_pool.hpp` 127-163. -/
def run (s : State) : List Event → Option State
  | [] => some s
  | ev :: evs =>
    match step s ev with
    | some s => run s evs
    | none => none

/-- States that executions of a pool created with `n` workers reach.  `thread_pool.hpp` 127-163. -/
inductive Reachable (n : Nat) : State → Prop where
  | init : Reachable n (init n)
  | step {s s' : State} (ev : Event) : Reachable n s → step s ev = some s' → Reachable n s'

end Pluto.PoolExit
