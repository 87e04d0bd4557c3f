import Verif.Model.Pool

/-!
# Model of the clock of `thread_pool`

`clock_type` is `std::chrono::system_clock` by default (`thread_pool.hpp` 49-51), which can be set.  Here real time passes and is
not set, and the clock of `Verif/Model/Pool.lean` goes with it, except when somebody sets it.  `run_after` (325-331) reads the clock
and adds the duration before it enters `run_at`; both have 64 bits (`std::chrono::nanoseconds` and time points of it), and a
sum that does not fit is undefined behaviour.
-/

namespace Pluto.PoolClock

/-- Values of `clock_type::rep`.  `thread_pool.hpp` 58. -/
def Fits (x : Int) : Prop := -2 ^ 63 ≤ x ∧ x < 2 ^ 63

/-- `thread_pool.hpp` 58, 295-331, 369. -/
instance (x : Int) : Decidable (Fits x) := inferInstanceAs (Decidable (_ ∧ _))

/-- A call of `run_after` that has computed the time (330) and is about to enter `run_at`. -/
structure Call where
  /-- `clock_type::now() + duration` -/
  time : Int
  /-- history: the real time before which the task should not start -/
  due : Int
deriving DecidableEq, Repr

/-- The pool, real time, and calls of `run_after`.  `thread_pool.hpp` 96-109 and 325-331. -/
structure State where
  pool : Pool.State
  /-- real time -/
  real : Int := 0
  calls : List Call := []
  /-- history: tasks of `run_after` and the real times before which they should not start -/
  owed : List (Nat × Int) := []
  /-- undefined behaviour: a sum of 64 bits has overflowed -/
  overflow : Bool := false
deriving DecidableEq, Repr

/-- What can happen next.  `thread_pool.hpp` 58, 295-331, 369. -/
inductive Event where
  /-- time passes, and the clock with it -/
  | pass (d : Nat)
  /-- the clock is set to `t` -/
  | set (t : Int)
  /-- `run_after(duration, …)` is called, 325-330 -/
  | call (duration : Int)
  /-- the `i`-th call enters `run_at`, 300-314 -/
  | enter (i : Nat) (prio : Int) (caller : Option Nat)
  /-- anything else that happens to the pool -/
  | pool (ev : Pool.Event)
deriving DecidableEq, Repr

/-- Whether an event of the pool is one of those that are modelled here instead.  `thread_pool.hpp` 58, 295-331, 369. -/
def isTimed : Pool.Event → Bool
  | .clock _ => true
  | .runAfter _ _ _ => true
  | _ => false

/-- One step; `none` if the event cannot happen in this state.  `thread_pool.hpp` 58, 295-331, 369. -/
def step (s : State) (ev : Event) : Option State :=
  if s.overflow then none
  else match ev with
  | .pass d => (Pool.step s.pool (.clock (s.pool.now + d))).map fun p => { s with pool := p, real := s.real + d }
  | .set t => (Pool.step s.pool (.clock t)).map fun p => { s with pool := p }
  | .call d =>
    if Fits (s.pool.now + d) then some { s with calls := s.calls ++ [⟨s.pool.now + d, s.real + d⟩] }
    else some { s with overflow := true }
  | .enter i prio caller =>
    match s.calls[i]? with
    | none => none
    | some c =>
      (Pool.step s.pool (.runAt c.time prio caller)).map fun p =>
        { s with pool := p, calls := s.calls.eraseIdx i, owed := (s.pool.nextTask, c.due) :: s.owed }
  | .pool ev => if isTimed ev then none else (Pool.step s.pool ev).map fun p => { s with pool := p }

/-- A pool with `n` workers when the clock shows `now`.  `thread_pool.hpp` 112-125. -/
def init (n : Nat) (now : Int) : State := { pool := { Pool.init n with now := now, maxNow := now } }

/-- An execution.  `thread_pool.hpp` 58, 295-331, 369. -/
def run (s : State) : List Event → Option State
  | [] => some s
  | ev :: evs =>
    match step s ev with
    | some s' => run s' evs
    | none => none

/-- States that executions reach in which the clock is set only to values that `ok` allows.
`thread_pool.hpp` 58, 295-331, 369. -/
inductive Reachable (ok : State → Int → Prop) (n : Nat) (now : Int) : State → Prop where
  | init : Reachable ok n now (init n now)
  | step {s s' : State} (ev : Event) : Reachable ok n now s → (∀ t, ev = .set t → ok s t) → step s ev = some s' →
    Reachable ok n now s'

end Pluto.PoolClock
