import Verif.Model.Pool

/-! # Notions used in the properties of the thread pool -/

namespace Pluto.Spec.Pool
open Pluto.Pool

/-- The tasks that are being called. -/
def running (s : State) : List Nat :=
  s.workers.filterMap fun
    | .running t => some t
    | _ => none

/-- Workers that have taken a task and have not yet recorded its end. -/
def busy (s : State) : Nat :=
  (s.workers.filter fun
    | .running _ => true
    | .finished _ => true
    | _ => false).length

/-- Workers that are neither asleep nor ended. -/
def awake (s : State) : Nat :=
  (s.workers.filter fun
    | .blocked => false
    | .exited => false
    | _ => true).length

/-- Executions in which calls of `run_at` and `run_after` do not overlap the creation of
the scheduler thread by another one, and in which that thread is stored in the pool before
it can find that the time of a task has come. -/
def Calm (s : State) : Event → Prop
  | .runAt _ _ _ => s.creating = 0 ∧ s.assigning = []
  | .runAfter _ _ _ => s.creating = 0 ∧ s.assigning = []
  | .schedulerTimeout _ => s.assigning = []
  | _ => True

/-- States that calm executions of a pool created with `n` workers reach. -/
inductive CalmReachable (n : Nat) : State → Prop where
  | init : CalmReachable n (init n)
  | step {s s' : State} (ev : Event) :
    CalmReachable n s → Calm s ev → step s ev = some s' → CalmReachable n s'

/-- What the pool does on its own: its threads run, notifications arrive, tasks return. -/
def Own : Event → Bool
  | .notifyOne _ => true
  | .notifyAll => true
  | .worker _ => true
  | .taskReturns _ => true
  | _ => false

/-- What remains to be done while the destructor waits for the threads. -/
def Ending : Event → Bool
  | .worker _ => true
  | .taskReturns _ => true
  | .scheduler _ _ => true
  | _ => false

end Pluto.Spec.Pool
