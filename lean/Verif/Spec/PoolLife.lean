import Verif.Model.PoolLife

/-! # Notions used in the properties of the life times of objects of the thread pool -/

namespace Pluto.Spec.PoolLife
open Pluto.Pool

/-- Whether a worker has the function object of task `t` as a local variable. -/
def holds (t : Nat) : Phase → Bool
  | .running u => u == t
  | .finished u => u == t
  | _ => false

/-- Number of function objects of task `t`: in the schedule, in the queue, and as local
variables of workers. -/
def objects (s : State) (t : Nat) : Nat :=
  (s.scheduled.filter (·.task == t)).length + (s.queue.filter (·.task == t)).length +
    (s.workers.filter (holds t)).length

end Pluto.Spec.PoolLife
