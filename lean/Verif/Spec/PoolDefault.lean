import Verif.Model.Pool

/-! # What a user does with a pool (C171) -/

namespace Pluto.Spec.Pool

open Pluto.Pool

/-- A call of `run_sync`. -/
def CallsSync : Event → Bool
  | .runSync _ _ => true
  | _ => false

/-- A call that adds a task that can be started at once. -/
def AddsTask : Event → Bool
  | .runAsync _ _ => true
  | .runSync _ _ => true
  | _ => false

end Pluto.Spec.Pool
