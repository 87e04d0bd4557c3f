import Verif.Model.PoolNest
import Verif.Spec.Pool

/-! # Notions used in the properties of tasks that wait for the pool -/

namespace Pluto.Spec.PoolNest
open Pluto.Pool Pluto.PoolNest

/-- What happens without new calls of the pool: its threads run, notifications arrive,
tasks return, and calls that wait go on or return. -/
def Own : Event → Bool
  | .syncReturns _ => true
  | .waitNone _ => true
  | .waitAll _ => true
  | ev => Spec.Pool.Own ev

/-- What happens without new calls of the pool while the destructor joins the threads. -/
def Ending : Event → Bool
  | .syncReturns _ => true
  | .waitNone _ => true
  | .waitAll _ => true
  | ev => Spec.Pool.Ending ev

/-- Every worker is occupied by a task that waits inside a function of the pool. -/
def AllOccupied (s : PoolNest.State) : Prop :=
  ∀ p ∈ s.pool.workers, ∃ t, p = .running t ∧ inside s t = true

/-- The tasks that wait inside a function of the pool. -/
def insiders (s : PoolNest.State) : List Nat :=
  s.syncing.map (·.1) ++ s.noneCallers.filterMap id ++ s.allCallers.filterMap id

end Pluto.Spec.PoolNest
