import Verif.Model.PoolExit
import Verif.Spec.Pool

/-!
# Specification of who may destroy the pool
-/

namespace Pluto.Spec.PoolExit
open Pluto.PoolExit (State Event)

/-- What remains to be done when the destructor has begun to join: the threads of the pool go
on, tasks return, and the loop of the destructor goes on. -/
def Ending : Event → Bool
  | .pool ev => Spec.Pool.Ending ev
  | .join => true
  | _ => false

/-- Nothing remains to be done. -/
def Rest (s : State) : Prop := ∀ ev, Ending ev = true → Pluto.PoolExit.step s ev = none

/-- The destructor returns, however the threads are scheduled: at most `bound` steps remain,
and when none remains it returns. -/
def Returns (s : State) (bound : Nat) : Prop :=
  ∀ evs s', (∀ ev ∈ evs, Ending ev = true) → Pluto.PoolExit.run s evs = some s' →
    s'.pool.crash = none →
    evs.length ≤ bound ∧ s'.terminated = false ∧
      (Rest s' → ∃ s'', Pluto.PoolExit.step s' (.pool .stopReturns) = some s'' ∧
        s''.pool.stage = .destroyed)

/-- The program is terminated, however the threads are scheduled: at most `bound` steps remain,
and when none remains `std::terminate` has been called. -/
def Dies (s : State) (bound : Nat) : Prop :=
  ∀ evs s', (∀ ev ∈ evs, Ending ev = true) → Pluto.PoolExit.run s evs = some s' →
    s'.pool.crash = none →
    evs.length ≤ bound ∧ s'.pool.stage ≠ .destroyed ∧ (Rest s' → s'.terminated = true)

end Pluto.Spec.PoolExit
