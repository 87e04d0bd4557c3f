import Verif.Spec.Pool

/-! # Notions used in the properties about the schedule of a pool that is destroyed -/

namespace Pluto.Spec.Pool
open Pluto.Pool

/-- The thread waits for the time of an entry of the schedule, or has found that it has come. -/
def tends : SPhase → Bool
  | .waiting _ _ => true
  | .timedOut _ _ => true
  | _ => false

end Pluto.Spec.Pool
