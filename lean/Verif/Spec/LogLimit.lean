import Verif.Spec.Log

/-! # A logger with another rotation limit (C161) -/

namespace Pluto.Spec.Log
open Pluto.Log

/-- Rotating files does not fail, and the rotation limit is not changed. (Anything else may fail or be changed.) -/
def Steady : Event → Prop
  | .set (.fileRotationLimit _) => False
  | .thread io => io.rotating = {}
  | .flush _ ios => ∀ io ∈ ios, io.rotating = {}
  | _ => True

end Pluto.Spec.Log
