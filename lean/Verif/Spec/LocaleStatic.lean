import Verif.Model.LocaleStatic

/-!
# Specification of locales in several threads
-/

namespace Pluto.LocaleStaticSpec
open Pluto.LocaleStatic

/-- What can be reached. -/
def Reachable (noStatic : Bool) (classic : V) (s : State V) : Prop :=
  ∃ n env evs, run noStatic classic (init n env) evs = some s

/-- A step of a call that has begun. -/
def Inner : Event V → Bool
  | .enter _ | .finish _ => true
  | _ => false

/-- The calls that have returned in the second state and not in the first. -/
def returned (s t : State V) : List (Nat × Which × Option Nat) := t.log.drop s.log.length

end Pluto.LocaleStaticSpec
