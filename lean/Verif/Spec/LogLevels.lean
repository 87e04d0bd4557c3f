import Verif.Model.Logger

/-! # What a thread gives to a logger, and what becomes of it (C172) -/

namespace Pluto.LogSpec

open Log

/-- What is given to a logging call, with the time at which it is made. -/
structure Given where
  name : Nat
  time : Int
  level : Int
  message : List Char
deriving DecidableEq, Repr

/-- The calls that thread `t` makes in an execution, in order. -/
def given (t : Nat) : List Event → List Given
  | [] => []
  | .call tid name time level message :: evs =>
    if tid = t then ⟨name, time, level, message⟩ :: given t evs else given t evs
  | _ :: evs => given t evs

/-- The entries of thread `t` that the logger has accepted, in order. -/
def logged (t : Nat) (accepted : List (Nat × Entry)) : List Given :=
  (accepted.filter fun x => decide (x.2.tid = t)).map fun x => ⟨x.1, x.2.time, x.2.level, x.2.message⟩

/-- The level is not changed. -/
def SameLevel : Event → Prop
  | .set (.level _) => False
  | _ => True

end Pluto.LogSpec
