import Verif.Model.LogFault

/-! # What a logging call may do when memory runs out -/

namespace Pluto.LogFault

/-- What is in the buffer of a log file; there may be no such log file yet. -/
def buffered (s : State) (name : Text) : List Text := (lookup name s.files).getD []

/-- Nothing that a user can see is different. -/
def SameLog (s s' : State) : Prop := s'.discarded = s.discarded ∧ ∀ name, buffered s' name = buffered s name

/-- Exactly one entry has been accepted, or discarded because the buffer is full. -/
def OneMore (max : Nat) (name message : Text) (s s' : State) : Prop :=
  (s'.discarded = s.discarded ∧ (max = 0 ∨ (buffered s name).length < max) ∧
      buffered s' name = buffered s name ++ [message] ∧ ∀ other ≠ name, buffered s' other = buffered s other) ∨
    (s'.discarded = s.discarded + 1 ∧ max ≠ 0 ∧ max ≤ (buffered s name).length ∧
      ∀ other, buffered s' other = buffered s other)

/-- The text of the entry: what is inserted until something throws, or `end()` is called while the level is logged. -/
def streamed : List Op → Text
  | .put text :: ops => text ++ streamed ops
  | .finish false _ _ :: ops => streamed ops
  | _ => []

end Pluto.LogFault
