import Verif.Spec.Log

/-! # A log file that cannot be written: what happens meanwhile -/

namespace Pluto.Spec.LogBusy
open Pluto.Log

/-- Executions that begin in the state `s`, of steps that satisfy `ok`. -/
inductive Leads (paths : Nat → Path) (ok : State → Event → Prop) (s : State) : State → Prop where
  | refl : Leads paths ok s s
  | step {s' s'' : State} (ev : Event) : Leads paths ok s s' → ok s' ev → step paths s' ev = some s'' → Leads paths ok s s''

/-- The step does not open the log file `name` successfully, and does not change the flush size. -/
def Shut (paths : Nat → Path) (name : Nat) (s : State) (ev : Event) : Prop :=
  (∀ s', step paths s ev = some s' → ∀ p l todo done, s'.thread ≠ .writing name p l todo done) ∧
  ∀ n, ev ≠ .set (.bufferFlushSize n)

/-- The logging thread waits, or is about to. -/
def Waits (s : State) : Prop := s.thread = .drowsy ∨ s.thread = .asleep

end Pluto.Spec.LogBusy
