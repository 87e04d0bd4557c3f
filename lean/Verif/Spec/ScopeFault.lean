import Verif.Model.Scope

/-! # What a program with guards does (C157) -/

namespace Pluto.Spec.ScopeFault
open Pluto.Scope (Task Kind)

/-- What can be observed.  Guards have numbers. -/
inductive Ev
  /-- anything else the program does -/
  | act (n : Nat)
  /-- a guard was constructed -/
  | entered (g : Nat) (k : Kind)
  /-- a constructor or `add` took the task -/
  | added (g : Nat) (t : Option Task)
  /-- a constructor or `add` threw an exception instead -/
  | refused (t : Option Task)
  /-- the scope of the guard was left, by an exception or not -/
  | left (g : Nat) (thrown : Bool)
  /-- a task of the guard was called -/
  | call (g : Nat) (t : Task)
  deriving DecidableEq, Repr

/-- The event is about the guard. -/
def Ev.guard : Ev → Option Nat
  | .act _ | .refused _ => none
  | .entered g _ | .added g _ | .left g _ | .call g _ => some g

/-- The tasks the guard took, in order. -/
def taken (g : Nat) (l : List Ev) : List (Option Task) :=
  l.filterMap fun e => match e with
    | .added g' t => if g' = g then some t else none
    | _ => none

/-- Whether a guard is to call its tasks when its scope is left. -/
def Due (k : Kind) (thrown : Bool) : Prop := k = .exit ∨ (k = .success ∧ thrown = false) ∨ (k = .fail ∧ thrown = true)

instance (k : Kind) (thrown : Bool) : Decidable (Due k thrown) := by unfold Due; infer_instance

/-- What a guard does from beginning to end: while its scope is executed it only takes tasks; when the scope is left, and
before anything else happens, it calls those that are not empty, the last one first, if they are due; and it does nothing
before and after. -/
def Proper (g : Nat) (k : Kind) (log : List Ev) : Prop :=
  ∃ before during after thrown,
    log = before ++ Ev.entered g k :: during ++ Ev.left g thrown ::
      (if Due k thrown then ((taken g during).filterMap id).reverse else []).map (Ev.call g) ++ after ∧
    (∀ e ∈ before ++ after, e.guard ≠ some g) ∧ ∀ e ∈ during, e.guard = some g → ∃ t, e = .added g t

/-- The tasks taken and not called yet, the last one first; `none` if a call is not of the last one. -/
def pending : List Task → List Ev → Option (List Task)
  | st, [] => some st
  | st, .added _ (some t) :: l => pending (t :: st) l
  | st, .call _ t :: l =>
    match st with
    | [] => none
    | t' :: st' => if t' = t then pending st' l else none
  | st, _ :: l => pending st l

end Pluto.Spec.ScopeFault
