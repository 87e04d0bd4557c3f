import Verif.Model.LogWriters

/-!
# Who has a copy of a writer
-/

namespace Pluto.LogWriters

/-- The copies that calls of `log_writer()` have returned to their callers. -/
def returned (us : List User) : List Nat :=
  us.filterMap fun
    | .hasGot w => some w
    | _ => none

/-- The copy that the logging thread has. -/
def ofThread : Phase → List Nat
  | .copied w => [w]
  | .calling w => [w]
  | _ => []

/-- Who may have a copy: the logger, its thread, and those to whom one has been returned. -/
def holders (s : State) : List Nat := s.writer.toList ++ ofThread s.thread ++ returned s.users

/-- States that executions of a new logger reach. -/
def Reaches (u : Uses) (s : State) : Prop := ∃ evs, run u init evs = .state s

/-- The calls of `log_writer(w)` that have not replaced the writer yet. -/
def pending (us : List User) (w : Nat) : Prop := .wantsSet w ∈ us ∨ .setting w ∈ us

/-- Neither a copy nor the destruction of `w` uses the logger. -/
def Uses.Quiet (u : Uses) (w : Nat) : Prop := u.copy w = false ∧ u.dtor w = false

/-- A call that is copying or replacing the writer of the logger. -/
def Inside : User → Bool
  | .setting _ => true
  | .getting => true
  | _ => false

end Pluto.LogWriters
