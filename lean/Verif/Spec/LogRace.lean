import Verif.Model.LogRace

/-! # Data races, the end of a logger, and failures in its destructor -/

namespace Pluto.LogRace

/-- Two threads may both access the same memory next, and at least one of them writes. -/
def Race (s : State) (i j : Nat) (l : Loc) : Prop :=
  i ≠ j ∧ ∃ t u w v, s.threads[i]? = some t ∧ s.threads[j]? = some u ∧ (l, w) ∈ accesses s.sh t ∧ (l, v) ∈ accesses s.sh u ∧
    (w = true ∨ v = true)

/-- The destructor has returned. -/
def Destroyed (s : State) : Prop := ∃ d, s.destroyer = some d ∧ s.threads[d]? = some []

/-- No failure of the file system in the destructor. -/
def NoFail (s : State) (ev : Event) : Prop := ∀ i, ev = .go i .fail → s.destroyer ≠ some i

/-- A memory cell has the same contents.  The contents of names, paths, sizes and writers are not modelled. -/
def Agree (s t : Shared) : Loc → Prop
  | .map => s.files = t.files
  | .next f n => s.next f n = t.next f n
  | .prev f n => s.prev f n = t.prev f n
  | .val f n => s.val f n = t.val f n
  | .key _ | .path _ | .dirs _ | .size _ | .writer _ | .thread => True

/-- The mutexes, the atomic member, the end of the thread, the allocation of memory and the history are the same. -/
def SameSync (s t : Shared) : Prop :=
  s.log = t.log ∧ s.cfg = t.cfg ∧ s.isLogging = t.isLogging ∧ s.ended = t.ended ∧ s.fresh = t.fresh ∧
    s.added = t.added ∧ s.given = t.given

/-- What a step gives in two states: both cannot happen, or both lead to the same stack, and what is written is the same. -/
def SameStep (i : Nat) (c : Choice) (s t : Shared) (st : List Frame) : Prop :=
  match go s i c st, go t i c st with
  | none, none => True
  | some (s', st'), some (t', st'') => st' = st'' ∧ SameSync s' t' ∧ ∀ l, (l, true) ∈ accesses s st → Agree s' t' l
  | _, _ => False

end Pluto.LogRace
