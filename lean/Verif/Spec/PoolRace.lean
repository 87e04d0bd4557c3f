import Verif.Model.PoolRace

/-! # Data races and the end of the pool -/

namespace Pluto.PoolRace

/-- Two threads are about to access the same member, and at least one of them writes. -/
def Race (s : State) (i j : Nat) (l : Loc) : Prop :=
  i ≠ j ∧ ∃ t u w v, s.threads[i]? = some t ∧ s.threads[j]? = some u ∧ (l, w) ∈ accesses t ∧ (l, v) ∈ accesses u ∧
    (w = true ∨ v = true)

/-- Nobody calls `run_at` (or `run_after`). -/
def NoRunAt (_ : State) (ev : Event) : Prop := ∀ i b, ev ≠ .go i b (some .runAt)

/-- Nobody calls `run_at` (or `run_after`) while another call of it has not returned. -/
def OneRunAt (s : State) (ev : Event) : Prop :=
  ∀ i b, ev = .go i b (some .runAt) → ∀ t ∈ s.threads, t.inside ≠ some .runAt

/-- The destructor has returned. -/
def Destroyed (s : State) : Prop := ∃ t ∈ s.threads, t.kind = .destroyer ∧ t.todo = []

end Pluto.PoolRace
