import Verif.Props.Log
import Verif.Proofs.LogLevels

/-! # C172: a log of fewer levels is a part of the log of more levels -/

namespace Pluto.Props

open Log LogSpec

/-- C172. If nothing has been discarded, the accepted entries of each thread are exactly its calls whose level is at
least that of the logger, in the order of the calls, with their names, times and messages; whatever other threads, the
logging thread and the file system do. -/
theorem C172_exact {paths : Nat → Path} {σ : Settings} {fs : Fs} {evs : List Event} {s : State}
    (hr : run paths (init σ fs) evs = some s) (hev : ∀ ev ∈ evs, SameLevel ev) (hd : s.dropped = [])
    (hc : s.calls = []) (t : Nat) :
    logged t s.accepted = (given t evs).filter fun g => decide (σ.level ≤ g.level) := by
  have h := levelled_run (t := t) (l := σ.level) (made := []) (s := init σ fs) .init
    ⟨rfl, Nat.zero_le _, fun _ => rfl⟩ hev hr
  have := h.all hd
  rw [hc] at this
  simpa [inside] using this

/-- C172 (partial): of two executions in which a thread makes the same calls, the one with the higher level has of its
entries exactly those of that level, in the same order.  Missing: a buffer that is full, see `C172_fails`. -/
theorem C172_levels_partial {paths paths' : Nat → Path} {σ σ' : Settings} {fs fs' : Fs} {evs evs' : List Event}
    {s s' : State} (hl : σ.level ≤ σ'.level)
    (hr : run paths (init σ fs) evs = some s) (hev : ∀ ev ∈ evs, SameLevel ev) (hd : s.dropped = [])
    (hc : s.calls = [])
    (hr' : run paths' (init σ' fs') evs' = some s') (hev' : ∀ ev ∈ evs', SameLevel ev) (hd' : s'.dropped = [])
    (hc' : s'.calls = []) {t : Nat} (ht : given t evs = given t evs') :
    logged t s'.accepted = ((logged t s.accepted).filter fun g => decide (σ'.level ≤ g.level)) ∧
      (logged t s'.accepted).Sublist (logged t s.accepted) := by
  have h1 := C172_exact hr hev hd hc t
  have h2 := C172_exact hr' hev' hd' hc' t
  have e : logged t s'.accepted = (logged t s.accepted).filter fun g => decide (σ'.level ≤ g.level) := by
    rw [h1, h2, ht, List.filter_filter]
    apply List.filter_congr
    intro g _
    by_cases h : σ'.level ≤ g.level
    · simp [h, Int.le_trans hl h]
    · simp [h]
  exact ⟨e, by rw [e]; exact List.filter_sublist⟩

/-- C172 is false if the buffer can be full: the logger of level 0 discards the important entry, which the logger of
level 5 has, for the same calls. -/
theorem C172_fails : ∃ evs evs' s s',
    run examplePaths (init { exampleSettings with level := 0, bufferMaxSize := 1, bufferFlushSize := 3 } {}) evs = some s ∧
    run examplePaths (init { exampleSettings with level := 5, bufferMaxSize := 1, bufferFlushSize := 3 } {}) evs' = some s' ∧
    given 1 evs = given 1 evs' ∧ s.calls = [] ∧ s'.calls = [] ∧
    (logged 1 s.accepted).map (·.level) = [2] ∧ (logged 1 s'.accepted).map (·.level) = [7] ∧
    ¬ (logged 1 s'.accepted).Sublist (logged 1 s.accepted) :=
  ⟨[.call 1 0 0 2 "a".toList, .enter 0, .leave, .call 1 0 0 7 "b".toList, .enter 0],
    [.call 1 0 0 2 "a".toList, .call 1 0 0 7 "b".toList, .enter 0, .leave], _, _, rfl, rfl, rfl, rfl, rfl, rfl, rfl,
    by decide⟩

/-- The conditions can be met, also with calls of another thread between. -/
example : ∃ evs evs' s s',
    run examplePaths (init { exampleSettings with level := 0, bufferMaxSize := 0, bufferFlushSize := 3 } {}) evs = some s ∧
    run examplePaths (init { exampleSettings with level := 5, bufferMaxSize := 0, bufferFlushSize := 3 } {}) evs' = some s' ∧
    given 1 evs = given 1 evs' ∧ s.calls = [] ∧ s'.calls = [] ∧ s.dropped = [] ∧ s'.dropped = [] ∧
    (∀ ev ∈ evs, SameLevel ev) ∧
    (logged 1 s.accepted).map (·.level) = [2, 7] ∧ (logged 1 s'.accepted).map (·.level) = [7] :=
  ⟨[.call 1 0 0 2 "a".toList, .enter 0, .leave, .call 2 0 0 7 "c".toList, .call 1 0 0 7 "b".toList, .enter 1, .leave,
      .enter 0],
    [.call 1 0 0 2 "a".toList, .call 1 0 0 7 "b".toList, .enter 0, .leave], _, _, rfl, rfl, rfl, rfl, rfl, rfl, rfl,
    by simp [SameLevel], rfl, rfl⟩

end Pluto.Props
