import Verif.Proofs.LogCfg

/-!
# Properties of replacing a writer of the logger (C96)

Model/LogCfg.lean.
-/

namespace Pluto.Props
open Pluto.LogCfg

/-- C96: at most one thread at a time reads or assigns the writer. -/
theorem C96_exclusive {s : State} (h : Reachable s) :
    (s.users.filter fun
        | .setting _ => true
        | .getting => true
        | _ => false).length + (if s.thread = .copying then 1 else 0) ≤ 1 := by
  have h1 := exclusive h
  have h2 : (s.users.filter fun
        | .setting _ => true
        | .getting => true
        | _ => false).length = s.users.countP inside := by
    rw [List.countP_eq_length_filter]
    congr 1
  have h3 : (if s.thread = .copying then 1 else 0) = threadInside s.thread := by
    cases s.thread <;> rfl
  rw [h2, h3, h1]
  cases s.locked <;> decide

/-- C96: the logging thread only ever calls the initial writer or one that was assigned; the
current writer is the one assigned last. -/
theorem C96_current {s : State} (h : Reachable s) :
    (∀ w ∈ s.called, w = 0 ∨ w ∈ s.assigned) ∧ s.writer = s.assigned.getLastD 0 := by
  have : (∀ w ∈ s.called, w = 0 ∨ w ∈ s.assigned) ∧ s.writer = s.assigned.getLastD 0 ∧
      (∀ w, s.thread = .copied w → w = 0 ∨ w ∈ s.assigned) := by
    induction h with
    | init => simp [init]
    | @step s s' ev _ hs ih =>
      obtain ⟨h1, h2, h3⟩ := ih
      have hw : s.writer = 0 ∨ s.writer ∈ s.assigned := by
        rw [h2]
        rw [List.getLastD_eq_getLast?]
        cases ha : s.assigned.getLast? with
        | none => exact .inl rfl
        | some a => exact .inr (List.mem_of_getLast? ha)
      cases ev with
      | thread =>
        simp only [step] at hs
        split at hs
        · split at hs
          · cases hs
          · cases hs; exact ⟨h1, h2, by simp⟩
        · cases hs
          refine ⟨h1, h2, ?_⟩
          rintro w ⟨⟩
          exact hw
        · rename_i w ht
          cases hs
          refine ⟨?_, h2, by simp⟩
          intro v hv
          rcases List.mem_append.1 hv with hv | hv
          · exact h1 v hv
          · simp only [List.mem_singleton] at hv
            subst hv
            exact h3 v ht
        · cases hs; exact ⟨h1, h2, by simp⟩
      | callSet w => cases hs; exact ⟨h1, h2, h3⟩
      | callGet => cases hs; exact ⟨h1, h2, h3⟩
      | user i =>
        simp only [step] at hs
        split at hs
        · split at hs
          · cases hs
          · cases hs; exact ⟨h1, h2, h3⟩
        · cases hs
          refine ⟨fun v hv => ?_, by simp, fun v hv => ?_⟩
          · rcases h1 v hv with h | h
            · exact .inl h
            · exact .inr (List.mem_append_left _ h)
          · rcases h3 v hv with h | h
            · exact .inl h
            · exact .inr (List.mem_append_left _ h)
        · split at hs
          · cases hs
          · cases hs; exact ⟨h1, h2, h3⟩
        · cases hs; exact ⟨h1, h2, h3⟩
        · cases hs
  exact ⟨this.1, this.2.1⟩

/-- C96 (partial: the call in progress is not waited for): when a writer has been replaced
and nobody sets it again, it is called at most once more, and only if the logging thread had
copied it before it was replaced. -/
theorem C96_replaced_partial {s s' : State} {evs : List Event} {w : Nat}
    (hr : run s evs = some s') (hw : s.writer ≠ w)
    (hu : ∀ u ∈ s.users, u ≠ .wantsSet w ∧ u ≠ .setting w) (hev : Event.callSet w ∉ evs) :
    s'.called.count w ≤ s.called.count w + 1 ∧
      (s.thread ≠ .copied w → s'.called.count w = s.called.count w) := by
  obtain ⟨h1, h2⟩ := later hr hw hu hev
  have h3 : pending w s.thread ≤ 1 := by
    cases s.thread <;> simp only [pending] <;> first | omega | (split <;> omega)
  refine ⟨by omega, fun ht => ?_⟩
  have h4 : pending w s.thread = 0 := by
    cases hp : s.thread with
    | copied v => simp only [pending]; rw [if_neg]; rintro rfl; exact ht hp
    | _ => rfl
  omega

/-- C96: a call of `log_writer()` returns a writer that was current while the call was in
progress: the one that was current when it was called, or one assigned since. -/
theorem C96_getter {s s' : State} {evs : List Event} {i w : Nat} (hr : run s evs = some s')
    (hi : s.users[i]? = none ∨ s.users[i]? = some .wantsGet) (hg : s'.users[i]? = some (.hasGot w)) :
    w = s.writer ∨ w ∈ s'.assigned.drop s.assigned.length := by
  have h0 : Since s.writer s.assigned.length s.called.length False i s :=
    ⟨Nat.le_refl _, Nat.le_refl _, .inl rfl, False.elim, False.elim, hi.imp id .inl⟩
  rcases (since_run h0 hr).user with h | h | h | ⟨x, h, hx⟩ | ⟨x, h | h | h⟩ <;> rw [h] at hg <;> cases hg
  exact hx

/-- C96: from a moment on at which the logging thread holds no copy of a writer, it calls only the
writer that is current then and those assigned later. -/
theorem C96_recent {s s' : State} {evs : List Event} (hr : run s evs = some s')
    (ht : ∀ w, s.thread ≠ .copied w) :
    ∀ w ∈ s'.called.drop s.called.length, w = s.writer ∨ w ∈ s'.assigned.drop s.assigned.length := by
  have h0 : Since s.writer s.assigned.length s.called.length True s.users.length s :=
    ⟨Nat.le_refl _, Nat.le_refl _, .inl rfl, fun _ w h => absurd h (ht w), by simp, by simp⟩
  exact (since_run h0 hr).calls trivial

/-- C96 fails: `log_writer(1)` has returned, and then the logging thread calls writer 0. -/
theorem C96_fails : ∃ s s', run init [.thread, .thread, .callSet 1, .user 0, .user 0] = some s ∧
    s.users = [.hasSet 1] ∧ s.called = [] ∧ step s .thread = some s' ∧ s'.thread = .calling 0 :=
  ⟨_, _, rfl, rfl, rfl, rfl, rfl⟩

/-- C96: a thread that waits for the mutex can acquire it, or another thread of those that
use the writer can take a step. -/
theorem C96_progress {s : State} (h : Reachable s) (hl : s.locked = true) :
    ∃ ev s', step s ev = some s' ∧ s'.locked = false := by
  have h1 := exclusive h
  by_cases ht : s.thread = .copying
  · exact ⟨.thread, _, by simp only [step, ht]; rfl, rfl⟩
  · have h0 : threadInside s.thread = 0 := by
      cases hp : s.thread <;> first | rfl | exact absurd hp ht
    rw [h0, hl] at h1
    have : 0 < s.users.countP inside := by simp only [Bool.toNat_true] at h1; omega
    obtain ⟨u, hu, hin⟩ := List.countP_pos_iff.1 this
    obtain ⟨i, hi⟩ := List.mem_iff_getElem?.1 hu
    cases u <;> simp only [inside, Bool.false_eq_true] at hin
    · exact ⟨.user i, _, by simp only [step, hi]; rfl, rfl⟩
    · exact ⟨.user i, _, by simp only [step, hi]; rfl, rfl⟩

/-- Two threads set the writer, a third copies it, while the logging thread has a copy. -/
example : ∃ s s', run init [.thread, .thread, .callSet 1, .callSet 2, .callGet, .user 1, .user 1,
    .user 2, .user 2] = some s ∧ s.writer = 2 ∧ s.thread = .copied 0 ∧ s.locked = false ∧
    s.users = [.wantsSet 1, .hasSet 2, .hasGot 2] ∧
    run s [.user 0, .user 0, .thread, .thread, .thread, .thread, .thread] = some s' ∧
    s'.called = [0, 1] :=
  ⟨_, _, rfl, rfl, rfl, rfl, rfl, rfl, rfl⟩

end Pluto.Props
