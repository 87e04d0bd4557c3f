import Verif.Proofs.LogWriters

/-!
# C167: how long a logger keeps copies of a writer
-/

namespace Pluto.Props
open Pluto.LogWriters

/-- C167: at any time the copies of writers that exist are those of the logger, of its thread, and of those to whom
`log_writer()` has returned one. -/
theorem C167_copies {u : Uses} {s : State} (h : Reaches u s) : s.live.Perm (holders s) :=
  List.perm_iff_count.2 (inv_reaches h)

/-- C167: when the logging thread is not writing and the returned copies have been destroyed, only the current writer
exists; after the destructor there is none. -/
theorem C167_released {u : Uses} {s : State} (h : Reaches u s) (ht : s.thread = .idle)
    (hu : ∀ w, .hasGot w ∉ s.users) : s.live = s.writer.toList := by
  have h1 := C167_copies h
  have h2 : returned s.users = [] := by
    unfold returned
    rw [List.filterMap_eq_nil_iff]
    intro a ha
    cases a with
    | hasGot w => exact absurd ha (hu w)
    | _ => rfl
  simp only [holders, ht, ofThread, h2, List.append_nil] at h1
  cases hw : s.writer with
  | none => simp only [hw, Option.toList_none] at h1 ⊢; exact h1.eq_nil
  | some w => simp only [hw, Option.toList_some] at h1 ⊢; exact List.perm_singleton.1 h1

/-- C167: after the destructor no call of `log_writer` is under way and the logging thread does nothing, so the copies that
exist are those that have been returned. -/
theorem C167_destructor {u : Uses} {s : State} (h : Reaches u s) (hw : s.writer = none) :
    s.thread = .idle ∧ (∀ w, .wantsSet w ∉ s.users ∧ .setting w ∉ s.users) ∧ .wantsGet ∉ s.users ∧ .getting ∉ s.users ∧
      s.live.Perm (returned s.users) := by
  have hc := C167_copies h
  obtain ⟨evs, hr⟩ := h
  obtain ⟨h1, h2⟩ := run_state Ended (fun _ _ _ => ended_step) (s := init) (fun h => by cases h) hr hw
  rw [List.any_eq_false] at h2
  refine ⟨h1, fun w => ⟨fun hm => h2 _ hm rfl, fun hm => h2 _ hm rfl⟩, fun hm => h2 _ hm rfl, fun hm => h2 _ hm rfl, ?_⟩
  simpa [holders, hw, h1, ofThread] using hc

example : ∃ s, Reaches ⟨fun _ => false, fun _ => false⟩ s ∧ s.writer = none ∧ s.live = [0] :=
  ⟨_, ⟨[.callGet, .user 0, .user 0, .thread, .thread, .thread, .thread, .destroy], rfl⟩, rfl, rfl⟩

/-- C167: at most one thread at a time copies or replaces the writer of the logger, and the mutex is owned only then. -/
theorem C167_mutex {u : Uses} {s : State} (h : Reaches u s) :
    (s.thread = .copying → ∀ a ∈ s.users, Inside a = false) ∧
      (∀ (i j : Nat) (a b : User), s.users[i]? = some a → s.users[j]? = some b → Inside a → Inside b → i = j) ∧
      (s.locked ↔ s.thread = .copying ∨ ∃ a ∈ s.users, Inside a) := by
  obtain ⟨evs, hr⟩ := h
  have hx : Excl s := run_state Excl (fun _ _ _ => excl_step) (s := init) rfl hr
  unfold Excl at hx
  have hl := Bool.toNat_le s.locked
  refine ⟨fun ht => ?_, fun i j a b hi hj => countP_two (by omega) hi hj, ?_⟩
  · simp only [ht, decide_true, Bool.toNat_true] at hx
    have : s.users.countP Inside = 0 := by omega
    simpa [List.countP_eq_zero] using this
  · rw [← List.countP_pos_iff]
    by_cases ht : s.thread = .copying <;> cases hk : s.locked <;>
      simp only [ht, hk, decide_true, decide_false, Bool.toNat_true, Bool.toNat_false] at hx
    · omega
    · simp [ht]
    · simp only [ht, Bool.false_eq_true, false_or, false_iff]; omega
    · simp only [true_iff]; exact Or.inr (by omega)

example : ∃ s, Reaches ⟨fun _ => false, fun _ => false⟩ s ∧ s.users = [.setting 1, .wantsGet] :=
  ⟨_, ⟨[.callSet 1, .callGet, .user 0], rfl⟩, rfl⟩

/-- Two replaced writers, a call, a copy that is dropped, and the destructor. -/
example : ∃ s s', run ⟨fun _ => false, fun _ => false⟩ init [.thread, .thread, .callSet 1, .user 0, .user 0, .thread, .callGet,
      .user 1, .user 1, .callSet 2, .user 2, .user 2] = .state s ∧ s.live = [0, 1, 2] ∧ s.thread = .calling 0 ∧
    run ⟨fun _ => false, fun _ => false⟩ s [.thread, .drop 1, .destroy] = .state s' ∧ s'.live = [] :=
  ⟨_, _, rfl, rfl, rfl, rfl, rfl⟩

/-- C167: the logging thread calls a copy that exists, whatever other threads do to the writer meanwhile. -/
theorem C167_calls {u : Uses} {s : State} (h : Reaches u s) {w : Nat} (hc : s.thread = .calling w) : w ∈ s.live :=
  mem_live (inv_reaches h) (by simp [holders, hc, ofThread])

example : ∃ s, run ⟨fun _ => false, fun _ => false⟩ init [.thread, .thread, .thread, .callSet 1, .user 0, .user 0] = .state s ∧
    s.thread = .calling 0 ∧ s.writer = some 1 := ⟨_, rfl, rfl, rfl⟩

/-- C167: when no copy of a writer exists any more and no call of `log_writer(w)` is under way or follows, it is not called
again.  (That `log_writer` has returned is not enough, `C96_fails`.) -/
theorem C167_gone {u : Uses} {s s' : State} {evs : List Event} {w : Nat} (h : Reaches u s) (hr : run u s evs = .state s')
    (hl : w ∉ s.live) (hp : ¬ pending s.users w) (hev : .callSet w ∉ evs) :
    w ∉ s'.live ∧ s'.called.count w = s.called.count w := by
  obtain ⟨h1, cs, h2, h3⟩ := run_gone (inv_reaches h) hr hl hp hev
  exact ⟨h1, by rw [h2, List.count_append, List.count_eq_zero.2 h3, Nat.add_zero]⟩

example : ∃ s, run ⟨fun _ => false, fun _ => false⟩ init [.callSet 1, .user 0, .user 0] = .state s ∧ 0 ∉ s.live ∧
    ¬ pending s.users 0 := ⟨_, rfl, by decide, by unfold pending; decide⟩

/-- C167: a call of `log_writer` that throws leaves the writer, all copies and the mutex as before the call. -/
theorem C167_throws {u : Uses} {s s1 s2 : State} {i : Nat} (h1 : step u s (.user i) = .state s1)
    (h2 : step u s1 (.throws i) = .state s2) :
    s2 = { s with users := s.users.set i .failed } := by
  have hset : ∀ b : User, s.users[i]?.isSome → (s.users.set i b)[i]? = some b := by
    intro b hb
    obtain ⟨a, ha⟩ := Option.isSome_iff_exists.1 hb
    rw [List.getElem?_set_self (List.getElem?_eq_some_iff.1 ha).1]
  simp only [step] at h1
  cases hw : s.writer with
  | none => simp [hw] at h1
  | some w =>
    simp only [hw, userStep] at h1
    cases hi : s.users[i]? with
    | none => simp [hi] at h1
    | some a =>
      have hs : s.users[i]?.isSome := by simp [hi]
      cases a with
      | wantsSet v =>
        simp only [hi] at h1
        split at h1
        · cases h1
        · rename_i hl
          cases h1
          simp only [step, hset _ hs] at h2
          cases h2
          simp only [List.set_set]
          cases s; simp_all
      | wantsGet =>
        simp only [hi] at h1
        split at h1
        · cases h1
        · rename_i hl
          cases h1
          simp only [step, hset _ hs] at h2
          cases h2
          simp only [List.set_set]
          cases s; simp_all
      | setting v =>
        simp only [hi] at h1
        split at h1
        · cases h1
        · cases h1; simp [step, hset _ hs] at h2
      | getting =>
        simp only [hi] at h1
        split at h1
        · cases h1
        · cases h1; simp [step, hset _ hs] at h2
      | hasSet v => simp [hi] at h1
      | hasGot v => simp [hi] at h1
      | gone => simp [hi] at h1
      | failed => simp [hi] at h1

example : ∃ s1 s2, step ⟨fun _ => false, fun _ => false⟩ { init with users := [.wantsSet 1] } (.user 0) = .state s1 ∧
    step ⟨fun _ => false, fun _ => false⟩ s1 (.throws 0) = .state s2 ∧ s2.writer = some 0 ∧ s2.locked = false :=
  ⟨_, _, rfl, rfl, rfl, rfl⟩

/-- C167: nothing is undefined if no writer uses the logger when it is copied or destroyed.  Missing from the full
property: writers that do; see `C167_fails_destructor` and `C167_fails_copy`. -/
theorem C167_defined_partial {u : Uses} {evs : List Event} (h0 : u.Quiet 0) (h : ∀ w, .callSet w ∈ evs → u.Quiet w) :
    run u init evs ≠ .undefined := by
  refine run_defined (s := init) (fun x => by simp [init, holders, ofThread, returned]) ?_
  rintro w (hw | hw | hw)
  · simp only [init, List.mem_singleton] at hw; exact hw ▸ h0
  · simp [pending, init] at hw
  · exact h w hw

example : (⟨fun w => w == 7, fun w => w == 7⟩ : Uses).Quiet 0 ∧ (⟨fun w => w == 7, fun w => w == 7⟩ : Uses).Quiet 1 := by
  unfold Uses.Quiet; decide

/-- C167, negation of the full property: the destructor of a writer that is replaced runs while `m_configMutex` is owned; if
it calls `log_writer()`, the program is undefined.  When the logging thread destroys the last copy, it is not. -/
theorem C167_fails_destructor :
    run ⟨fun _ => false, fun w => w == 0⟩ init [.callSet 1, .user 0, .user 0] = .undefined ∧
      ∃ s, run ⟨fun _ => false, fun w => w == 0⟩ init [.thread, .thread, .thread, .thread] = .state s ∧
        s.thread = .idle ∧ s.called = [0] := ⟨rfl, _, rfl, rfl, rfl⟩

/-- C167, negation of the full property: so is a copy, also that of the logging thread. -/
theorem C167_fails_copy :
    run ⟨fun w => w == 0, fun _ => false⟩ init [.thread, .thread] = .undefined ∧
      run ⟨fun w => w == 1, fun _ => false⟩ init [.callSet 1, .user 0, .user 0] = .undefined := ⟨rfl, rfl⟩

end Pluto.Props
