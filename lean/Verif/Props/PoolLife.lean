import Verif.Spec.PoolLife
import Verif.Props.Pool
import Verif.Proofs.PoolLife

/-!
# Properties of the life times of objects of `thread_pool` (C94, C95)

`Pool.Reachable`: Model/Pool.lean; `PoolLife.Reachable`: Model/PoolLife.lean.
-/

namespace Pluto.Props
open Pluto.Pool Pluto.Spec.PoolLife

/-! ## Function objects -/

/-- C94: there is exactly one function object of a task from its submission until its worker
has recorded its end, and none afterwards. -/
theorem C94_objects {n : Nat} {s : State} (h : Pool.Reachable n s) (t : Nat) :
    objects s t =
      if t < s.nextTask ∧ (t ∉ s.completed ∨ .finished t ∈ s.workers) then 1 else 0 := by
  have h1 := (conserved h).total t
  have h2 := finished_completed h t
  rw [objects_eq]
  have h3 : .finished t ∈ s.workers ↔ 0 < cnt (isFinished t) s.workers := by
    unfold cnt
    rw [List.countP_pos_iff]
    constructor
    · intro hm; exact ⟨_, hm, by simp [isFinished]⟩
    · rintro ⟨x, hx, he⟩
      cases x <;> simp [isFinished] at he
      subst he; exact hx
  simp only [h3, ← List.count_pos_iff]
  split at h1
  · split <;> omega
  · split <;> omega

/-- C94 (partial: false for `run_sync`): when `wait_until_all_tasks_complete` returns, no
function object of a task that has been started exists. -/
theorem C94_wait_all_partial {n : Nat} {s s' : State} {i : Nat} (h : Pool.Reachable n s)
    (hs : step s (.waitAll i) = some s') (hlt : s'.waitAll.length < s.waitAll.length)
    {t : Nat} (ht : t ∈ s.started.map (·.task)) : objects s' t = 0 := by
  obtain ⟨hq, hb, hr⟩ := C16_wait_all_safe h hs hlt
  have hr' : Pool.Reachable n s' := .step _ h hs
  have hw : s'.workers = s.workers ∧ s'.completed = s.completed := by
    obtain ⟨-, hs⟩ := step_cases hs
    cases hs <;> exact ⟨rfl, rfl⟩
  have hc : t ∈ s.completed := by
    have := (C12_started_once h).2.2
    rw [hr, List.nil_append] at this
    exact this.mem_iff.1 ht
  rw [C94_objects hr', if_neg]
  rintro ⟨-, h1 | h1⟩
  · exact h1 (hw.2 ▸ hc)
  · rw [hw.1] at h1
    unfold Spec.Pool.busy at hb
    rw [List.length_eq_zero_iff, List.filter_eq_nil_iff] at hb
    exact hb _ h1 rfl

/-- C94 (partial): when the destructor has returned, no worker has a function object. -/
theorem C94_destructor_partial {n : Nat} {s : State} (h : Pool.Reachable n s)
    (hd : s.stage = .destroyed) {t : Nat} (ht : t ∈ s.started.map (·.task)) : objects s t = 0 := by
  obtain ⟨h1, -, h2⟩ := C20_joined h hd
  rw [C94_objects h, if_neg]
  rintro ⟨-, h3 | h3⟩
  · exact h3 (h2.mem_iff.1 ht)
  · cases h1 _ h3

/-- C94 fails: `run_sync` has returned and the function object of its task still exists. -/
theorem C94_fails_run_sync : ∃ s s', Pool.Reachable 1 s ∧ s.pendingOne = 0 ∧ step s (.syncReturns 0) = some s' ∧
    objects s' 0 = 1 :=
  ⟨_, _, pool_reachable (n := 1) (evs := [.runSync 0 none, .notifyOne none, .worker 0, .taskReturns 0]) rfl, rfl, rfl,
    rfl⟩

/-- Two tasks are done, one waits, one is scheduled. -/
example : ∃ s, run (init 1) [.runAsync 0 none, .runAsync 0 none, .worker 0, .taskReturns 0,
    .worker 0, .taskReturns 0, .runAsync 0 none, .runAt 9 0 none] = some s ∧
    (List.range 5).map (objects s) = [0, 1, 1, 1, 0] ∧ s.completed = [0, 1] :=
  ⟨_, rfl, rfl, rfl⟩

/-- A caller of `wait_until_all_tasks_complete` returns after two tasks. -/
example : ∃ s s', run (init 1) [.runAsync 0 none, .runAsync 0 none, .callWaitAll none, .worker 0,
    .taskReturns 0, .worker 0, .taskReturns 0, .worker 0] = some s ∧
    step s (.waitAll 0) = some s' ∧ s'.waitAll.length < s.waitAll.length ∧
    s.started.map (·.task) = [0, 1] :=
  ⟨_, _, rfl, rfl, by decide, rfl⟩

/-! ## Destructors that call the pool -/

/-- C94 (partial): if nothing that a function object contains calls the pool when it is
destroyed, no thread of the pool ever locks a mutex that it owns. -/
theorem C94_not_relocked_partial {calls : Nat → Bool} {n : Nat} {s : PoolLife.State}
    (h : PoolLife.Reachable calls n s) (hc : ∀ t < s.pool.nextTask, calls t = false) :
    s.relocked = false := by
  have hlt : ∀ {s : PoolLife.State} {e : Event} {t : Nat}, PoolLife.Reachable calls n s →
      PoolLife.destroyed s.pool e = some t → t < s.pool.nextTask := by
    intro s e t hr hd
    have hcon := conserved (PoolLife.reachable_pool hr)
    have h1 := hcon.total t
    unfold PoolLife.destroyed at hd
    split at hd
    · split at hd
      · rename_i i u hi
        cases hd
        have h2 := finished_completed (PoolLife.reachable_pool hr) t
        have h3 := cnt_pos (p := isFinished t) hi (by simp [isFinished])
        split at h1 <;> omega
      · cases hd
    · split at hd
      · rename_i i w e k hi
        split at hd
        · rename_i he
          cases hd
          have : 0 < (s.pool.scheduled.map (·.task)).count e.task :=
            List.count_pos_iff.2 (List.mem_map.2 ⟨e, he, rfl⟩)
          split at h1 <;> omega
        · cases hd
      · cases hd
    · cases hd
  induction h with
  | init => rfl
  | @step s s' ev hr hs ih =>
    have mono : s.pool.nextTask ≤ s'.pool.nextTask := by
      rcases PoolLife.step_pool hs with ⟨t, rfl, rfl⟩ | ⟨e, t, rfl, _, _, rfl⟩ | ⟨e, p, rfl, _, hp, rfl⟩
      · exact Nat.le_refl _
      · exact Nat.le_refl _
      · rw [PoolLife.record_pool]
        cases flow_step hp <;> omega
    have ih := ih fun t ht => hc t (by omega)
    rcases PoolLife.step_pool hs with ⟨t, rfl, rfl⟩ | ⟨e, t, rfl, hd, hcl, rfl⟩ | ⟨e, p, rfl, _, hp, rfl⟩
    · exact ih
    · have := hc t (hlt (s := s) hr hd)
      rw [this] at hcl
      cases hcl
    · unfold PoolLife.record
      split <;> try exact ih
      split <;> try exact ih
      split <;> exact ih

private theorem life_run {calls : Nat → Bool} {n : Nat} {s s' : PoolLife.State}
    {evs : List PoolLife.Event} (h : PoolLife.Reachable calls n s)
    (hr : PoolLife.run calls s evs = some s') : PoolLife.Reachable calls n s' := by
  induction evs generalizing s with
  | nil => cases hr; exact h
  | cons e es ih =>
    simp only [PoolLife.run] at hr
    split at hr
    · rename_i s1 h1
      exact ih (.step e h h1) hr
    · cases hr

/-- C94 fails: a task that contains something whose destructor calls the pool makes its
worker lock the mutex twice … -/
theorem C94_fails_destructor_calls : ∃ s, PoolLife.Reachable (fun _ => true) 1 s ∧
    s.relocked = true :=
  ⟨_, life_run (n := 1) (evs := [.pool (.runAsync 0 none), .pool (.worker 0), .pool (.taskReturns 0),
    .pool (.worker 0)]) .init rfl, rfl⟩

/-- … and the scheduler, before the task is called at all. -/
theorem C94_fails_scheduled : ∃ s, PoolLife.Reachable (fun _ => true) 1 s ∧
    s.relocked = true ∧ s.pool.started = [] :=
  ⟨_, life_run (n := 1) (evs := [.pool (.runAt 5 0 none), .pool .createScheduler,
    .pool (.assignScheduler 0), .pool (.scheduler 0 none), .pool (.clock 5),
    .pool (.schedulerTimeout 0), .pool (.scheduler 0 none)]) .init rfl, rfl, rfl⟩

/-- The task of number 1 is such a task, and the others are done. -/
example : ∃ s, PoolLife.run (fun t => t == 1) (PoolLife.init 1) [.pool (.runAsync 0 none),
    .pool (.worker 0), .pool (.taskReturns 0), .pool (.worker 0)] = some s ∧ s.relocked = false ∧
    s.pool.completed = [0] ∧ (fun t => t == 1) 0 = false ∧ s.pool.nextTask = 1 :=
  ⟨_, rfl, rfl, rfl, rfl, rfl⟩

/-! ## The promise of `run_sync` -/

/-- C95 (partial: false after the value has been set): a promise exists until its value has
been set, and nobody but the worker of its task uses it. -/
theorem C95_promise_partial {calls : Nat → Bool} {n : Nat} {s : PoolLife.State} {t : Nat}
    (h : PoolLife.Reachable calls n s) :
    (t ∈ s.promised → t ∉ s.pool.completed → t ∈ s.pool.syncs) ∧
    (t ∈ s.leaving → t ∈ s.promised ∧ .finished t ∈ s.pool.workers) := by
  have hp := PoolLife.promise h
  refine ⟨fun h1 h2 => ?_, fun h1 => ⟨(hp.leaving t h1).1, (hp.leaving t h1).2.2⟩⟩
  rcases hp.exists' t h1 with h | h
  · exact h
  · exact absurd h h2

/-- C95 fails: `run_sync` has returned, so the promise is destroyed, and the worker is still
inside `set_value` of that promise. -/
theorem C95_fails : ∃ s, PoolLife.Reachable (fun _ => false) 1 s ∧ 0 ∈ s.promised ∧
    0 ∉ s.pool.syncs ∧ 0 ∈ s.leaving :=
  ⟨_, life_run (n := 1) (evs := [.pool (.runSync 0 none), .pool (.notifyOne none), .pool (.worker 0), .pool (.taskReturns 0),
    .pool (.syncReturns 0)]) .init rfl, by decide, by decide, by decide⟩

/-- The usual order: the promise outlives its use. -/
example : ∃ s s', PoolLife.run (fun _ => false) (PoolLife.init 1) [.pool (.runSync 0 none),
    .pool (.worker 0), .pool (.taskReturns 0)] = some s ∧ 0 ∈ s.leaving ∧ 0 ∈ s.pool.syncs ∧
    PoolLife.run (fun _ => false) s [.leave 0, .pool (.syncReturns 0), .pool (.worker 0)] = some s' ∧
    s'.leaving = [] ∧ s'.pool.syncs = [] :=
  ⟨_, _, rfl, by decide, by decide, rfl, rfl, rfl⟩

end Pluto.Props
