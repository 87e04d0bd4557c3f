import Verif.Proofs.PoolFault
import Verif.Spec.Pool
import Verif.Proofs.PoolStep

/-!
# Properties of failing calls of `thread_pool` (C93)

Only model: `Pluto.PoolFault`, on the states of `Pluto.Pool`.
-/

namespace Pluto.Props
open Pluto.Pool Pluto.PoolFault Pluto.Spec.Pool

/-! ## Calls in which nothing fails -/

/-- The functions of `PoolFault`, without faults, are those of `Pool`: `run_async` … -/
theorem C93_same_run_async {s : State} {prio : Int} (hc : s.crash = none) (ha : s.stage = .alive) :
    (PoolFault.runAsync {} s prio).1 = .returned ∧
      step s (.runAsync prio none) = some (PoolFault.runAsync {} s prio).2 :=
  ⟨rfl, by simp [step, hc, canCall, ha, PoolFault.runAsync]⟩

/-- … `run_at`, if no other thread interferes … -/
theorem C93_same_run_at {s : State} {time prio : Int} (hc : s.crash = none) (ha : s.stage = .alive) :
    (PoolFault.runAt {} s time prio).1 = .returned ∧
      run s (.runAt time prio none :: if s.scheduler = none then
        [.createScheduler, .assignScheduler s.schedulers.length] else []) =
          some (PoolFault.runAt {} s time prio).2 := by
  cases hn : s.scheduler with
  | none => simp [run, step, hc, canCall, ha, Pool.runAt, hn, PoolFault.runAt]
  | some j =>
    simp only [run, step, hc, canCall, ha, Pool.runAt, PoolFault.runAt, Bool.false_eq_true,
      if_false, hn, Option.isSome_none, Option.isNone_some, beq_self_eq_true, if_true, reduceCtorEq]
    split <;> simp

/-- … `target_workers_size` … -/
theorem C93_same_set_target {s : State} {n : Nat} (hc : s.crash = none) (ha : s.stage = .alive) :
    (PoolFault.setTarget {} s n).1 = .returned ∧
      step s (.setTarget n none) = some (PoolFault.setTarget {} s n).2 := by
  obtain ⟨m, -, hs, h1, h2, h3, h4, -⟩ := grow_spec {} (n - s.workers.length) 0
    { s with target := n, maxTarget := max s.maxTarget n }
  have hr : (PoolFault.grow {} (n - s.workers.length) 0
      { s with target := n, maxTarget := max s.maxTarget n }).1 = .returned := by
    cases h : (PoolFault.grow {} (n - s.workers.length) 0
      { s with target := n, maxTarget := max s.maxTarget n }).1 with
    | returned => rfl
    | threw => exact absurd (h3 h) (by simp)
    | terminated => exact absurd (h4 h) (by simp)
  rw [h1 hr] at hs
  by_cases hst : s.stopping = true
  · simp [step, hc, canCall, ha, PoolFault.setTarget, hst]
  · unfold PoolFault.setTarget
    rw [if_neg hst]
    generalize PoolFault.grow {} (n - s.workers.length) 0
      { s with target := n, maxTarget := max s.maxTarget n } = r at hr hs ⊢
    obtain ⟨o, s1⟩ := r
    dsimp only at hr hs
    subst hr hs
    refine ⟨rfl, ?_⟩
    simp [step, hc, canCall, ha, hst]

/-- … and the constructor. -/
theorem C93_same_construct (n : Nat) : construct {} n = (.returned, init n) := by
  obtain ⟨m, -, hs, h1, h2, h3, h4, -⟩ := grow_spec {} n 0 { target := n, maxTarget := n }
  have hr : (PoolFault.grow {} n 0 { target := n, maxTarget := n }).1 = .returned := by
    cases h : (PoolFault.grow {} n 0 { target := n, maxTarget := n }).1 with
    | returned => rfl
    | threw => exact absurd (h3 h) (by simp)
    | terminated => exact absurd (h4 h) (by simp)
  rw [h1 hr] at hs
  unfold construct
  generalize PoolFault.grow {} n 0 { target := n, maxTarget := n } = r at hr hs ⊢
  obtain ⟨o, s1⟩ := r
  dsimp only at hr hs
  subst hr hs
  simp [init]

/-! ## Calls that throw -/

/-- C93 (partial: false for `run_at` and `target_workers_size`): a call of `run_async` that
throws has had no effect; neither has one of `run_at`, unless it threw because the scheduler
thread could not be created; one of `target_workers_size` has had no other effect than to set
the target and to add fewer workers than wanted; a constructor that throws has created no
thread. -/
theorem C93_no_effect_partial {f : Faults} {s : State} {time prio : Int} {n : Nat} :
    ((PoolFault.runAsync f s prio).1 = .threw → (PoolFault.runAsync f s prio).2 = s) ∧
    ((PoolFault.runAt f s time prio).1 = .threw → (f.task = true ∨ s.scheduler ≠ none ∨ f.thread 0 = false) →
      (PoolFault.runAt f s time prio).2 = s) ∧
    ((PoolFault.setTarget f s n).1 = .threw → ∃ k < n - s.workers.length,
      f.thread k = true ∧ (PoolFault.setTarget f s n).2 = { s with
        target := n, maxTarget := max s.maxTarget n,
        workers := s.workers ++ List.replicate k .ready }) ∧
    ((construct f n).1 = .threw → f.thread 0 = true ∧ (construct f n).2.workers = []) := by
  refine ⟨?_, ?_, ?_, ?_⟩
  · unfold PoolFault.runAsync
    split <;> simp
  · unfold PoolFault.runAt
    split
    · simp
    · rintro h hs
      exfalso
      revert h
      rcases hs with hs | hs | hs
      · contradiction
      · cases hn : s.scheduler with
        | none => exact absurd hn hs
        | some j => simp only [Option.isNone_some, Bool.false_eq_true, if_false]; split <;> simp
      · simp only [hs, Bool.false_eq_true, if_false]
        split
        · simp
        · split <;> simp
  · obtain ⟨m, -, hs, h1, h2, h3, h4, -⟩ := grow_spec f (n - s.workers.length) 0
      { s with target := n, maxTarget := max s.maxTarget n }
    unfold PoolFault.setTarget
    split
    · simp
    · generalize PoolFault.grow f (n - s.workers.length) 0
        { s with target := n, maxTarget := max s.maxTarget n } = r at *
      obtain ⟨o, s1⟩ := r
      cases o with
      | returned => simp
      | terminated => simp
      | threw =>
        intro _
        dsimp only at *
        exact ⟨m, h2 (by simp), by simpa using h3 rfl, hs⟩
  · obtain ⟨m, -, hs, h1, h2, h3, h4, -⟩ := grow_spec f n 0 { target := n, maxTarget := n }
    unfold construct
    generalize PoolFault.grow f n 0 { target := n, maxTarget := n } = r at *
    obtain ⟨o, s1⟩ := r
    cases o with
    | returned => simp
    | terminated => simp
    | threw =>
      dsimp only at *
      have h3 := h3 rfl
      split
      · rename_i hw
        intro _
        rw [hs] at hw
        have : m = 0 := by simpa using hw
        subst this
        exact ⟨by simpa using h3, by rw [hs]; rfl⟩
      · simp

/-- C93 fails: whenever a call of `run_at` throws because the scheduler thread cannot be
created, its task is in the schedule all the same. -/
theorem C93_fails_run_at {f : Faults} {s : State} {time prio : Int} (hs : s.scheduler = none)
    (ht : f.task = false) (hf : f.thread 0 = true) :
    (PoolFault.runAt f s time prio).1 = .threw ∧
      ⟨time, prio, s.nextTask⟩ ∈ (PoolFault.runAt f s time prio).2.scheduled := by
  have : ∀ (e : Timed) (q : List Timed), e ∈ insertTimed e q := by
    intro e q
    induction q with
    | nil => simp [insertTimed]
    | cons x xs ih => unfold insertTimed; split <;> simp [ih]
  simp [PoolFault.runAt, hs, ht, hf, this]

/-- The task of the call that threw is executed after the next successful call. -/
theorem C93_fails_run_at_executed : ∃ f s s' evs, PoolFault.runAt f (init 1) 5 0 = (.threw, s) ∧
    run (PoolFault.runAt {} s 20 0).2 evs = some s' ∧ running s' = [0] ∧
    s'.scheduled.map (·.task) = [1] :=
  ⟨{ thread := fun _ => true }, _, _, [.scheduler 0 none, .clock 5, .schedulerTimeout 0,
    .scheduler 0 none, .worker 0], rfl, rfl, rfl, rfl⟩

/-- C93 fails: a call of `target_workers_size` that throws has set the target.  Afterwards a
task may wait although the target is positive and nothing can happen any more. -/
theorem C93_fails_target : ∃ f s s', PoolFault.setTarget f (init 0) 1 = (.threw, s) ∧
    s.target = 1 ∧ run s [.runAsync 0 none, .notifyOne none] = some s' ∧
    s'.queue.map (·.task) = [0] ∧ ∀ ev, Own ev = true → step s' ev = none := by
  refine ⟨{ thread := fun _ => true }, _, _, rfl, rfl, rfl, rfl, ?_⟩
  intro ev ho
  cases ev <;> first | rfl | cases ho

/-- C93 fails: if the constructor has created a thread and then fails, or if a thread cannot
be stored, the program ends. -/
theorem C93_fails_construct {f : Faults} {n k : Nat} (hk : k < n)
    (hlt : ∀ j < k, f.thread j = false ∧ f.table j = false)
    (hf : (0 < k ∧ f.thread k = true) ∨ (f.thread k = false ∧ f.table k = true)) :
    (construct f n).1 = .terminated := by
  obtain ⟨m, hm, hs, h1, h2, h3, h4, h5⟩ := grow_spec f n 0 { target := n, maxTarget := n }
  simp only [Nat.zero_add] at h3 h4 h5
  have hmk : m ≤ k := by
    rcases Nat.lt_or_ge k m with h | h
    · have := h5 k (by omega) h
      rcases hf with ⟨_, hf⟩ | ⟨_, hf⟩
      · rw [this.1] at hf; cases hf
      · rw [this.2] at hf; cases hf
    · exact h
  unfold construct
  generalize PoolFault.grow f n 0 { target := n, maxTarget := n } = r at *
  obtain ⟨o, s1⟩ := r
  cases o with
  | returned => have := h1 rfl; omega
  | terminated => rfl
  | threw =>
    dsimp only at *
    have h3 := h3 rfl
    have : ¬ m < k := fun h => by rw [(hlt m h).1] at h3; cases h3
    have hmk : m = k := by omega
    subst hmk
    rcases hf with ⟨hf, _⟩ | ⟨hf, _⟩
    · rw [hs, if_neg (by simp; omega)]
    · rw [h3] at hf; cases hf

/-- C93 fails: a call of `run_at` has returned, and when its task is due, the scheduler cannot put it into the queue (its
copy throws), which ends the program. -/
theorem C93_fails_scheduler {f : Faults} {s : State} {i n : Nat} {e : Timed} {woken : Option Nat} (hf : f.task = true)
    (hs : s.schedulers[i]? = some (.timedOut e n)) :
    PoolFault.schedule f s i woken = some (.terminated, s) := by
  unfold PoolFault.schedule
  rw [hs]
  simp [hf]

/-- Such a state is reached. -/
example : ∃ s e n, run (init 1) [.runAt 5 0 none, .createScheduler, .assignScheduler 0, .scheduler 0 none, .clock 5,
    .schedulerTimeout 0] = some s ∧ s.schedulers[0]? = some (.timedOut e n) ∧
    PoolFault.schedule { task := true } s 0 none = some (.terminated, s) ∧
    ∃ s', PoolFault.schedule {} s 0 none = some (.returned, s') ∧ s'.queue.map (·.task) = [0] :=
  ⟨_, _, _, rfl, rfl, rfl, _, rfl, rfl⟩

/-- The creation of the third of four threads fails, in the constructor and in
`target_workers_size`. -/
example : (construct { thread := fun k => k == 2 } 4).1 = .terminated ∧
    ∃ s, PoolFault.setTarget { thread := fun k => k == 2 } (init 1) 5 = (.threw, s) ∧
      s.workers.length = 3 ∧ s.target = 5 :=
  ⟨rfl, _, rfl, rfl, rfl⟩

/-- Copying a task throws. -/
example : PoolFault.runAsync { task := true } (init 2) 0 = (.threw, init 2) ∧
    PoolFault.runAt { task := true, thread := fun _ => true } (init 2) 0 0 = (.threw, init 2) := ⟨rfl, rfl⟩

end Pluto.Props
