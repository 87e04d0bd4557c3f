import Verif.Spec.PoolLife
import Verif.Proofs.PoolStop

/-! # Lemmas about the life times of objects of the thread pool -/

namespace Pluto.Pool
open Pluto.Spec.PoolLife

def isFinished (t : Nat) : Phase → Bool
  | .finished u => u == t
  | _ => false

theorem objects_eq (s : State) (t : Nat) :
    objects s t = (s.scheduled.map (·.task)).count t + (s.queue.map (·.task)).count t +
      (cnt (isRunning t) s.workers + cnt (isFinished t) s.workers) := by
  have h1 : ∀ q : List Timed, (q.filter (·.task == t)).length = (q.map (·.task)).count t := by
    intro q
    induction q with
    | nil => rfl
    | cons x xs ih =>
      rw [List.filter_cons, List.map_cons, List.count_cons]
      split <;> simp_all
  have h2 : ∀ q : List Entry, (q.filter (·.task == t)).length = (q.map (·.task)).count t := by
    intro q
    induction q with
    | nil => rfl
    | cons x xs ih =>
      rw [List.filter_cons, List.map_cons, List.count_cons]
      split <;> simp_all
  have h3 : ∀ ws : List Phase, (ws.filter (holds t)).length =
      cnt (isRunning t) ws + cnt (isFinished t) ws := by
    intro ws
    unfold cnt
    induction ws with
    | nil => rfl
    | cons x xs ih =>
      rw [List.filter_cons, List.countP_cons, List.countP_cons]
      cases x <;> simp [isFinished, holds]
      all_goals try assumption
      all_goals (split <;> (simp_all; try omega))
  unfold objects
  rw [h1, h2, h3]

theorem finished_pass (s : State) (a : Int) (i : Nat) (x : Phase) (t : Nat)
    (hx : s.workers[i]? = some x) :
    cnt (isFinished t) (workerPass { s with active := a } i).workers ≤ cnt (isFinished t) s.workers ∧
      (workerPass { s with active := a } i).completed = s.completed := by
  unfold workerPass
  split
  · split
    · have := cnt_set (p := isFinished t) .blocked hx
      simp [isFinished] at this ⊢
      omega
    · rename_i e rest hq
      have := cnt_set (p := isFinished t) (.running e.task) hx
      simp [isFinished] at this ⊢
      omega
  · split
    · have := cnt_erase (p := isFinished t) hx
      simp at this ⊢
      omega
    · have := cnt_set (p := isFinished t) .exited hx
      simp [isFinished] at this ⊢
      omega

theorem finished_wakeOne {woken : Option Nat} {ws ws' : List Phase}
    (h : wakeOne woken ws = some ws') (t : Nat) :
    cnt (isFinished t) ws' = cnt (isFinished t) ws := by
  rcases wakeOne_spec h with ⟨rfl, _⟩ | ⟨i, hi, rfl⟩
  · rfl
  · have := cnt_set (p := isFinished t) .ready hi
    simpa [isFinished] using this

theorem finished_wake (t : Nat) (ws : List Phase) :
    cnt (isFinished t) (ws.map wakeWorker) = cnt (isFinished t) ws := by
  unfold cnt
  rw [List.countP_map]
  apply List.countP_congr
  intro x _
  cases x <;> simp [wakeWorker, isFinished]

/-- A worker has the function object of a task that has returned at most once. -/
theorem finished_completed {n : Nat} {s : State} (h : Reachable n s) (t : Nat) :
    cnt (isFinished t) s.workers ≤ s.completed.count t := by
  induction h with
  | init => simp [init, cnt, List.countP_replicate, isFinished]
  | @step s s' ev _ hs ih =>
    obtain ⟨-, hs⟩ := step_cases hs
    cases hs with
    | runAt time prio caller hc =>
      have := (runAt_workers s time prio).1
      unfold runAt at this ⊢
      simp only at this ⊢
      split
      · exact ih
      · split <;> exact ih
    | runAfter d prio caller hc =>
      unfold runAt
      simp only
      split
      · exact ih
      · split <;> exact ih
    | grow k caller hc hns hn =>
      simpa [cnt, List.countP_append, List.countP_replicate, isFinished] using ih
    | notifyOne w ws hp hw => simpa [finished_wakeOne hw] using ih
    | notifyAll hp => simpa [finished_wake] using ih
    | spuriousWorker i hi =>
      have := cnt_set (p := isFinished t) .ready hi
      simp [isFinished] at this
      simpa [this] using ih
    | workerReady i hi =>
      have := finished_pass s s.active i _ t hi
      rw [this.2]
      exact Nat.le_trans this.1 ih
    | workerFinished i u hi =>
      have := finished_pass s (s.active - 1) i _ t hi
      rw [this.2]
      exact Nat.le_trans this.1 ih
    | taskReturns i u hi =>
      have := cnt_set (p := isFinished t) (.finished u) hi
      simp only [isFinished, Bool.toNat_false] at this
      simp only [List.count_append, List.count_singleton]
      cases h : (u == t) <;> simp [h] at this ⊢ <;> omega
    | schedulerReady i hi =>
      rw [(schedulerPass_fields s i).2.2.1, (schedulerPass_fields s i).2.2.2.2.1]
      exact ih
    | schedulerMoves i w e k ws hi he hw =>
      rw [(schedulerPass_fields _ i).2.2.1, (schedulerPass_fields _ i).2.2.2.2.1]
      simpa [finished_wakeOne hw, enqueue] using ih
    | stopNotifyWorkers hst => simpa [finished_wake] using ih
    | _ => exact ih

end Pluto.Pool

namespace Pluto.PoolLife
open Pluto.Pool (step_cases sync conserved)

/-- A step of this model is one of the pool, or does nothing to it. -/
theorem step_pool {calls : Nat → Bool} {s s' : State} {ev : Event} (h : step calls s ev = some s') :
    (∃ t, ev = .leave t ∧ s' = { s with leaving := s.leaving.erase t }) ∨
    (∃ e t, ev = .pool e ∧ destroyed s.pool e = some t ∧ calls t = true ∧
      s' = { s with relocked := true }) ∨
    ∃ e p, ev = .pool e ∧ held s e = false ∧ Pool.step s.pool e = some p ∧ s' = record s p e := by
  unfold step at h
  split at h
  · rename_i t
    split at h
    · cases h
    · split at h
      · cases h; exact .inl ⟨t, rfl, rfl⟩
      · cases h
  · rename_i e
    split at h
    · cases h
    · rename_i hh
      have hh : held s e = false := by
        cases hx : held s e with
        | false => rfl
        | true => simp [hx] at hh
      split at h
      · cases h
      · rename_i p hp
        split at h
        · rename_i t ht
          split at h
          · rename_i hc
            cases h; exact .inr (.inl ⟨e, t, rfl, ht, hc, rfl⟩)
          · cases h; exact .inr (.inr ⟨e, p, rfl, hh, hp, rfl⟩)
        · cases h; exact .inr (.inr ⟨e, p, rfl, hh, hp, rfl⟩)

theorem record_pool (s : State) (p : Pool.State) (e : Pool.Event) : (record s p e).pool = p := by
  unfold record
  split <;> try rfl
  split <;> try rfl
  split <;> rfl

/-- Every execution is one of the pool. -/
theorem reachable_pool {calls : Nat → Bool} {n : Nat} {s : State} (h : Reachable calls n s) :
    Pool.Reachable n s.pool := by
  induction h with
  | init => exact .init
  | step ev _ hs ih =>
    rcases step_pool hs with ⟨t, rfl, rfl⟩ | ⟨e, t, rfl, _, _, rfl⟩ | ⟨e, p, rfl, _, hp, rfl⟩
    · exact ih
    · exact ih
    · rw [record_pool]; exact .step e ih hp

/-- What is known of the tasks that have a promise. -/
structure Promise (s : State) : Prop where
  /-- the promise exists until the task has returned -/
  exists' : ∀ t ∈ s.promised, t ∈ s.pool.syncs ∨ t ∈ s.pool.completed
  /-- who waits, waits for a task with a promise -/
  waits : ∀ t ∈ s.pool.syncs, t ∈ s.promised
  /-- a worker is inside `set_value` only if the task has a promise and has been counted -/
  leaving : ∀ t ∈ s.leaving, t ∈ s.promised ∧ t ∈ s.pool.completed ∧ .finished t ∈ s.pool.workers

theorem finished_wakeWorker {ws : List Pool.Phase} {t : Nat} (h : .finished t ∈ ws) :
    .finished t ∈ ws.map Pool.wakeWorker := by
  rw [List.mem_map]; exact ⟨_, h, rfl⟩

theorem finished_set {ws : List Pool.Phase} {t i : Nat} {x y : Pool.Phase} (h : .finished t ∈ ws)
    (hi : ws[i]? = some x) (hx : x ≠ .finished t) : .finished t ∈ ws.set i y := by
  obtain ⟨j, hj⟩ := List.mem_iff_getElem?.1 h
  have hij : i ≠ j := by
    rintro rfl
    rw [hi] at hj
    cases hj
    exact hx rfl
  refine List.mem_iff_getElem?.2 ⟨j, ?_⟩
  rw [List.getElem?_set_ne hij, hj]

theorem finished_eraseIdx {ws : List Pool.Phase} {t i : Nat} {x : Pool.Phase} (h : .finished t ∈ ws)
    (hi : ws[i]? = some x) (hx : x ≠ .finished t) : .finished t ∈ ws.eraseIdx i := by
  obtain ⟨j, hj⟩ := List.mem_iff_getElem?.1 h
  have hij : j ≠ i := by
    rintro rfl
    rw [hi] at hj
    cases hj
    exact hx rfl
  rw [List.mem_eraseIdx_iff_getElem?]
  exact ⟨j, hij, hj⟩

theorem finished_keep_pass {s : Pool.State} {a : Int} {i t : Nat} {x : Pool.Phase}
    (h : .finished t ∈ s.workers) (hi : s.workers[i]? = some x) (hx : x ≠ .finished t) :
    .finished t ∈ (Pool.workerPass { s with active := a } i).workers := by
  unfold Pool.workerPass
  split
  · split
    · exact finished_set h hi hx
    · exact finished_set h hi hx
  · split
    · exact finished_eraseIdx h hi hx
    · exact finished_set h hi hx

/-- A worker that is done with a task stays so in every step that is not its own. -/
theorem finished_keep {s s' : Pool.State} {ev : Pool.Event} {t : Nat} (hs : Pool.step s ev = some s')
    (h : .finished t ∈ s.workers)
    (hne : ∀ i, ev = .worker i → s.workers[i]? ≠ some (.finished t)) : .finished t ∈ s'.workers := by
  obtain ⟨-, hs⟩ := step_cases hs
  have wake : ∀ {w ws}, Pool.wakeOne w s.workers = some ws → .finished t ∈ ws := by
    intro w ws hw
    rcases Pool.wakeOne_spec hw with ⟨rfl, _⟩ | ⟨i, hi, rfl⟩
    · exact h
    · exact finished_set h hi (by simp)
  cases hs with
  | runAt time prio caller hc => rw [(Pool.runAt_workers s time prio).1]; exact h
  | runAfter d prio caller hc => rw [(Pool.runAt_workers s _ prio).1]; exact h
  | grow k caller hc hns hn => exact List.mem_append_left _ h
  | notifyOne w ws hp hw => exact wake hw
  | notifyAll hp => exact finished_wakeWorker h
  | spuriousWorker i hi => exact finished_set h hi (by simp)
  | workerReady i hi => exact finished_keep_pass (a := s.active) h hi (by simp)
  | workerFinished i u hi =>
    refine finished_keep_pass h hi ?_
    intro e
    exact hne i rfl (e ▸ hi)
  | taskReturns i u hi => exact finished_set h hi (by simp)
  | schedulerReady i hi => rw [(Pool.schedulerPass_fields s i).2.2.1]; exact h
  | schedulerMoves i w e k ws hi he hw =>
    rw [(Pool.schedulerPass_fields _ i).2.2.1]
    exact wake hw
  | stopNotifyWorkers hst => exact finished_wakeWorker h
  | _ => exact h

/-- `syncs` and `completed` change only as expected. -/
theorem step_syncs {s s' : Pool.State} {ev : Pool.Event} (hs : Pool.step s ev = some s') :
    (∃ prio c, ev = .runSync prio c ∧ s'.syncs = s.nextTask :: s.syncs ∧ s'.completed = s.completed) ∨
    (∃ t, ev = .syncReturns t ∧ t ∈ s.fulfilled ∧ s'.syncs = s.syncs.erase t ∧
      s'.completed = s.completed) ∨
    (∃ i t, ev = .taskReturns i ∧ s.workers[i]? = some (.running t) ∧ s'.syncs = s.syncs ∧
      s'.completed = s.completed ++ [t] ∧ s'.workers = s.workers.set i (.finished t)) ∨
    ((∀ prio c, ev ≠ .runSync prio c) ∧ (∀ i, ev ≠ .taskReturns i) ∧ s'.syncs = s.syncs ∧
      s'.completed = s.completed) := by
  obtain ⟨-, hs⟩ := step_cases hs
  have pass : ∀ (a : Int) (i : Nat), (Pool.workerPass { s with active := a } i).syncs = s.syncs ∧
      (Pool.workerPass { s with active := a } i).completed = s.completed := by
    intro a i
    unfold Pool.workerPass
    split
    · split <;> simp
    · split <;> simp
  have at' : ∀ time prio, (Pool.runAt s time prio).syncs = s.syncs ∧
      (Pool.runAt s time prio).completed = s.completed := by
    intro time prio
    unfold Pool.runAt
    simp only
    split
    · simp
    · split <;> simp
  have sp : ∀ (s : Pool.State) (i : Nat), (Pool.schedulerPass s i).syncs = s.syncs := by
    intro s i
    unfold Pool.schedulerPass
    split
    · rfl
    · rfl
    · split <;> rfl
  cases hs with
  | runSync prio caller hc => exact .inl ⟨prio, caller, rfl, rfl, rfl⟩
  | syncReturns t h1 h2 => exact .inr (.inl ⟨t, rfl, h2, rfl, rfl⟩)
  | taskReturns i t hi => exact .inr (.inr (.inl ⟨i, t, rfl, hi, rfl, rfl, rfl⟩))
  | runAt time prio caller hc => exact .inr (.inr (.inr ⟨by simp, by simp, at' _ _⟩))
  | runAfter d prio caller hc => exact .inr (.inr (.inr ⟨by simp, by simp, at' _ _⟩))
  | workerReady i hi => exact .inr (.inr (.inr ⟨by simp, by simp, pass s.active i⟩))
  | workerFinished i t hi => exact .inr (.inr (.inr ⟨by simp, by simp, pass _ i⟩))
  | schedulerReady i hi =>
    exact .inr (.inr (.inr ⟨by simp, by simp, sp _ _, (Pool.schedulerPass_fields s i).2.2.2.2.1⟩))
  | schedulerMoves i w e k ws hi he hw =>
    exact .inr (.inr (.inr ⟨by simp, by simp, sp _ _, (Pool.schedulerPass_fields _ i).2.2.2.2.1⟩))
  | _ => exact .inr (.inr (.inr ⟨by simp, by simp, rfl, rfl⟩))

theorem promise {calls : Nat → Bool} {n : Nat} {s : State} (h : Reachable calls n s) : Promise s := by
  induction h with
  | init => exact ⟨by simp [init], by simp [init, Pool.init], by simp [init]⟩
  | @step s s' ev hr hs ih =>
    have hsync := sync (reachable_pool hr)
    rcases step_pool hs with ⟨t, rfl, rfl⟩ | ⟨e, t, rfl, _, _, rfl⟩ | ⟨e, p, rfl, hh, hp, rfl⟩
    · exact ⟨ih.exists', ih.waits, fun u hu => ih.leaving u (List.mem_of_mem_erase hu)⟩
    · exact ⟨ih.exists', ih.waits, ih.leaving⟩
    · have keep : ∀ t ∈ s.leaving, .finished t ∈ p.workers := by
        intro t ht
        refine finished_keep hp (ih.leaving t ht).2.2 ?_
        rintro i rfl hi
        simp [held, hi, ht] at hh
      rcases step_syncs hp with ⟨prio, c, rfl, h1, h2⟩ | ⟨t, rfl, hf, h1, h2⟩ |
        ⟨i, t, rfl, hi, h1, h2, h3⟩ | ⟨hne1, hne2, h1, h2⟩
      · refine ⟨?_, ?_, ?_⟩ <;> simp only [record, h1, h2, List.mem_cons]
        · rintro t (rfl | ht)
          · exact .inl (.inl rfl)
          · rcases ih.exists' t ht with h | h
            · exact .inl (.inr h)
            · exact .inr h
        · rintro t (rfl | ht)
          · exact .inl rfl
          · exact .inr (ih.waits t ht)
        · intro t ht
          exact ⟨.inr (ih.leaving t ht).1, (ih.leaving t ht).2.1, keep t ht⟩
      · refine ⟨?_, ?_, ?_⟩ <;> simp only [record, h1, h2]
        · intro u hu
          rcases ih.exists' u hu with h | h
          · by_cases hut : u = t
            · subst hut; exact .inr (hsync.done u hf)
            · exact .inl ((List.mem_erase_of_ne hut).2 h)
          · exact .inr h
        · intro u hu
          exact ih.waits u (List.mem_of_mem_erase hu)
        · intro u hu
          exact ⟨(ih.leaving u hu).1, (ih.leaving u hu).2.1, keep u hu⟩
      · have hmem : .finished t ∈ p.workers := by
          rw [h3, List.mem_iff_getElem?]
          refine ⟨i, ?_⟩
          rw [List.getElem?_set_self]
          exact (List.getElem?_eq_some_iff.1 hi).1
        have base : ∀ u ∈ s.leaving, u ∈ s.promised ∧ u ∈ p.completed ∧ .finished u ∈ p.workers :=
          fun u hu => ⟨(ih.leaving u hu).1, by rw [h2]; simp [(ih.leaving u hu).2.1], keep u hu⟩
        have ex : ∀ u ∈ s.promised, u ∈ p.syncs ∨ u ∈ p.completed := by
          intro u hu
          rw [h1, h2, List.mem_append]
          rcases ih.exists' u hu with h | h
          · exact .inl h
          · exact .inr (.inl h)
        simp only [record, hi]
        split
        · rename_i hpr
          refine ⟨ex, fun u hu => ih.waits u (h1 ▸ hu), ?_⟩
          intro u hu
          rcases List.mem_cons.1 hu with rfl | hu
          · exact ⟨hpr, by simp [h2], hmem⟩
          · exact base u hu
        · exact ⟨ex, fun u hu => ih.waits u (h1 ▸ hu), base⟩
      · have e1 : record s p e = { s with pool := p } := by
          unfold record
          split
          · exact absurd rfl (hne1 _ _)
          · exact absurd rfl (hne2 _)
          · rfl
        rw [e1]
        refine ⟨?_, ?_, ?_⟩
        · simpa only [h1, h2] using ih.exists'
        · simpa only [h1] using ih.waits
        · intro u hu
          exact ⟨(ih.leaving u hu).1, by simpa only [h2] using (ih.leaving u hu).2.1, keep u hu⟩

end Pluto.PoolLife
