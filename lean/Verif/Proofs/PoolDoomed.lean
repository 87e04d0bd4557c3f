import Verif.Proofs.PoolStuck

/-! # Destructors that never return, in general -/

namespace Pluto.PoolNest
open Pluto.Pool (Event Phase)

/-- With `join_all` a worker starts nothing once the destructor has begun. -/
theorem pass_join {s : Pool.State} (hst : s.stopping = true) (ha : s.onStop = .joinAll) (i : Nat) :
    Pool.workerPass s i = { s with workers := s.workers.set i .exited } := by
  unfold Pool.workerPass
  rw [if_neg (by simp [hst, ha]), if_neg (by simp [hst])]

/-- Nothing leaves the queue unless a worker starts it. -/
theorem queue_kept {s s' : Pool.State} {ev : Event} (hs : Pool.step s ev = some s') (hst : s.stopping = true)
    (hw : s.onStop = .joinAll ∨ ∀ i : Nat, s.workers[i]? ≠ some Phase.ready ∧ ∀ t, s.workers[i]? ≠ some (Phase.finished t)) {u : Nat}
    (hu : u ∈ s.queue.map (·.task)) : u ∈ s'.queue.map (·.task) := by
  have ins : ∀ e, u ∈ (Pool.insertEntry e s.queue).map (·.task) := by
    intro e
    obtain ⟨x, hx, rfl⟩ := List.mem_map.1 hu
    exact List.mem_map.2 ⟨x, Pool.mem_insertEntry.2 (.inr hx), rfl⟩
  have hs' := (Pool.step_cases hs).2
  cases hs' with
  | runAsync prio c hc => exact ins _
  | runSync prio c hc => exact ins _
  | runAt time prio c hc => rw [(Pool.runAt_workers s time prio).2.2.2.2.2.1]; exact hu
  | runAfter d prio c hc => rw [(Pool.runAt_workers s _ prio).2.2.2.2.2.1]; exact hu
  | workerReady i hi =>
    rcases hw with ha | hw
    · rw [pass_join hst ha]; exact hu
    · exact absurd hi (hw i).1
  | workerFinished i t hi =>
    rcases hw with ha | hw
    · rw [pass_join (s := { s with active := s.active - 1 }) hst ha]; exact hu
    · exact absurd hi ((hw i).2 t)
  | schedulerReady i hi => rw [(Pool.schedulerPass_fields s i).1]; exact hu
  | schedulerMoves i w e n ws hi he hw' => rw [(Pool.schedulerPass_fields _ i).1]; exact ins _
  | _ => exact hu

theorem stopping_kept {s s' : Pool.State} {ev : Event} (hs : Pool.step s ev = some s') (hst : s.stopping = true) :
    s'.stopping = true ∧ ((∀ c, ev ≠ .setOnStop .completeTasks c) → s.onStop = .joinAll → s'.onStop = .joinAll) := by
  have hs' := (Pool.step_cases hs).2
  have pass : ∀ a : Int, ∀ i, (Pool.workerPass { s with active := a } i).stopping = true ∧
      (Pool.workerPass { s with active := a } i).onStop = s.onStop := by
    intro a i
    unfold Pool.workerPass
    split
    · split <;> exact ⟨hst, rfl⟩
    · split <;> exact ⟨hst, rfl⟩
  cases hs' with
  | runAt time prio c hc =>
    obtain ⟨-, -, h1, h2, -⟩ := Pool.runAt_workers s time prio
    rw [h1, h2]; exact ⟨hst, fun _ h => h⟩
  | runAfter d prio c hc =>
    obtain ⟨-, -, h1, h2, -⟩ := Pool.runAt_workers s (s.now + d) prio
    rw [h1, h2]; exact ⟨hst, fun _ h => h⟩
  | setOnStop a c hc =>
    refine ⟨hst, fun h _ => ?_⟩
    cases a with
    | joinAll => rfl
    | completeTasks => exact absurd rfl (h c)
  | workerReady i hi =>
    have := pass s.active i
    exact ⟨this.1, fun _ h => this.2.trans h⟩
  | workerFinished i t hi =>
    have := pass (s.active - 1) i
    exact ⟨this.1, fun _ h => this.2.trans h⟩
  | schedulerReady i hi =>
    obtain ⟨-, h1, h2, -⟩ := Pool.schedulerPass_rest s i
    rw [h1, h2]; exact ⟨hst, fun _ h => h⟩
  | schedulerMoves i w e n ws hi he hw =>
    rw [(Pool.schedulerPass_rest _ i).2.1, (Pool.schedulerPass_rest _ i).2.2.1]; exact ⟨hst, fun _ h => h⟩
  | stop h => exact ⟨rfl, fun _ h => h⟩
  | _ => exact ⟨hst, fun _ h => h⟩

/-- A task waits for one in the queue as long as that is there. -/
theorem waits_kept {n : Nat} {s s' : State} {ev : Event} (hr : Reachable n s) (hs : step s ev = some s') {t u : Nat}
    (hx : (t, u) ∈ s.syncing) (hu : u ∈ s.pool.queue.map (·.task)) : (t, u) ∈ s'.syncing := by
  obtain ⟨-, p, hp, rfl⟩ := step_spec hs
  cases ev with
  | syncReturns v =>
    refine List.mem_filter.2 ⟨hx, ?_⟩
    have hp' := (Pool.step_cases hp).2
    cases hp' with
    | syncReturns _ hv hf =>
      simp only [bne_iff_ne, ne_eq]
      rintro rfl
      have hcm := (Pool.sync (pool_reachable hr)).done _ hf
      have h1 := (Pool.conserved (pool_reachable hr)).total u
      have h2 := List.count_pos_iff.2 hcm
      have h3 := List.count_pos_iff.2 hu
      split at h1 <;> omega
  | runSync prio c =>
    simp only [record]
    split
    · exact List.mem_cons_of_mem _ hx
    · exact hx
  | waitNone i => simp only [record]; split <;> exact hx
  | waitAll i => simp only [record]; split <;> exact hx
  | _ => exact hx

theorem join_run {n : Nat} {s s' : State} {evs : List Event} (hr : Reachable n s) (hst : s.pool.stopping = true)
    (ha : s.pool.onStop = .joinAll) {t u : Nat} (hx : (t, u) ∈ s.syncing) (hu : u ∈ s.pool.queue.map (·.task))
    (hev : ∀ c, .setOnStop .completeTasks c ∉ evs) (hs : run s evs = some s') :
    (t, u) ∈ s'.syncing ∧ u ∈ s'.pool.queue.map (·.task) := by
  induction evs generalizing s with
  | nil => simp only [run, Option.some.injEq] at hs; subst hs; exact ⟨hx, hu⟩
  | cons ev evs ih =>
    simp only [run] at hs
    cases hst1 : step s ev with
    | none => rw [hst1] at hs; cases hs
    | some s1 =>
      rw [hst1] at hs
      have h1 := stopping_kept (pool_step hst1) hst
      exact ih (.step ev hr hst1) h1.1 (h1.2 (fun c hc => hev c (hc ▸ List.mem_cons_self ..)) ha)
        (waits_kept hr hst1 hx hu) (queue_kept (pool_step hst1) hst (.inl ha) hu)
        (fun c hc => hev c (List.mem_cons_of_mem _ hc)) hs

/-- Every worker has ended or is occupied by a task that waits for one in the queue. -/
structure Doomed (s : State) : Prop where
  stopping : s.pool.stopping = true
  workers : ∀ p ∈ s.pool.workers, p = Phase.exited ∨ ∃ t u, p = Phase.running t ∧ (t, u) ∈ s.syncing ∧ u ∈ s.pool.queue.map (·.task)

theorem doomed_step {n : Nat} {s s' : State} {ev : Event} (hr : Reachable n s) (h : Doomed s) (hs : step s ev = some s') :
    Doomed s' := by
  have hp := pool_step hs
  have hh := (step_spec hs).1
  have hstage : s.pool.stage ≠ .alive := (Pool.live (pool_reachable hr)).stage.1 h.stopping
  have hphase : ∀ (i : Nat) (p : Phase), s.pool.workers[i]? = some p → p = Phase.exited ∨
      ∃ t u, p = Phase.running t ∧ (t, u) ∈ s.syncing ∧ u ∈ s.pool.queue.map (·.task) :=
    fun i p hi => h.workers p (List.mem_of_getElem? hi)
  have hheld : ∀ i t : Nat, s.pool.workers[i]? = some (Phase.running t) → actor s.pool ev ≠ some t := by
    intro i t hi ha
    rcases hphase i _ hi with e | ⟨t', u, e, hx, -⟩
    · cases e
    · cases e
      simp only [held, ha] at hh
      rw [inside_iff.2 (.inl ⟨u, hx⟩)] at hh
      cases hh
  have noCall : ∀ c, Pool.canCall s.pool c = true → actor s.pool ev = c.bind (taskOf s.pool) → False := by
    intro c hc ha
    obtain ⟨i, t, rfl, hi⟩ := Pool.canCall_some hc hstage
    exact hheld i t hi (by rw [ha]; simp [taskOf, hi])
  have noBlocked : ∀ i : Nat, s.pool.workers[i]? ≠ some Phase.blocked := by
    intro i hi
    rcases hphase i _ hi with e | ⟨t, u, e, -⟩ <;> cases e
  have hready : ∀ i : Nat, s.pool.workers[i]? ≠ some Phase.ready ∧ ∀ t, s.pool.workers[i]? ≠ some (Phase.finished t) := by
    refine fun i => ⟨fun hi => ?_, fun t hi => ?_⟩
    · rcases hphase i _ hi with e | ⟨t, u, e, -⟩ <;> cases e
    · rcases hphase i _ hi with e | ⟨t, u, e, -⟩ <;> cases e
  have woken : ∀ w ws, Pool.wakeOne w s.pool.workers = some ws → ws = s.pool.workers := by
    intro w ws hw
    rcases Pool.wakeOne_spec hw with ⟨rfl, _⟩ | ⟨i, hi, rfl⟩
    · rfl
    · exact absurd hi (noBlocked i)
  have wakeAll : s.pool.workers.map Pool.wakeWorker = s.pool.workers := by
    conv_rhs => rw [← List.map_id s.pool.workers]
    refine List.map_congr_left fun p hp => ?_
    rcases h.workers p hp with rfl | ⟨t, u, rfl, -⟩ <;> rfl
  have hwork : s'.pool.workers = s.pool.workers := by
    have hp' := (Pool.step_cases hp).2
    generalize s'.pool = q at hp'
    cases hp' with
    | runAsync prio c hc => exact (noCall c hc rfl).elim
    | runSync prio c hc => exact (noCall c hc rfl).elim
    | runAt time prio c hc => exact (noCall c hc rfl).elim
    | runAfter d prio c hc => exact (noCall c hc rfl).elim
    | grow n c hc => exact (noCall c hc rfl).elim
    | shrink n c hc => exact (noCall c hc rfl).elim
    | notifyOne w ws hp hw => exact woken w ws hw
    | notifyAll hp => exact wakeAll
    | spuriousWorker i hi => exact absurd hi (noBlocked i)
    | workerReady i hi => exact absurd hi (hready i).1
    | workerFinished i t hi => exact absurd hi ((hready i).2 t)
    | taskReturns i t hi => exact absurd (by simp [actor, taskOf, hi]) (hheld i t hi)
    | schedulerReady i hi => exact (Pool.schedulerPass_fields _ i).2.2.1
    | schedulerMoves i w e n ws hi he hw => rw [(Pool.schedulerPass_fields _ i).2.2.1]; exact woken w ws hw
    | stopNotifyWorkers h => exact wakeAll
    | _ => rfl
  refine ⟨(stopping_kept hp h.stopping).1, ?_⟩
  rw [hwork]
  intro p hpw
  rcases h.workers p hpw with e | ⟨t, u, e, hx, hu⟩
  · exact .inl e
  · exact .inr ⟨t, u, e, waits_kept hr hs hx hu, queue_kept hp h.stopping (.inr hready) hu⟩

theorem doomed_run {n : Nat} {s s' : State} {evs : List Event} (hr : Reachable n s) (h : Doomed s)
    (hs : run s evs = some s') : Doomed s' ∧ ∀ t u, (t, u) ∈ s.syncing → u ∈ s.pool.queue.map (·.task) →
      (t, u) ∈ s'.syncing ∧ u ∈ s'.pool.queue.map (·.task) := by
  induction evs generalizing s with
  | nil => simp only [run, Option.some.injEq] at hs; subst hs; exact ⟨h, fun _ _ h1 h2 => ⟨h1, h2⟩⟩
  | cons ev evs ih =>
    simp only [run] at hs
    cases hst : step s ev with
    | none => rw [hst] at hs; cases hs
    | some s1 =>
      rw [hst] at hs
      obtain ⟨h1, h2⟩ := ih (.step ev hr hst) (doomed_step hr h hst) hs
      refine ⟨h1, fun t u hx hu => h2 t u (waits_kept hr hst hx hu) ?_⟩
      refine queue_kept (pool_step hst) h.stopping (.inr fun i => ⟨fun hi => ?_, fun t hi => ?_⟩) hu
      · rcases h.workers _ (List.mem_of_getElem? hi) with e | ⟨t, u, e, -⟩ <;> cases e
      · rcases h.workers _ (List.mem_of_getElem? hi) with e | ⟨t, u, e, -⟩ <;> cases e

/-- If no task waits for one in the queue, none does later, as long as `run_sync` is not called. -/
theorem unqueued_run {n : Nat} {s s' : State} {evs : List Event} (hr : Reachable n s)
    (h : ∀ x ∈ s.syncing, x.2 ∉ s.pool.queue.map (·.task)) (hev : ∀ p c, .runSync p c ∉ evs) (hs : run s evs = some s') :
    ∀ x ∈ s'.syncing, x.2 ∉ s'.pool.queue.map (·.task) := by
  induction evs generalizing s with
  | nil => simp only [run, Option.some.injEq] at hs; subst hs; exact h
  | cons ev evs ih =>
    simp only [run] at hs
    cases hst : step s ev with
    | none => rw [hst] at hs; cases hs
    | some s1 =>
      rw [hst] at hs
      refine ih (.step ev hr hst) ?_ (fun p c hc => hev p c (List.mem_cons_of_mem _ hc)) hs
      intro x hx hq
      have hx' := syncing_step hst (fun p c hc => hev p c (hc ▸ List.mem_cons_self ..)) x hx
      exact h x hx' (awaited_queue (pool_reachable hr) (pool_step hst) ((nest hr).sync x hx').2.2 hq)

/-! ## Executions for every number of workers -/

/-- A task waits for another one when the destructor begins. -/
theorem join_exists (n : Nat) : ∃ s, Reachable (n + 1) s ∧ s.pool.stopping = true ∧ s.pool.onStop = .joinAll ∧
    (0, 1) ∈ s.syncing ∧ 1 ∈ s.pool.queue.map (·.task) := by
  have hr : run (init (n + 1)) [.runAsync 0 none, .worker 0, .runSync 0 (some 0), .stop] ≠ none := by
    simp [run, step, held, actor, taskOf, inside, record, init, Pool.init, Pool.step, Pool.canCall, Pool.enqueue,
      Pool.insertEntry, Pool.workerPass, List.replicate_succ]
  obtain ⟨s, hs⟩ := Option.ne_none_iff_exists'.1 hr
  refine ⟨s, reachable_run .init hs, ?_⟩
  simp [run, step, held, actor, taskOf, inside, record, init, Pool.init, Pool.step, Pool.canCall, Pool.enqueue,
      Pool.insertEntry, Pool.workerPass, List.replicate_succ] at hs
  subst hs
  simp

/-- The destructor has begun, one worker calls a task and `k` others have ended. -/
structure Leaving (n k : Nat) (s : State) : Prop where
  reach : Reachable (n + 1) s
  workers : s.pool.workers = .running 0 :: (List.replicate k .exited ++ List.replicate (n - k) .ready)
  queue : s.pool.queue = []
  stopping : s.pool.stopping = true
  action : s.pool.onStop = .completeTasks
  crash : s.pool.crash = none
  next : s.pool.nextTask = 1
  syncing : s.syncing = []
  noneCallers : s.noneCallers = []
  allCallers : s.allCallers = []

theorem leaving_init (n : Nat) : ∃ s, Leaving n 0 s := by
  have hr : run (init (n + 1)) [.setOnStop .completeTasks none, .runAsync 0 none, .worker 0, .stop] ≠ none := by
    simp [run, step, held, actor, record, init, Pool.init, Pool.step, Pool.canCall, Pool.enqueue,
      Pool.insertEntry, Pool.workerPass, List.replicate_succ]
  obtain ⟨s, hs⟩ := Option.ne_none_iff_exists'.1 hr
  have h := reachable_run .init hs
  refine ⟨s, ?_⟩
  simp [run, step, held, actor, record, init, Pool.init, Pool.step, Pool.canCall, Pool.enqueue,
      Pool.insertEntry, Pool.workerPass, List.replicate_succ] at hs
  subst hs
  constructor <;> first | exact h | simp

theorem leaving_step {n k : Nat} {s : State} (h : Leaving n k s) (hk : k < n) : ∃ s', Leaving n (k + 1) s' := by
  obtain ⟨m, hm⟩ : ∃ m, n - k = m + 1 := ⟨n - k - 1, by omega⟩
  have hws := h.workers
  rw [hm, List.replicate_succ] at hws
  have hget : s.pool.workers[k + 1]? = some .ready := by
    rw [hws, List.getElem?_cons_succ, List.getElem?_append_right (by simp)]
    simp
  have hp : step s (.worker (k + 1)) = some { s with pool := { s.pool with workers := s.pool.workers.set (k + 1) .exited } } := by
    simp [step, held, actor, Pool.step, h.crash, hget, record, Pool.workerPass, h.stopping, h.action, h.queue]
  refine ⟨_, .step _ h.reach hp, ?_, h.queue, h.stopping, h.action, h.crash, h.next, h.syncing, h.noneCallers, h.allCallers⟩
  simp only
  rw [hws, List.set_cons_succ]
  have := set_middle (List.replicate k Phase.exited) (List.replicate m .ready) .ready .exited
  rw [List.length_replicate] at this
  rw [this, show n - (k + 1) = m by omega, List.replicate_succ']
  simp

theorem leaving_all (n : Nat) : ∃ s, Leaving n n s := by
  have : ∀ k, k ≤ n → ∃ s, Leaving n k s := by
    intro k
    induction k with
    | zero => exact fun _ => leaving_init n
    | succ k ih =>
      intro hk
      obtain ⟨s, hs⟩ := ih (by omega)
      exact leaving_step hs (by omega)
  exact this n (Nat.le_refl _)

/-- All other workers have ended when a task calls `run_sync`. -/
theorem complete_exists (n : Nat) : ∃ s, Reachable (n + 1) s ∧ s.pool.onStop = .completeTasks ∧ Doomed s ∧
    (0, 1) ∈ s.syncing ∧ 1 ∈ s.pool.queue.map (·.task) := by
  obtain ⟨s, h⟩ := leaving_all n
  have hws := h.workers
  rw [Nat.sub_self, List.replicate_zero, List.append_nil] at hws
  let s1 : State := { s with
    syncing := [(0, 1)]
    pool := { s.pool with
      queue := [⟨0, 1, s.pool.nextSeq, true⟩]
      nextSeq := s.pool.nextSeq + 1
      nextTask := 2
      pendingOne := s.pool.pendingOne + 1
      syncs := 1 :: s.pool.syncs } }
  have hp : step s (.runSync 0 (some 0)) = some s1 := by
    simp [step, held, actor, taskOf, hws, inside, h.syncing, h.noneCallers, h.allCallers, Pool.step, h.crash, Pool.canCall,
      record, Pool.enqueue, Pool.insertEntry, h.queue, h.next, s1]
  refine ⟨s1, .step _ h.reach hp, h.action, ⟨h.stopping, ?_⟩, by simp [s1], by simp [s1]⟩
  simp only [s1, hws]
  intro p hpw
  rcases List.mem_cons.1 hpw with rfl | hpw
  · exact .inr ⟨0, 1, rfl, by simp, by simp⟩
  · exact .inl (List.eq_of_mem_replicate hpw)

end Pluto.PoolNest
