import Verif.Proofs.PoolProgress
import Mathlib.Data.List.Nodup

/-!
# Properties of `thread_pool` (C11-C22, C77-C79, C92)

`Reachable n s`: some execution of a pool created with `n` workers leads to the state `s`
(Model/Pool.lean); executions interleave any number of callers, tasks that call the pool,
workers and schedulers, deliver notifications late and wake threads spuriously.  The state
contains a history: the entries started, the tasks completed, in order.  `running`,
`Calm`, `Own`, …: Spec/Pool.lean.
-/

namespace Pluto.Props
open Pluto.Pool Pluto.Spec.Pool

theorem pool_reachable {n : Nat} {s : State} {evs : List Event} (h : run (init n) evs = some s) :
    Reachable n s := reachable_run .init h

/-! ## Order -/

/-- C11: the entry that a step starts is the first of the queue: every other entry has a
lower priority, or the same priority and was put into the queue later. -/
theorem C11_starts_first {n : Nat} {s s' : State} {ev : Event} {e : Entry} (h : Reachable n s)
    (hs : step s ev = some s') (he : s'.started = s.started ++ [e]) :
    e ∈ s.queue ∧ ∀ x ∈ s.queue, x ≠ e → x.prio < e.prio ∨ (x.prio = e.prio ∧ e.seq < x.seq) := by
  have no : ∀ {p : Prop}, s'.started = s.started → p := by
    intro p heq; rw [heq] at he; simp at he
  cases flow_step hs with
  | start e' hq hs hr hst hc hm hn hk =>
    rw [hst] at he
    simp only [List.append_cancel_left_eq, List.cons.injEq, and_true] at he
    subst he
    have := (ordered h).sorted
    rw [hq, List.pairwise_cons] at this
    rw [hq]
    refine ⟨List.mem_cons_self .., ?_⟩
    intro x hx hne
    rcases List.mem_cons.1 hx with rfl | hx
    · exact absurd rfl hne
    · exact this.1 x hx
  | same hq hs hr hst => exact no hst
  | submit prio fromTask hq hs hr hst => exact no hst
  | schedule time prio hq hs hr hst => exact no hst
  | move e' he' hq hs hr hst => exact no hst
  | complete t₀ hq hs hr hst => exact no hst

/-- C11: of two calls of `run_async` with the same priority, the task of the first is
started first, whatever happens before, between and after the calls. -/
theorem C11_submission_order {n : Nat} {s₀ s₁ s₂ s₃ s₄ : State} {prio : Int} {c₁ c₂ : Option Nat}
    {evs evs' : List Event} (h : Reachable n s₀) (h₁ : step s₀ (.runAsync prio c₁) = some s₁)
    (h₂ : run s₁ evs = some s₂) (h₃ : step s₂ (.runAsync prio c₂) = some s₃)
    (h₄ : run s₃ evs' = some s₄) :
    let t₁ := s₀.nextTask
    let t₂ := s₂.nextTask
    t₂ ∈ s₄.started.map (·.task) →
      ∃ a b c, s₄.started.map (·.task) = a ++ t₁ :: b ++ t₂ :: c := by
  intro t₁ t₂ ht
  -- the two entries
  have q₁ : (⟨prio, t₁, s₀.nextSeq, c₁.isSome⟩ : Entry) ∈ s₁.queue := by
    obtain ⟨-, h₁⟩ := step_cases h₁
    cases h₁
    simp only [enqueue]
    exact mem_insertEntry.2 (.inl rfl)
  have hk₁ : s₀.nextSeq < s₁.nextSeq := by
    obtain ⟨-, h₁⟩ := step_cases h₁
    cases h₁
    exact Nat.lt_succ_self _
  have q₂ : (⟨prio, t₂, s₂.nextSeq, c₂.isSome⟩ : Entry) ∈ s₃.queue := by
    obtain ⟨-, h₃⟩ := step_cases h₃
    cases h₃
    simp only [enqueue]
    exact mem_insertEntry.2 (.inl rfl)
  have r₁ : Reachable n s₁ := .step _ h h₁
  have r₂ := reachable_run r₁ h₂
  have r₃ : Reachable n s₃ := .step _ r₂ h₃
  have r₄ := reachable_run r₃ h₄
  have mono : ∀ {s s' : State} {evs : List Event}, run s evs = some s' → s.nextSeq ≤ s'.nextSeq := by
    intro s s' evs hr
    induction evs generalizing s with
    | nil => simp only [run, Option.some.injEq] at hr; subst hr; exact Nat.le_refl _
    | cons ev evs ih =>
      simp only [run] at hr
      cases hst : step s ev with
      | none => rw [hst] at hr; cases hr
      | some s1 =>
        rw [hst] at hr
        have := ih hr
        have : s.nextSeq ≤ s1.nextSeq := by cases flow_step hst <;> omega
        omega
  have hlt : s₀.nextSeq < s₂.nextSeq := Nat.lt_of_lt_of_le hk₁ (mono h₂)
  have k₁ := kept_run (kept_step (kept_run (.inl q₁) h₂) h₃) h₄
  have k₂ := kept_run (.inl q₂) h₄
  have hcons := conserved r₄
  have hord := ordered r₄
  -- the second has been started
  have m₂ : (⟨prio, t₂, s₂.nextSeq, c₂.isSome⟩ : Entry) ∈ s₄.started := by
    rcases k₂ with k₂ | k₂
    · exfalso
      have c1 : 0 < (s₄.queue.map (·.task)).count t₂ :=
        List.count_pos_iff.2 (List.mem_map.2 ⟨_, k₂, rfl⟩)
      have c2 : 0 < (s₄.started.map (·.task)).count t₂ := List.count_pos_iff.2 ht
      have c3 := hcons.started t₂
      have c4 := hcons.total t₂
      split at c4 <;> omega
    · exact k₂
  have m₁ : (⟨prio, t₁, s₀.nextSeq, c₁.isSome⟩ : Entry) ∈ s₄.started := by
    rcases k₁ with k₁ | k₁
    · have := hord.later _ m₂ _ k₁ rfl
      simp only at this
      omega
    · exact k₁
  obtain ⟨a, d, hsplit⟩ := List.append_of_mem m₁
  have hp := hord.startedSorted
  rw [hsplit] at hp m₂
  rw [List.pairwise_append, List.pairwise_cons] at hp
  obtain ⟨-, -, hp3⟩ := hp
  rcases List.mem_append.1 m₂ with m₂ | m₂
  · have := hp3 _ m₂ _ (List.mem_cons_self ..) rfl
    simp only at this
    omega
  · rcases List.mem_cons.1 m₂ with m₂ | m₂
    · simp only [Entry.mk.injEq] at m₂
      omega
    · obtain ⟨b, c, hd⟩ := List.append_of_mem m₂
      refine ⟨a.map (·.task), b.map (·.task), c.map (·.task), ?_⟩
      rw [hsplit, hd]
      simp

/-- C11: in every execution the entries of one priority are started in the order in which
they were put into the queue, whether by a call or by the scheduler. -/
theorem C11_fifo {n : Nat} {s : State} (h : Reachable n s) :
    s.started.Pairwise (fun a b => a.prio = b.prio → a.seq < b.seq) ∧
      (s.queue.map (·.seq) ++ s.started.map (·.seq)).Perm (List.range s.nextSeq) := by
  refine ⟨(ordered h).startedSorted, ?_⟩
  rw [List.perm_iff_count]
  intro k
  have := (conserved h).seqs k
  rw [List.count_append, this]
  split
  · rename_i hk
    exact (List.count_eq_one_of_mem List.nodup_range (List.mem_range.2 hk)).symm
  · rename_i hk
    exact (List.count_eq_zero_of_not_mem (fun hm => hk (List.mem_range.1 hm))).symm

/-- Task 1 has a higher priority than tasks 0 and 2, which have the same. -/
example : ∃ s, run (init 1) [.runAsync 0 none, .runAsync 5 none, .runAsync 0 none, .worker 0,
    .taskReturns 0, .worker 0, .taskReturns 0, .worker 0] = some s ∧
    s.started.map (·.task) = [1, 0, 2] := ⟨_, rfl, rfl⟩

/-! ## Conservation -/

private theorem count_running (s : State) (t : Nat) :
    (running s).count t = cnt (isRunning t) s.workers := by
  unfold running cnt
  induction s.workers with
  | nil => rfl
  | cons w ws ih =>
    rw [List.filterMap_cons, List.countP_cons]
    cases w <;> simp [ih]
    rw [List.count_cons]
    simp [ih]

/-- C12: the tasks submitted so far (numbered from 0) are exactly those that are
scheduled, waiting, running and completed, each once. -/
theorem C12_conserved {n : Nat} {s : State} (h : Reachable n s) :
    (s.scheduled.map (·.task) ++ s.queue.map (·.task) ++ running s ++ s.completed).Perm
      (List.range s.nextTask) := by
  rw [List.perm_iff_count]
  intro t
  have := (conserved h).total t
  rw [List.count_append, List.count_append, List.count_append, count_running, this]
  split
  · rename_i hk
    exact (List.count_eq_one_of_mem List.nodup_range (List.mem_range.2 hk)).symm
  · rename_i hk
    exact (List.count_eq_zero_of_not_mem (fun hm => hk (List.mem_range.1 hm))).symm

/-- C12: a task is started at most once, only after it was submitted, and the tasks
started are exactly those running and completed. -/
theorem C12_started_once {n : Nat} {s : State} (h : Reachable n s) :
    (s.started.map (·.task)).Nodup ∧ (∀ e ∈ s.started, e.task < s.nextTask) ∧
      (s.started.map (·.task)).Perm (running s ++ s.completed) := by
  have hc := conserved h
  refine ⟨?_, ?_, ?_⟩
  · rw [List.nodup_iff_count_le_one]
    intro t
    have h1 := hc.started t
    have h2 := hc.total t
    split at h2 <;> omega
  · intro e he
    have h1 := hc.started e.task
    have h2 := hc.total e.task
    have h3 : 0 < (s.started.map (·.task)).count e.task :=
      List.count_pos_iff.2 (List.mem_map_of_mem he)
    by_contra hn
    rw [if_neg hn] at h2
    omega
  · rw [List.perm_iff_count]
    intro t
    rw [List.count_append, count_running, hc.started t]

/-- C12: what a call submits is waiting, or scheduled, when the call has released the
mutex. -/
theorem C12_submitted {s s' : State} {prio x : Int} {c : Option Nat} :
    (step s (.runAsync prio c) = some s' ∨ step s (.runSync prio c) = some s' →
      s'.nextTask = s.nextTask + 1 ∧ ∃ e ∈ s'.queue, e.task = s.nextTask ∧ e.prio = prio) ∧
    (step s (.runAt x prio c) = some s' →
      s'.nextTask = s.nextTask + 1 ∧ (⟨x, prio, s.nextTask⟩ : Timed) ∈ s'.scheduled) ∧
    (step s (.runAfter x prio c) = some s' →
      s'.nextTask = s.nextTask + 1 ∧ (⟨s.now + x, prio, s.nextTask⟩ : Timed) ∈ s'.scheduled) := by
  have at' : ∀ time : Int, (runAt s time prio).nextTask = s.nextTask + 1 ∧
      (⟨time, prio, s.nextTask⟩ : Timed) ∈ (runAt s time prio).scheduled := by
    intro time
    unfold runAt
    simp only
    split
    · exact ⟨rfl, mem_insertTimed.2 (.inl rfl)⟩
    · split <;> exact ⟨rfl, mem_insertTimed.2 (.inl rfl)⟩
  refine ⟨?_, ?_, ?_⟩
  · rintro (h | h) <;> obtain ⟨-, h⟩ := step_cases h <;> cases h <;>
      exact ⟨rfl, _, mem_insertEntry.2 (.inl rfl), rfl, rfl⟩
  · intro h
    obtain ⟨-, h⟩ := step_cases h
    cases h
    exact at' x
  · intro h
    obtain ⟨-, h⟩ := step_cases h
    cases h
    exact at' _

/-- A state with a scheduled, a waiting, a running and a completed task. -/
example : ∃ s, run (init 1) [.runAsync 0 none, .runAsync 0 none, .runAsync 0 none, .runAt 9 0 none,
    .worker 0, .taskReturns 0, .worker 0] = some s ∧ s.scheduled.map (·.task) = [3] ∧
    s.queue.map (·.task) = [2] ∧ running s = [1] ∧ s.completed = [0] :=
  ⟨_, rfl, rfl, rfl, rfl, rfl⟩

/-! ## Counters -/

private theorem busy_cnt (s : State) : busy s = cnt isActive s.workers := by
  unfold busy cnt
  rw [List.countP_eq_length_filter]
  congr 2

/-- C13: the getters; numbers of threads and tasks below 2⁶⁴. -/
theorem C13_counters {n : Nat} {s : State} (h : Reachable n s)
    (hsize : s.workers.length + s.queue.length < 2 ^ 64) :
    activeWorkersSize s = busy s ∧ busy s ≤ workersSize s ∧
      waitingWorkersSize s = workersSize s - busy s ∧
      tasksSize s = waitingTasksSize s + activeWorkersSize s ∧
      waitingTasksSize s = s.queue.length ∧ scheduledTasksSize s = s.scheduled.length := by
  have ha := (live h).active
  have hb := busy_cnt s
  have tot := cnt_total s.workers
  unfold activeWorkersSize waitingWorkersSize tasksSize waitingTasksSize scheduledTasksSize
    workersSize size
  rw [ha, ← hb]
  refine ⟨by omega, by omega, by omega, by omega, rfl, rfl⟩

/-- C13: a busy worker is running a task or has just finished one; at a moment when no
worker is between the end of a task and the update of the counter, `active_tasks_size` is
the number of tasks that have begun and not ended. -/
theorem C13_active {n : Nat} {s : State} (h : Reachable n s)
    (hf : ∀ t, .finished t ∉ s.workers) :
    s.active = (running s).length ∧ (running s).length + s.completed.length = s.started.length := by
  have hb := busy_cnt s
  have ha := (live h).active
  have hr : (running s).length = busy s := by
    unfold running busy
    induction hws : s.workers with
    | nil => rfl
    | cons w ws ih =>
      clear ih
      rw [← hws]
      generalize s.workers = l at hf
      clear hws
      induction l with
      | nil => rfl
      | cons w ws ih =>
        have ih := ih (fun t ht => hf t (List.mem_cons_of_mem _ ht))
        rw [List.filterMap_cons, List.filter_cons]
        cases w with
        | finished t => exact absurd (List.mem_cons_self ..) (hf t)
        | _ => simp [ih]
  have hl := ((C12_started_once h).2.2).length_eq
  simp only [List.length_map, List.length_append] at hl
  exact ⟨by rw [ha, hr, hb], by omega⟩

example : ∃ s, run (init 2) [.runAsync 0 none, .runAsync 0 none, .runAsync 0 none, .worker 0,
    .worker 1, .taskReturns 1] = some s ∧ activeWorkersSize s = 2 ∧ waitingWorkersSize s = 0 ∧
    tasksSize s = 3 ∧ running s = [0] := ⟨_, rfl, rfl, rfl, rfl, rfl⟩

/-! ## Wake-ups -/

/-- C14: no waiting task is stranded. -/
theorem C14_not_stranded {n : Nat} {s : State} (h : Reachable n s) (hq : s.queue ≠ [])
    (hs : s.stopping = false) (ht : 0 < s.target) :
    0 < awake s ∨ 0 < s.pendingOne ∨ 0 < s.pendingAll := by
  have hl := live h
  have tot := cnt_total s.workers
  have := hl.low
  have := hl.noExit hs
  have hw := hl.wake hs
  have hq : 0 < s.queue.length := List.length_pos_iff.2 hq
  have ha : awake s = cnt isReady s.workers + cnt isActive s.workers := by
    unfold awake cnt
    generalize s.workers = l
    induction l with
    | nil => rfl
    | cons w ws ih =>
      rw [List.filter_cons, List.countP_cons, List.countP_cons]
      cases w <;> simp [ih] <;> omega
  omega

/-- C14, stronger: as long as workers sleep, every waiting task has a worker about to look
for it or a notification on its way. -/
theorem C14_enough_wakeups {n : Nat} {s : State} (h : Reachable n s) (hs : s.stopping = false)
    (hb : .blocked ∈ s.workers) :
    0 < s.pendingAll ∨ s.queue.length ≤ s.pendingOne + s.workers.count .ready := by
  have hw := (live h).wake hs
  obtain ⟨i, hi⟩ := List.mem_iff_getElem?.1 hb
  have := cnt_pos (p := isBlocked) hi rfl
  have hc : s.workers.count .ready = cnt isReady s.workers := by
    unfold cnt List.count
    apply List.countP_congr
    intro p _
    cases p <;> simp
  omega

/-- Two tasks, both workers asleep: the two notifications are on their way. -/
example : ∃ s, run (init 2) [.worker 0, .worker 1, .runAsync 0 none, .runAsync 0 none] = some s ∧
    s.workers = [.blocked, .blocked] ∧ s.queue.length = 2 ∧ s.pendingOne = 2 :=
  ⟨_, rfl, rfl, rfl, rfl⟩

/-- C15: `wait_until_no_tasks_waiting` returns only when nothing is waiting, and then no
caller is asleep. -/
theorem C15_wait_none {n : Nat} {s : State} (h : Reachable n s) :
    (∀ i s', step s (.waitNone i) = some s' → s'.waitNone.length < s.waitNone.length →
      s.queue = []) ∧
    (s.queue = [] → .blocked ∉ s.waitNone) := by
  refine ⟨?_, fun hq hb => (live h).waitNone hb hq⟩
  intro i s' hs hlt
  obtain ⟨-, hs⟩ := step_cases hs
  cases hs with
  | waitNoneBlocks i hi hq => simp at hlt
  | waitNoneReturns i hi hq => exact hq

/-- A caller that was asleep is woken when the last waiting task is started, and returns. -/
example : ∃ s, run (init 1) [.runAsync 0 none, .callWaitNone none, .waitNone 0, .worker 0] = some s ∧
    s.waitNone = [.checking] ∧ (step s (.waitNone 0)).map (·.waitNone) = some [] :=
  ⟨_, rfl, rfl, rfl⟩

/-- C16: `wait_until_all_tasks_complete` returns only when no task is waiting or running. -/
theorem C16_wait_all_safe {n : Nat} {s s' : State} {i : Nat} (h : Reachable n s)
    (hs : step s (.waitAll i) = some s') (hlt : s'.waitAll.length < s.waitAll.length) :
    s.queue = [] ∧ busy s = 0 ∧ running s = [] := by
  obtain ⟨-, hs⟩ := step_cases hs
  cases hs with
  | waitAllBlocks i hi hq => simp at hlt
  | waitAllReturns i hi hq =>
    have hb : busy s = 0 := by
      have := (live h).active
      rw [busy_cnt]
      omega
    refine ⟨hq.1, hb, ?_⟩
    rw [List.eq_nil_iff_forall_not_mem]
    intro t ht
    have h1 : 0 < cnt (isRunning t) s.workers := by
      rw [← count_running]; exact List.count_pos_iff.2 ht
    rw [busy_cnt] at hb
    unfold cnt at h1 hb
    rw [List.countP_pos_iff] at h1
    rw [List.countP_eq_zero] at hb
    obtain ⟨p, hp, hpr⟩ := h1
    refine hb p hp ?_
    cases p <;> simp_all

/-- C16: so when it returns, every task submitted so far has returned, except those that are still scheduled for
later. -/
theorem C16_everything_done {n : Nat} {s s' : State} {i : Nat} (h : Reachable n s)
    (hs : step s (.waitAll i) = some s') (hlt : s'.waitAll.length < s.waitAll.length) :
    (s.scheduled.map (·.task) ++ s.completed).Perm (List.range s.nextTask) := by
  obtain ⟨h1, -, h3⟩ := C16_wait_all_safe h hs hlt
  have := C12_conserved h
  rw [h1, h3] at this
  simpa using this

/-- C16, second half, if the target is positive: when all tasks are complete and a caller
is asleep, a worker is about to notice or is about to be woken. Missing: target 0. -/
theorem C16_wait_all_woken_partial {n : Nat} {s : State} (h : Reachable n s) (hq : s.queue = [])
    (ha : s.active = 0) (hs : s.stopping = false) (ht : 0 < s.target) (hb : .blocked ∈ s.waitAll) :
    .ready ∈ s.workers ∨ 0 < s.pendingAll := by
  rcases (live h).waitAll hb hs ht with h | h | h | h
  · exact absurd hq h
  · exact absurd ha h
  · left
    unfold cnt at h
    rw [List.countP_pos_iff] at h
    obtain ⟨p, hp, hr⟩ := h
    cases p <;> simp at hr
    exact hp
  · exact .inr h

/-- C16: the second half fails when the target is set to 0 while a task runs: all tasks
are complete, nothing more happens in the pool, and the caller sleeps forever. -/
theorem C16_fails_target_zero : ∃ s, Reachable 1 s ∧ s.queue = [] ∧ s.active = 0 ∧
    s.waitAll = [.blocked] ∧ s.crash = none ∧ ∀ ev, Own ev = true → step s ev = none := by
  refine ⟨_, pool_reachable (n := 1) (evs := [.runAsync 0 none, .notifyOne none, .worker 0,
    .callWaitAll none, .waitAll 0, .setTarget 0 none, .notifyAll, .taskReturns 0, .worker 0]) rfl,
    rfl, rfl, rfl, rfl, ?_⟩
  intro ev ho
  cases ev <;> first | rfl | cases ho

example : ∃ s, run (init 1) [.runAsync 0 none, .notifyOne none, .worker 0,
    .callWaitAll none, .waitAll 0, .taskReturns 0, .worker 0] = some s ∧
    s.waitAll = [.checking] ∧ (step s (.waitAll 0)).map (·.waitAll) = some [] :=
  ⟨_, rfl, rfl, rfl⟩

/-- C16: a caller that sleeps while the target is 0 is not woken before the target is raised, whatever else happens,
except spuriously; also when all tasks are complete. -/
theorem C16_never_woken {s s' : State} {evs : List Event} (ht : s.target = 0) (hr : run s evs = some s')
    (hz : ∀ n c, .setTarget n c ∈ evs → n = 0) (hsp : ∀ i, .spuriousAll i ∉ evs) :
    s'.target = 0 ∧ s.waitAll.count .blocked ≤ s'.waitAll.count .blocked := by
  induction evs generalizing s with
  | nil => cases hr; exact ⟨ht, Nat.le_refl _⟩
  | cons ev evs ih =>
    cases h1 : step s ev with
    | none => simp [run, h1] at hr
    | some s₁ =>
      simp only [run, h1] at hr
      obtain ⟨h2, h3⟩ := asleep_step ht h1 (fun n c e => hz n c (by simp [e])) (fun i e => hsp i (by simp [e]))
      obtain ⟨h4, h5⟩ := ih h2 hr (fun n c h => hz n c (List.mem_cons_of_mem _ h))
        (fun i h => hsp i (List.mem_cons_of_mem _ h))
      exact ⟨h4, Nat.le_trans h3 h5⟩

example : ∃ s s' evs, run (init 1) [.runAsync 0 none, .notifyOne none, .worker 0, .callWaitAll none, .waitAll 0,
      .setTarget 0 none] = some s ∧ s.target = 0 ∧ s.waitAll = [.blocked] ∧ evs.length = 6 ∧
    run s evs = some s' ∧ s'.completed = [0] ∧ s'.stage = .destroyed ∧ s'.waitAll = [.blocked] :=
  ⟨_, _, [.taskReturns 0, .worker 0, .stop, .stopNotifyWorkers, .stopNotifyScheduler, .stopReturns],
    rfl, rfl, rfl, rfl, rfl, rfl, rfl, rfl⟩

/-! ## Scheduled tasks -/

/-- C17: a task is moved from the schedule to the queue at most once, and only after the
clock has shown its time (or a later one). -/
theorem C17_once_not_early {n : Nat} {s : State} (h : Reachable n s) :
    (s.moved.map (·.task)).Nodup ∧ ∀ e ∈ s.moved, e.time ≤ s.maxNow := by
  refine ⟨?_, (sched h).movedDue⟩
  rw [List.nodup_iff_count_le_one]
  intro t
  have := (moved h).once t
  omega

/-- C17: order. The scheduler moves the task that is due first, ties in submission order,
among the tasks that had been submitted when the scheduler began to wait. Missing: tasks
submitted in the meantime, see `C17_fails_late_submission`. -/
theorem C17_order_partial {n : Nat} {s s' : State} {ev : Event} {e : Timed} (h : Reachable n s)
    (hs : step s ev = some s') (he : s'.moved = s.moved ++ [e]) :
    e ∈ s.scheduled ∧ ∃ (i k : Nat), s.schedulers[i]? = some (SPhase.timedOut e k) ∧
      ∀ x ∈ s.scheduled, x.task < k → x ≠ e →
        e.time < x.time ∨ (e.time = x.time ∧ e.task < x.task) := by
  have no : ∀ {p : Prop}, s'.moved = s.moved → p := by
    intro p heq; rw [heq] at he; simp at he
  obtain ⟨-, hs⟩ := step_cases hs
  cases hs with
  | runAt time prio caller hc =>
    refine no ?_; unfold runAt; simp only; split
    · rfl
    · split <;> rfl
  | runAfter time prio caller hc =>
    refine no ?_; unfold runAt; simp only; split
    · rfl
    · split <;> rfl
  | workerReady i hi =>
    refine no ?_; unfold workerPass; split
    · split <;> rfl
    · split <;> rfl
  | workerFinished i t hi =>
    refine no ?_; unfold workerPass; split
    · split <;> rfl
    · split <;> rfl
  | schedulerReady i hi => exact no (schedulerPass_fields s i).2.2.2.2.2.1
  | schedulerMoves i woken e' k ws hi he' hw =>
    rw [(schedulerPass_fields _ i).2.2.2.2.2.1] at he
    simp only [List.append_cancel_left_eq, List.cons.injEq, and_true] at he
    subst he
    refine ⟨he', i, k, hi, ?_⟩
    intro x hx hlt hne
    rcases ((sched h).timedFirst _ _ (List.mem_of_getElem? hi)).2 x hx hlt with h | h
    · exact absurd h hne
    · exact h
  | _ => exact no rfl

/-- C17: the schedule itself is always in order of time, ties in submission order. -/
theorem C17_schedule_sorted {n : Nat} {s : State} (h : Reachable n s) :
    s.scheduled.Pairwise fun a b => a.time < b.time ∨ (a.time = b.time ∧ a.task < b.task) :=
  (sched h).sorted

/-- C17: order fails for a task submitted while the scheduler is about to move another
one: task 0 (time 10) is moved although task 1 (time 5) is scheduled. -/
theorem C17_fails_late_submission : ∃ s s' ev, Reachable 1 s ∧ step s ev = some s' ∧
    s.scheduled = [⟨5, 0, 1⟩, ⟨10, 0, 0⟩] ∧ s'.moved = [⟨10, 0, 0⟩] ∧ s'.scheduled = [⟨5, 0, 1⟩] :=
  ⟨_, _, .scheduler 0 none, pool_reachable (n := 1) (evs := [.runAt 10 0 none, .createScheduler,
    .assignScheduler 0, .scheduler 0 none, .clock 10, .runAt 5 0 none, .schedulerTimeout 0]) rfl,
    rfl, rfl, rfl, rfl⟩

/-- Two scheduled tasks are moved in order of time. -/
example : ∃ s, run (init 1) [.runAt 10 0 none, .createScheduler, .assignScheduler 0,
    .scheduler 0 none, .runAt 5 0 none, .notifyScheduler (some 0), .scheduler 0 none, .clock 5,
    .schedulerTimeout 0, .scheduler 0 none, .clock 11, .schedulerTimeout 0, .scheduler 0 none] = some s ∧
    s.moved.map (·.task) = [1, 0] ∧ s.scheduler = none := ⟨_, rfl, rfl, rfl⟩

/-- C18, for calm executions: calls of `run_at` do not overlap while one of them creates
the scheduler thread, and that thread is stored before a wait of it can time out. Then
only a throwing task can terminate the program. Missing: executions that are not calm. -/
theorem C18_safe_partial {n : Nat} {s : State} (h : CalmReachable n s) :
    s.crash = none ∨ s.crash = some .taskThrew := (calm h).crash

/-- C18 fails: two concurrent calls of `run_at` both create a scheduler thread, and the
second assignment terminates the program. -/
theorem C18_fails_two_callers : ∃ s, Reachable 1 s ∧ s.crash = some .assignedTwice :=
  ⟨_, pool_reachable (n := 1) (evs := [.runAt 10 0 none, .runAt 20 0 none, .createScheduler,
    .createScheduler, .assignScheduler 0, .assignScheduler 1]) rfl, rfl⟩

/-- C18 fails for a single call with a time in the past: the new thread moves the task,
finds nothing else to do and detaches itself before the caller has stored it. -/
theorem C18_fails_single_caller : ∃ s, Reachable 1 s ∧ s.crash = some .detachedUnassigned :=
  ⟨_, pool_reachable (n := 1) (evs := [.clock 10, .runAt 5 0 none, .createScheduler,
    .scheduler 0 none, .schedulerTimeout 0, .scheduler 0 none]) rfl, rfl⟩

/-- C18 fails: two scheduler threads use the iterator of the same element. -/
theorem C18_fails_two_schedulers : ∃ s, Reachable 1 s ∧ s.crash = some .danglingIterator :=
  ⟨_, pool_reachable (n := 1) (evs := [.runAt 10 0 none, .runAt 20 0 none, .createScheduler,
    .createScheduler, .scheduler 0 none, .scheduler 1 none, .clock 10, .schedulerTimeout 0,
    .schedulerTimeout 1, .scheduler 0 none, .scheduler 1 none]) rfl, rfl⟩

/-- A calm execution in which a scheduler thread is created, used, ends, and another one
is created. -/
example : ∃ s, CalmReachable 1 s ∧ s.schedulers = [.exited, .ready] ∧ s.moved.length = 1 := by
  refine ⟨_, .step .createScheduler (.step (.runAt 9 0 none) (.step (.scheduler 0 none)
    (.step (.schedulerTimeout 0) (.step (.clock 5) (.step (.scheduler 0 none)
    (.step (.assignScheduler 0) (.step .createScheduler (.step (.runAt 5 0 none) .init
    ⟨rfl, rfl⟩ rfl) trivial rfl) trivial rfl) trivial rfl) trivial rfl) rfl rfl) trivial rfl)
    ⟨rfl, rfl⟩ rfl) trivial rfl, rfl, rfl⟩

/-- C77: in calm executions a scheduled task is never forgotten: as long as the pool is
not stopping there is exactly one scheduler thread that has not ended, or one is about to
be created; and if it sleeps until a time after that of some scheduled task, a
notification is on its way. -/
theorem C77_scheduler_attends {n : Nat} {s : State} (h : CalmReachable n s)
    (hs : s.stopping = false) (hq : s.scheduled ≠ []) :
    (0 < s.creating ∨ ∃ (i : Nat) (p : SPhase), s.schedulers[i]? = some p ∧ p ≠ SPhase.exited ∧
      ∀ (j : Nat) (q : SPhase), s.schedulers[j]? = some q → q ≠ SPhase.exited → j = i) ∧
    ∀ e k, .waiting e k ∈ s.schedulers →
      (e ∈ s.scheduled ∧ ∀ x ∈ s.scheduled, e.time ≤ x.time) ∨ 0 < s.pendingSched := by
  have hc := calm h
  refine ⟨?_, ?_⟩
  · have key : ∀ i, s.scheduler = some i ∨ s.assigning = [i] → ∃ (i : Nat) (p : SPhase), s.schedulers[i]? = some p ∧
        p ≠ SPhase.exited ∧ ∀ (j : Nat) (q : SPhase), s.schedulers[j]? = some q → q ≠ SPhase.exited → j = i := by
      intro i hi
      obtain ⟨p, hp, hpe⟩ := hc.alive hs i hi
      exact ⟨i, p, hp, hpe, fun j q hj hq => hc.unique hj hp hq hpe⟩
    rcases hc.tended hs hq with h | h | h
    · obtain ⟨i, hi⟩ := Option.isSome_iff_exists.1 h
      exact .inr (key i (.inl hi))
    · exact .inl h
    · have h1 := hc.one
      have h2 := List.length_pos_iff.2 h
      obtain ⟨i, hi⟩ := List.length_eq_one_iff.1 (show s.assigning.length = 1 by omega)
      exact .inr (key i (.inr hi))
  · intro e k hm
    rcases hc.prompt e k hm with h | h
    · exact .inl ⟨hc.present e k (.inl hm), h⟩
    · exact .inr h

/-! ## Destruction -/

/-- C19, if the pool has a worker and not more workers than the target: all tasks waiting
when the destructor is called, and all tasks that tasks submit later, are completed when
it returns, provided no task changes the action. Missing: more workers than the target or
no workers, see the two theorems below. -/
theorem C19_completes_partial {n : Nat} {s₀ s₁ s₂ : State} {evs : List Event}
    (h : Reachable n s₀) (ha : s₀.onStop = .completeTasks) (hw : s₀.workers ≠ [])
    (ht : s₀.workers.length ≤ s₀.target) (h₁ : step s₀ .stop = some s₁)
    (h₂ : run s₁ evs = some s₂) (hev : ∀ c, .setOnStop .joinAll c ∉ evs)
    (hd : s₂.stage = .destroyed) :
    (∀ e ∈ s₀.queue, e.task ∈ s₂.completed) ∧ (∀ e ∈ s₂.queue, e.fromTask = false) ∧
      ∀ e ∈ s₂.started, e.task ∈ s₂.completed := by
  have r₁ : Reachable n s₁ := .step _ h h₁
  have r₂ := reachable_run r₁ h₂
  have hc : Completing s₀.nextSeq s₁ := by
    have hne := (live h).noExit
    obtain ⟨-, h₁⟩ := step_cases h₁
    cases h₁ with
    | stop hst =>
      refine ⟨rfl, ha, ht, rfl, Nat.le_refl _, fun _ => ?_⟩
      have hns : s₀.stopping = false := by
        cases hs : s₀.stopping with
        | false => rfl
        | true => exact absurd hst ((live h).stage.1 hs)
      have := hne hns
      have := List.length_pos_iff.2 hw
      simp only
      omega
  have hc₂ := completing_run hc r₁ hev h₂
  have hex := ended r₂ hd
  have hno : ¬ ∃ e ∈ s₂.queue, e.seq < s₀.nextSeq ∨ e.fromTask = true := by
    intro hx
    have h1 := hc₂.worker hx
    have tot := cnt_total s₂.workers
    have : cnt isExited s₂.workers = s₂.workers.length := by
      unfold cnt
      rw [List.countP_eq_length]
      intro p hp
      rw [hex p hp]; rfl
    omega
  have hrun : ∀ p ∈ s₂.workers, ∀ t, p ≠ .running t := by
    intro p hp t hpt
    have := hex p hp
    rw [hpt] at this; cases this
  have hst : ∀ e ∈ s₂.started, e.task ∈ s₂.completed :=
    fun e he => started_completed (conserved r₂) hrun he
  refine ⟨?_, ?_, hst⟩
  · intro e he
    have hseq := (ordered h).seqQueue e he
    have q₁ : e ∈ s₁.queue ∨ e ∈ s₁.started := kept_step (.inl he) h₁
    rcases kept_run q₁ h₂ with hq | hq
    · exact absurd ⟨e, hq, .inl hseq⟩ hno
    · exact hst e hq
  · intro e he
    cases hf : e.fromTask with
    | false => rfl
    | true => exact absurd ⟨e, he, .inr hf⟩ hno

/-- C19 fails whenever there are no workers or more workers than the target when the destructor is called: no task is
started any more, whatever the action.  With `C19_completes_partial` this says exactly when waiting tasks are completed. -/
theorem C19_fails_always {s₀ s₁ s₂ : State} {evs : List Event} (hw : s₀.workers = [] ∨ s₀.target < s₀.workers.length)
    (h₁ : step s₀ .stop = some s₁) (h₂ : run s₁ evs = some s₂) : s₂.started = s₀.started := by
  obtain ⟨-, h₁⟩ := step_cases h₁
  cases h₁ with
  | stop hst => exact (leaving_run ⟨rfl, by simpa using hw, rfl⟩ h₂).started

/-- C19 fails when the target was lowered and a superfluous worker has not left yet: all
workers leave, the waiting task is never run. -/
theorem C19_fails_lowered_target : ∃ s s', Reachable 2 s ∧ s.onStop = .completeTasks ∧
    s.queue.map (·.task) = [0] ∧ 0 < s.target ∧ s.stage = .alive ∧ s.pendingOne = 0 ∧ s.pendingAll = 0 ∧
    run s [.stop, .stopNotifyWorkers, .stopNotifyScheduler, .worker 0, .worker 1, .stopReturns] = some s' ∧
    s'.stage = .destroyed ∧ s'.completed = [] ∧ s'.queue.map (·.task) = [0] :=
  ⟨_, _, pool_reachable (n := 2) (evs := [.setOnStop .completeTasks none, .worker 0, .worker 1,
    .setTarget 1 none, .notifyAll, .runAsync 0 none, .notifyOne none]) rfl, rfl, rfl, Nat.one_pos, rfl, rfl, rfl, rfl,
    rfl, rfl, rfl⟩

/-- C19 fails without workers. -/
theorem C19_fails_no_workers : ∃ s s', Reachable 0 s ∧ s.onStop = .completeTasks ∧
    s.queue.map (·.task) = [0] ∧ s.pendingOne = 0 ∧
    run s [.stop, .stopNotifyWorkers, .stopNotifyScheduler, .stopReturns] = some s' ∧
    s'.stage = .destroyed ∧ s'.completed = [] :=
  ⟨_, _, pool_reachable (n := 0) (evs := [.setOnStop .completeTasks none, .runAsync 0 none, .notifyOne none]) rfl,
    rfl, rfl, rfl, rfl, rfl, rfl⟩

/-- One worker completes two waiting tasks and a task that the second submits. -/
example : ∃ s s', run (init 1) [.setOnStop .completeTasks none, .runAsync 0 none,
    .runAsync 0 none] = some s ∧ s.workers.length ≤ s.target ∧
    run s [.stop, .worker 0, .stopNotifyWorkers, .taskReturns 0, .worker 0, .runAsync 3 (some 0),
      .stopNotifyScheduler, .taskReturns 0, .worker 0, .taskReturns 0, .worker 0, .stopReturns] = some s' ∧
    s'.stage = .destroyed ∧ s'.completed = [0, 1, 2] :=
  ⟨_, _, rfl, by decide, rfl, rfl, rfl⟩

/-- C20: after the destructor has set the flag, no task starts unless the action is
`complete_tasks`. -/
theorem C20_no_start {n : Nat} {s s' : State} {ev : Event} (_ : Reachable n s)
    (hs : step s ev = some s') (hstop : s.stopping = true) (ha : s.onStop = .joinAll) :
    s'.started = s.started := by
  cases flow_step hs with
  | start e hq hs hr hst hc hm hn hk hsize hst' =>
    rcases hst' with h | h
    · rw [h] at hstop; cases hstop
    · rw [h] at ha; cases ha
  | same hq hs hr hst => exact hst
  | submit prio fromTask hq hs hr hst => exact hst
  | schedule time prio hq hs hr hst => exact hst
  | move e' he' hq hs hr hst => exact hst
  | complete t₀ hq hs hr hst => exact hst

/-- C20: when the destructor has returned, every worker has ended and every task that was
started has returned. -/
theorem C20_joined {n : Nat} {s : State} (h : Reachable n s) (hd : s.stage = .destroyed) :
    (∀ p ∈ s.workers, p = .exited) ∧ running s = [] ∧
      (s.started.map (·.task)).Perm s.completed := by
  have hex := ended h hd
  have hrun : running s = [] := by
    unfold running
    rw [List.filterMap_eq_nil_iff]
    intro p hp
    rw [hex p hp]
  refine ⟨hex, hrun, ?_⟩
  have := (C12_started_once h).2.2
  rwa [hrun, List.nil_append] at this

/-- C20: in calm executions, when the destructor returns, every scheduler thread that was
ever created has ended, if no call of `run_at` has still to store one. -/
theorem C20_scheduler_joined {n : Nat} {s s' : State} (h : CalmReachable n s)
    (hs : step s .stopReturns = some s') (ha : s.assigning = []) :
    ∀ p ∈ s'.schedulers, p = .exited := by
  obtain ⟨-, hs⟩ := step_cases hs
  cases hs with
  | stopReturns hst hw hse =>
    intro p hp
    have hp : p ∈ s.schedulers := hp
    obtain ⟨i, hi⟩ := List.mem_iff_getElem?.1 hp
    rcases (calm h).only i p hi with h | h | h
    · exact h
    · unfold schedulerEnded at hse
      rw [h] at hse
      simp only [hi, beq_iff_eq, Option.some.injEq] at hse
      exact hse
    · rw [ha] at h; cases h

/-- The destructor waits for a running task, and the waiting one is dropped. -/
example : ∃ s, run (init 1) [.runAsync 0 none, .runAsync 0 none, .worker 0, .stop, .stopNotifyWorkers,
    .stopNotifyScheduler, .taskReturns 0, .worker 0, .stopReturns] = some s ∧
    s.stage = .destroyed ∧ s.completed = [0] ∧ s.queue.map (·.task) = [1] ∧
    (∃ s', run (init 1) [.runAsync 0 none, .runAsync 0 none, .worker 0, .stop, .stopNotifyWorkers,
    .stopNotifyScheduler] = some s' ∧ step s' .stopReturns = none) :=
  ⟨_, rfl, rfl, rfl, rfl, _, rfl, rfl⟩

/-- C78: when the destructor has sent its notifications and every task returns, it
returns: the threads can only take a bounded number of further steps, and when none of
them can take a step, all have ended and the destructor is able to return. -/
theorem C78_destructor_returns {n : Nat} {s : State} (h : Reachable n s)
    (hj : s.stage = .joining) :
    ∃ bound, ∀ evs s', (∀ ev ∈ evs, Ending ev = true) → run s evs = some s' → s'.crash = none →
      evs.length ≤ bound ∧
      ((∀ ev, Ending ev = true → step s' ev = none) →
        ∃ s'', step s' .stopReturns = some s'' ∧ s''.stage = .destroyed) := by
  refine ⟨endWork s, ?_⟩
  intro evs s' he hr hc
  obtain ⟨h1, h2⟩ := ending_run he h hj hr hc
  refine ⟨by omega, fun hq => ?_⟩
  exact (ending_rest (reachable_run h hr) hc h2 hq).2.2

/-- C78: nothing keeps the destructor from sending its notifications. -/
theorem C78_destructor_notifies {s : State} (hc : s.crash = none) (ha : s.stage = .alive) :
    ∃ s', run s [.stop, .stopNotifyWorkers, .stopNotifyScheduler] = some s' ∧ s'.stage = .joining :=
  ⟨_, by simp only [run, step, hc, ha]; rfl, rfl⟩

/-- A sleeping worker, a running task and a sleeping scheduler when the destructor begins. -/
example : ∃ s s', run (init 2) [.worker 0, .runAsync 0 none, .worker 1, .runAt 10 0 none,
    .createScheduler, .assignScheduler 0, .scheduler 0 none, .stop, .stopNotifyWorkers,
    .stopNotifyScheduler] = some s ∧ s.stage = .joining ∧ running s = [0] ∧
    run s [.worker 0, .scheduler 0 none, .taskReturns 1, .worker 1] = some s' ∧
    (step s' .stopReturns).isSome := ⟨_, _, rfl, rfl, rfl, rfl, rfl⟩

/-! ## Workers -/

/-- C21: the number of workers is at least the target and at most the largest target so
far; and if it is larger than the target, no worker sleeps unless it is about to be
notified. -/
theorem C21_size {n : Nat} {s : State} (h : Reachable n s) :
    targetWorkersSize s ≤ workersSize s ∧ workersSize s ≤ s.maxTarget ∧
      (s.stopping = false → targetWorkersSize s < workersSize s →
        .blocked ∉ s.workers ∨ 0 < s.pendingAll) := by
  have hl := live h
  refine ⟨hl.low, hl.high, fun hs hlt => ?_⟩
  rcases hl.shrink hs hlt with h | h
  · exact .inr h
  · left
    intro hb
    obtain ⟨i, hi⟩ := List.mem_iff_getElem?.1 hb
    have := cnt_pos (p := isBlocked) hi rfl
    omega

/-- C21: a worker leaves only if there are more than the target; only one leaves at a
time; a task is started only if there are not more workers than the target. -/
theorem C21_steps {s s' : State} {ev : Event} (hs : step s ev = some s') :
    (s'.workers.length < s.workers.length →
      s.target < s.workers.length ∧ s'.workers.length + 1 = s.workers.length) ∧
    (s'.started ≠ s.started → s.workers.length ≤ s.target) := by
  refine ⟨?_, ?_⟩
  · have pass : ∀ (a : Int) (i : Nat) (p : Phase), s.workers[i]? = some p →
        (workerPass { s with active := a } i).workers.length < s.workers.length →
        s.target < s.workers.length ∧
          (workerPass { s with active := a } i).workers.length + 1 = s.workers.length := by
      intro a i p hi hlt
      have hil : i < s.workers.length := by
        rw [List.getElem?_eq_some_iff] at hi; exact hi.1
      unfold workerPass at hlt ⊢
      split at hlt
      · split at hlt <;> simp at hlt
      · rename_i hc
        split at hlt
        · rename_i hns
          rw [if_neg hc, if_pos hns]
          simp only [List.length_eraseIdx_of_lt hil]
          refine ⟨?_, by omega⟩
          by_contra hle
          exact hc ⟨by simp only; omega, .inl hns⟩
        · simp at hlt
    obtain ⟨-, hs⟩ := step_cases hs
    cases hs with
    | runAt time prio caller hc => rw [(runAt_workers s time prio).1]; intro h; omega
    | runAfter d prio caller hc => rw [(runAt_workers s _ prio).1]; intro h; omega
    | grow k caller hc hns hn => simp only [List.length_append]; intro h; omega
    | notifyOne woken ws hp hw => simp only [(wakeOne_cnt hw).1]; intro h; omega
    | notifyAll hp => simp
    | spuriousWorker i hi => simp
    | workerReady i hi => exact pass s.active i _ hi
    | workerFinished i t hi => exact pass _ i _ hi
    | taskReturns i t hi => simp
    | schedulerReady i hi => rw [(schedulerPass_fields s i).2.2.1]; intro h; omega
    | schedulerMoves i woken e k ws hi he hw =>
      rw [(schedulerPass_fields _ i).2.2.1]
      simp only [(wakeOne_cnt hw).1]; intro h; omega
    | stopNotifyWorkers hst => simp
    | _ => exact fun h => absurd h (Nat.lt_irrefl _)
  · cases flow_step hs with
    | start e hq hs hr hst hc hm hn hk hsize => exact fun _ => hsize
    | same hq hs hr hst => exact fun h => absurd hst h
    | submit prio fromTask hq hs hr hst => exact fun h => absurd hst h
    | schedule time prio hq hs hr hst => exact fun h => absurd hst h
    | move e' he' hq hs hr hst => exact fun h => absurd hst h
    | complete t₀ hq hs hr hst => exact fun h => absurd hst h

/-- Three workers, the target is lowered to 1: two leave, the third starts the task. -/
example : ∃ s, run (init 3) [.worker 0, .worker 1, .worker 2, .setTarget 1 none, .runAsync 0 none,
    .notifyAll, .worker 2, .worker 0, .worker 0] = some s ∧ workersSize s = 1 ∧ running s = [0] :=
  ⟨_, rfl, rfl, rfl⟩

/-! ## `run_sync` -/

/-- C22: when `run_sync` returns, its task has been started exactly once and has
returned. -/
theorem C22_sync {n : Nat} {s s' : State} {t : Nat} (h : Reachable n s)
    (hs : step s (.syncReturns t) = some s') :
    t ∈ s.completed ∧ s.completed.count t = 1 ∧ (s.started.map (·.task)).count t = 1 ∧
      t ∉ running s := by
  obtain ⟨-, hs⟩ := step_cases hs
  cases hs with
  | syncReturns t hsy hf =>
    have hd := (sync h).done t hf
    have h1 := (conserved h).started t
    have h2 := (conserved h).total t
    have h3 := List.count_pos_iff.2 hd
    refine ⟨hd, ?_, ?_, ?_⟩
    · split at h2 <;> omega
    · split at h2 <;> omega
    · intro hr
      have := List.count_pos_iff.2 hr
      rw [count_running] at this
      split at h2 <;> omega

/-- C22: `run_sync` waits for the task that it submitted, and when that task has returned
it is able to return. -/
theorem C22_sync_returns {n : Nat} {s : State} (h : Reachable n s) :
    (∀ t ∈ s.syncs, t ∈ s.completed → s.crash = none → ∃ s', step s (.syncReturns t) = some s') ∧
    ∀ prio c s', step s (.runSync prio c) = some s' →
      s'.syncs = s.nextTask :: s.syncs ∧ s.nextTask ∈ s'.queue.map (·.task) := by
  refine ⟨?_, ?_⟩
  · intro t ht hc hcr
    have := (sync h).told t ht hc
    exact ⟨_, by simp only [step, hcr]; simp [ht, this]; rfl⟩
  · intro prio c s' hs
    obtain ⟨-, hs⟩ := step_cases hs
    cases hs
    exact ⟨rfl, List.mem_map.2 ⟨_, mem_insertEntry.2 (.inl rfl), rfl⟩⟩

example : ∃ s s', run (init 1) [.runAsync 0 none, .runSync 5 none, .worker 0, .taskReturns 0] = some s ∧
    step s (.syncReturns 1) = some s' ∧ s'.completed = [1] ∧ s'.syncs = [] :=
  ⟨_, _, rfl, rfl, rfl, rfl⟩

/-! ## Progress -/

/-- C79: if nobody calls the pool any more and every task returns, then the pool comes to
rest after a bounded number of steps of its own, and when it is at rest every task that
was submitted is completed or still scheduled, all workers sleep, and no caller of a
waiting function is asleep. -/
theorem C79_comes_to_rest {n : Nat} {s : State} (h : Reachable n s) (hc : s.crash = none)
    (hs : s.stopping = false) (ht : 0 < s.target) :
    ∃ bound, ∀ evs s', (∀ ev ∈ evs, Own ev = true) → run s evs = some s' →
      evs.length ≤ bound ∧
      ((∀ ev, Own ev = true → step s' ev = none) →
        (s'.scheduled.map (·.task) ++ s'.completed).Perm (List.range s'.nextTask) ∧
        (∀ p ∈ s'.workers, p = .blocked) ∧ .blocked ∉ s'.waitNone ∧ .blocked ∉ s'.waitAll) := by
  refine ⟨work s, ?_⟩
  intro evs s' he hr
  obtain ⟨h1, h2, h3, h4⟩ := own_run he hr
  refine ⟨by omega, fun hq => ?_⟩
  have hr' := reachable_run h hr
  obtain ⟨g1, g2, g3, g4, g5⟩ := rest (live hr') (by rw [h4]; exact hc) (by rw [h2]; exact hs)
    (by rw [h3]; exact ht) hq
  refine ⟨?_, g3, g4, g5⟩
  have hcons := C12_conserved hr'
  have hrun : running s' = [] := by
    unfold running
    rw [List.filterMap_eq_nil_iff]
    intro p hp
    rw [g3 p hp]
  rw [g1, hrun] at hcons
  simpa using hcons

/-- One sleeping worker, two waiting tasks whose notifications are on their way. -/
example : ∃ s s', run (init 1) [.worker 0, .runAsync 0 none, .runAsync 0 none, .callWaitAll none,
    .waitAll 0] = some s ∧ s.crash = none ∧ 0 < s.target ∧
    run s [.notifyOne (some 0), .worker 0, .taskReturns 0, .worker 0, .notifyOne none, .taskReturns 0,
      .worker 0] = some s' ∧ s'.completed = [0, 1] ∧ s'.workers = [.blocked] ∧
    s'.waitAll = [.checking] :=
  ⟨_, _, rfl, rfl, by decide, rfl, rfl, rfl, rfl⟩

/-! ## The table of workers -/

/-- C92: when the destructor has set the flag, no step adds a thread to the table of
workers or removes one, and a thread that has ended stays in its place; so going through the
table without the mutex, the destructor finds and joins every thread. -/
theorem C92_table_fixed {s s' : State} {ev : Event} (hs : step s ev = some s')
    (hstop : s.stopping = true) :
    s'.workers.length = s.workers.length ∧ s'.stopping = true ∧
      ∀ i : Nat, s.workers[i]? = some Phase.exited → s'.workers[i]? = some Phase.exited := by
  have keep : ∀ (ws ws' : List Phase) (i : Nat) (x y : Phase), ws[i]? = some x → x ≠ .exited →
      ws' = ws.set i y → ws'.length = ws.length ∧
        ∀ j : Nat, ws[j]? = some Phase.exited → ws'[j]? = some Phase.exited := by
    intro ws ws' i x y hi hx e
    subst e
    refine ⟨by simp, fun j hj => ?_⟩
    rw [List.getElem?_set]
    split
    · rename_i hij
      subst hij
      rw [hi] at hj
      cases hj
      exact absurd rfl hx
    · exact hj
  have wake : ∀ (w : Option Nat) (ws : List Phase), wakeOne w s.workers = some ws →
      ws.length = s.workers.length ∧
        ∀ j : Nat, s.workers[j]? = some Phase.exited → ws[j]? = some Phase.exited := by
    intro w ws hw
    rcases wakeOne_spec hw with ⟨rfl, _⟩ | ⟨i, hi, e⟩
    · exact ⟨rfl, fun _ h => h⟩
    · exact keep _ _ i _ _ hi (by simp) e
  have wakeAll : (s.workers.map wakeWorker).length = s.workers.length ∧
      ∀ j : Nat, s.workers[j]? = some Phase.exited →
        (s.workers.map wakeWorker)[j]? = some Phase.exited := by
    refine ⟨by simp, fun j hj => ?_⟩
    rw [List.getElem?_map, hj]; rfl
  have pass : ∀ (a : Int) (i : Nat) (x : Phase), s.workers[i]? = some x → x ≠ .exited →
      (workerPass { s with active := a } i).workers.length = s.workers.length ∧
      (workerPass { s with active := a } i).stopping = true ∧
      ∀ j : Nat, s.workers[j]? = some Phase.exited →
        (workerPass { s with active := a } i).workers[j]? = some Phase.exited := by
    intro a i x hi hx
    unfold workerPass
    split
    · split
      · have := keep _ _ i x .blocked hi hx rfl
        exact ⟨this.1, hstop, this.2⟩
      · rename_i e rest hq
        have := keep _ _ i x (.running e.task) hi hx rfl
        exact ⟨this.1, hstop, this.2⟩
    · rw [if_neg (by simp [hstop])]
      have := keep _ _ i x .exited hi hx rfl
      exact ⟨this.1, hstop, this.2⟩
  obtain ⟨-, hs⟩ := step_cases hs
  cases hs with
  | runAt time prio caller hc =>
    obtain ⟨h1, -, h2, -⟩ := runAt_workers s time prio
    rw [h1, h2]; exact ⟨rfl, hstop, fun _ h => h⟩
  | runAfter d prio caller hc =>
    obtain ⟨h1, -, h2, -⟩ := runAt_workers s (s.now + d) prio
    rw [h1, h2]; exact ⟨rfl, hstop, fun _ h => h⟩
  | grow n caller hc hns hn => rw [hns] at hstop; cases hstop
  | notifyOne w ws hp hw => exact ⟨(wake w ws hw).1, hstop, (wake w ws hw).2⟩
  | notifyAll hp => exact ⟨wakeAll.1, hstop, wakeAll.2⟩
  | spuriousWorker i hi =>
    have := keep _ _ i _ .ready hi (by simp) rfl
    exact ⟨this.1, hstop, this.2⟩
  | workerReady i hi => exact pass s.active i _ hi (by simp)
  | workerFinished i t hi => exact pass _ i _ hi (by simp)
  | taskReturns i t hi =>
    have := keep _ _ i _ (.finished t) hi (by simp) rfl
    exact ⟨this.1, hstop, this.2⟩
  | schedulerReady i hi =>
    rw [(schedulerPass_fields s i).2.2.1, (schedulerPass_rest s i).2.1]
    exact ⟨rfl, hstop, fun _ h => h⟩
  | schedulerMoves i w e n ws hi he hw =>
    rw [(schedulerPass_fields _ i).2.2.1, (schedulerPass_rest _ i).2.1]
    exact ⟨(wake w ws hw).1, hstop, (wake w ws hw).2⟩
  | stopNotifyWorkers hst => exact ⟨wakeAll.1, hstop, wakeAll.2⟩
  | stop hst => exact ⟨rfl, rfl, fun _ h => h⟩
  | _ => exact ⟨rfl, hstop, fun _ h => h⟩

/-- Two workers end one after the other while the destructor waits. -/
example : ∃ s s', run (init 2) [.worker 0, .stop, .stopNotifyWorkers, .worker 0] = some s ∧
    s.stopping = true ∧ s.workers = [.exited, .ready] ∧ step s (.worker 1) = some s' ∧
    s'.workers = [.exited, .exited] :=
  ⟨_, _, rfl, rfl, rfl, rfl, rfl⟩

end Pluto.Props
