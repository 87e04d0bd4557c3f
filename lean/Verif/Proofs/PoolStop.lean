import Verif.Proofs.PoolCalm

/-! # Lemmas about the thread pool: `run_sync`, destruction, progress -/

namespace Pluto.Pool
open Pluto.Spec.Pool

theorem run_append {s s' s'' : State} {evs evs' : List Event} (h : run s evs = some s')
    (h' : run s' evs' = some s'') : run s (evs ++ evs') = some s'' := by
  induction evs generalizing s with
  | nil => simp only [run, Option.some.injEq] at h; subst h; exact h'
  | cons ev evs ih =>
    simp only [run, List.cons_append] at h ⊢
    cases hst : step s ev with
    | none => rw [hst] at h; cases h
    | some s1 => rw [hst] at h; exact ih h

theorem reachable_run {n : Nat} {s s' : State} {evs : List Event} (h : Reachable n s)
    (hr : run s evs = some s') : Reachable n s' := by
  induction evs generalizing s with
  | nil => simp only [run, Option.some.injEq] at hr; subst hr; exact h
  | cons ev evs ih =>
    simp only [run] at hr
    cases hst : step s ev with
    | none => rw [hst] at hr; cases hr
    | some s1 => rw [hst] at hr; exact ih (.step ev h hst) hr

/-! ## `run_sync` -/

structure Sync (s : State) : Prop where
  done : ∀ t ∈ s.fulfilled, t ∈ s.completed
  told : ∀ t ∈ s.syncs, t ∈ s.completed → t ∈ s.fulfilled

theorem completed_lt {s : State} (h : Conserved s) {t : Nat} (ht : t ∈ s.completed) :
    t < s.nextTask := by
  have := h.total t
  have := List.count_pos_iff.2 ht
  by_contra hn
  rw [if_neg hn] at *
  omega

theorem Sync.same {s s' : State} (h : Sync s) (h1 : s'.fulfilled = s.fulfilled)
    (h2 : s'.completed = s.completed) (h3 : ∀ t ∈ s'.syncs, t ∈ s.syncs) : Sync s' := by
  obtain ⟨a1, a2⟩ := h
  constructor
  · rw [h1, h2]; exact a1
  · rw [h1, h2]; exact fun t ht => a2 t (h3 t ht)

theorem sync_step {s s' : State} {ev : Event} (h : Sync s) (hcons : Conserved s)
    (hs : step s ev = some s') : Sync s' := by
  obtain ⟨-, hs⟩ := step_cases hs
  cases hs with
  | runSync prio caller hc =>
    obtain ⟨a1, a2⟩ := h
    refine ⟨a1, ?_⟩
    intro t ht hcm
    have hcm : t ∈ s.completed := hcm
    simp only [List.mem_cons] at ht
    rcases ht with rfl | ht
    · have := completed_lt hcons hcm; omega
    · exact a2 t ht hcm
  | syncReturns t _ _ => exact h.same rfl rfl (fun t' ht' => List.mem_of_mem_erase ht')
  | runAt time prio caller hc =>
    unfold runAt; simp only; split
    · exact h.same rfl rfl (fun _ h => h)
    · split <;> exact h.same rfl rfl (fun _ h => h)
  | runAfter d prio caller hc =>
    unfold runAt; simp only; split
    · exact h.same rfl rfl (fun _ h => h)
    · split <;> exact h.same rfl rfl (fun _ h => h)
  | workerReady i hi =>
    unfold workerPass; split
    · split <;> exact h.same rfl rfl (fun _ h => h)
    · split <;> exact h.same rfl rfl (fun _ h => h)
  | workerFinished i t hi =>
    unfold workerPass; split
    · split <;> exact h.same rfl rfl (fun _ h => h)
    · split <;> exact h.same rfl rfl (fun _ h => h)
  | taskReturns i t hi =>
    obtain ⟨a1, a2⟩ := h
    constructor
    · intro t' ht'
      simp only at ht'
      rw [List.mem_append, List.mem_singleton]
      split at ht'
      · rcases List.mem_cons.1 ht' with h | h
        · exact .inr h
        · exact .inl (a1 t' h)
      · exact .inl (a1 t' ht')
    · intro t' ht' hcm
      simp only at ht' hcm ⊢
      rw [List.mem_append, List.mem_singleton] at hcm
      rcases hcm with hcm | rfl
      · split
        · exact List.mem_cons_of_mem _ (a2 t' ht' hcm)
        · exact a2 t' ht' hcm
      · rw [if_pos ht']; exact List.mem_cons_self ..
  | schedulerReady i hi =>
    unfold schedulerPass; split
    · exact h.same rfl rfl (fun _ h => h)
    · exact h.same rfl rfl (fun _ h => h)
    · split <;> exact h.same rfl rfl (fun _ h => h)
  | schedulerMoves i woken e n ws hi he hw =>
    unfold schedulerPass; split
    · exact h.same rfl rfl (fun _ h => h)
    · exact h.same rfl rfl (fun _ h => h)
    · split <;> exact h.same rfl rfl (fun _ h => h)
  | _ => exact h.same rfl rfl (fun _ h => h)

theorem sync {n : Nat} {s : State} (h : Reachable n s) : Sync s := by
  induction h with
  | init => constructor <;> simp [init]
  | step ev hr hs ih => exact sync_step ih (conserved hr) hs

/-! ## The end -/

/-- How workers change in a step that is not of a worker. -/
inductive Workers (s s' : State) : Prop where
  | same (h : s'.workers = s.workers)
  | wake (woken : Option Nat) (h : wakeOne woken s.workers = some s'.workers)
  | wakeAll (h : s'.workers = s.workers.map wakeWorker)
  | grow (k : Nat) (h : s'.workers = s.workers ++ List.replicate k .ready)
    (hs : s.stopping = false)
  | spurious (i : Nat) (h : s'.workers = s.workers.set i .ready)
    (hi : s.workers[i]? = some .blocked)
  | own (i : Nat) (p : Phase) (hi : s.workers[i]? = some p) (hp : p ≠ .exited ∧ p ≠ .blocked)

theorem runAt_workers (s : State) (time prio : Int) :
    (runAt s time prio).workers = s.workers ∧ (runAt s time prio).target = s.target ∧
      (runAt s time prio).stopping = s.stopping ∧ (runAt s time prio).onStop = s.onStop ∧
      (runAt s time prio).stopSeq = s.stopSeq ∧ (runAt s time prio).queue = s.queue ∧
      (runAt s time prio).nextSeq = s.nextSeq ∧ (runAt s time prio).stage = s.stage ∧
      (runAt s time prio).crash = s.crash := by
  unfold runAt; simp only; split
  · simp
  · split <;> simp

theorem schedulerPass_rest (s : State) (i : Nat) :
    (schedulerPass s i).target = s.target ∧
      (schedulerPass s i).stopping = s.stopping ∧ (schedulerPass s i).onStop = s.onStop ∧
      (schedulerPass s i).stopSeq = s.stopSeq ∧ (schedulerPass s i).stage = s.stage ∧
      (schedulerPass s i).pendingOne = s.pendingOne ∧
      (schedulerPass s i).pendingAll = s.pendingAll := by
  unfold schedulerPass; split
  · simp
  · simp
  · split <;> simp

theorem workers_step {s s' : State} {ev : Event} (hs : step s ev = some s') : Workers s s' := by
  obtain ⟨-, hs⟩ := step_cases hs
  cases hs with
  | runAt time prio caller hc => exact .same (runAt_workers s time prio).1
  | runAfter d prio caller hc => exact .same (runAt_workers s _ prio).1
  | grow n caller hc hns hn => exact .grow _ rfl hns
  | notifyOne woken ws hp hw => exact .wake woken hw
  | notifyAll hp => exact .wakeAll rfl
  | spuriousWorker i hi => exact .spurious i rfl hi
  | workerReady i hi => exact .own i _ hi (by simp)
  | workerFinished i t hi => exact .own i _ hi (by simp)
  | taskReturns i t hi => exact .own i _ hi (by simp)
  | schedulerReady i hi => exact .same (schedulerPass_fields s i).2.2.1
  | schedulerMoves i woken e n ws hi he hw =>
    refine .wake woken ?_
    rw [(schedulerPass_fields _ i).2.2.1]; exact hw
  | stopNotifyWorkers hst => exact .wakeAll rfl
  | _ => exact .same rfl

theorem ended {n : Nat} {s : State} (h : Reachable n s) :
    s.stage = .destroyed → ∀ p ∈ s.workers, p = .exited := by
  induction h with
  | init => intro h; simp [init] at h
  | @step s s' ev hr hs ih =>
    by_cases hd : s.stage = .destroyed
    · intro _
      have ih := ih hd
      have hstop : s.stopping = true := (live hr).stage.2 (by rw [hd]; decide)
      have nb : ∀ (i : Nat) (p : Phase), s.workers[i]? = some p → p = .exited :=
        fun i p hi => ih p (List.mem_of_getElem? hi)
      cases workers_step hs with
      | same h => rw [h]; exact ih
      | wake woken h =>
        rcases wakeOne_spec h with ⟨h, _⟩ | ⟨i, hi, h⟩
        · rw [h]; exact ih
        · cases nb i _ hi
      | wakeAll h =>
        rw [h]
        intro p hp
        obtain ⟨q, hq, rfl⟩ := List.mem_map.1 hp
        rw [ih q hq]; rfl
      | grow k h hns => rw [hns] at hstop; cases hstop
      | spurious i h hi => cases nb i _ hi
      | own i p hi hp => exact absurd (nb i p hi) hp.1
    · obtain ⟨-, hs⟩ := step_cases hs
      cases hs with
      | stopReturns hst hw hsch => exact fun _ => hw
      | runAt time prio caller hc => rw [(runAt_workers s time prio).2.2.2.2.2.2.2.1]; exact fun h => absurd h hd
      | runAfter d prio caller hc => rw [(runAt_workers s _ prio).2.2.2.2.2.2.2.1]; exact fun h => absurd h hd
      | workerReady i hi =>
        unfold workerPass; split
        · split <;> exact fun h => absurd h hd
        · split <;> exact fun h => absurd h hd
      | workerFinished i t hi =>
        unfold workerPass; split
        · split <;> exact fun h => absurd h hd
        · split <;> exact fun h => absurd h hd
      | schedulerReady i hi => rw [(schedulerPass_rest s i).2.2.2.2.1]; exact fun h => absurd h hd
      | schedulerMoves i woken e n ws hi he hw =>
        rw [(schedulerPass_rest _ i).2.2.2.2.1]; exact fun h => absurd h hd
      | stop h => intro h; cases h
      | stopNotifyWorkers h => intro h; cases h
      | stopNotifyScheduler h => intro h; cases h
      | _ => exact fun h => absurd h hd

/-! ## `complete_tasks` -/

/-- The destructor has set the flag when `k` entries had been put into the queue, the
action is `complete_tasks`, no worker is superfluous, and there is a worker as long as an
entry waits that was there before the flag or was submitted by a task. -/
structure Completing (k : Nat) (s : State) : Prop where
  stopping : s.stopping = true
  action : s.onStop = .completeTasks
  size : s.workers.length ≤ s.target
  seq : s.stopSeq = k
  le : k ≤ s.nextSeq
  worker : (∃ e ∈ s.queue, e.seq < k ∨ e.fromTask = true) → cnt isExited s.workers < s.workers.length

theorem Completing.same {k : Nat} {s s' : State} (h : Completing k s) (h1 : s'.stopping = s.stopping)
    (h2 : s'.onStop = s.onStop) (h3 : s'.workers.length = s.workers.length) (h4 : s'.target = s.target)
    (h5 : s'.stopSeq = s.stopSeq) (h6 : s'.nextSeq = s.nextSeq) (h7 : s'.queue = s.queue)
    (h8 : cnt isExited s'.workers = cnt isExited s.workers) : Completing k s' := by
  obtain ⟨a1, a2, a3, a4, a5, a6⟩ := h
  constructor <;> simp only [h1, h2, h3, h4, h5, h6, h7, h8] <;> assumption

theorem completing_pass {k : Nat} {s : State} (h : Completing k s) (a : Int) (i : Nat) (x : Phase)
    (hx : s.workers[i]? = some x) : Completing k (workerPass { s with active := a } i) := by
  obtain ⟨a1, a2, a3, a4, a5, a6⟩ := h
  unfold workerPass
  simp only
  split
  · rename_i hc
    split
    · rename_i hq
      rcases hc.2 with h | h
      · rw [a1] at h; cases h
      · exact absurd hq h.2
    · rename_i e rest hq
      refine ⟨a1, a2, by simpa using a3, a4, a5, fun _ => ?_⟩
      have c1 := cnt_total (s.workers.set i (.running e.task))
      have hlt : i < s.workers.length := by
        rw [List.getElem?_eq_some_iff] at hx; exact hx.1
      have c2 : 0 < cnt isActive (s.workers.set i (.running e.task)) :=
        cnt_pos (List.getElem?_set_self hlt) rfl
      simp only
      omega
  · rename_i hc
    have hq : s.queue = [] := by
      by_contra hq
      exact hc ⟨a3, .inr ⟨a2, hq⟩⟩
    rw [if_neg (by simp [a1])]
    refine ⟨a1, a2, by simpa using a3, a4, a5, ?_⟩
    simp only [hq]
    rintro ⟨e, he, -⟩
    cases he

theorem completing_schedulerPass {k : Nat} {s : State} (h : Completing k s) (i : Nat) :
    Completing k (schedulerPass s i) := by
  obtain ⟨h1, h2, h3, h4, h5, h6, h7, h8⟩ := schedulerPass_fields s i
  obtain ⟨r1, r2, r3, r4, r5, r6⟩ := schedulerPass_rest s i
  exact h.same r2 r3 (by rw [h3]) r1 r4 h8 h1 (by rw [h3])

theorem canCall_some {s : State} {caller : Option Nat} (hc : canCall s caller = true)
    (hst : s.stage ≠ .alive) : ∃ i t, caller = some i ∧ s.workers[i]? = some (.running t) := by
  cases caller with
  | none => simp [canCall] at hc; exact absurd hc hst
  | some i =>
    unfold canCall at hc
    simp only at hc
    split at hc
    · rename_i t hi; exact ⟨i, t, rfl, hi⟩
    · cases hc

theorem Completing.insert {k : Nat} {s s' : State} (h : Completing k s) (e : Entry)
    (he : s.nextSeq ≤ e.seq)
    (hw : e.fromTask = true → cnt isExited s'.workers < s'.workers.length)
    (h1 : s'.stopping = s.stopping)
    (h2 : s'.onStop = s.onStop) (h3 : s'.workers.length = s.workers.length) (h4 : s'.target = s.target)
    (h5 : s'.stopSeq = s.stopSeq) (h6 : s'.nextSeq = s.nextSeq + 1)
    (h7 : s'.queue = insertEntry e s.queue)
    (h8 : cnt isExited s'.workers = cnt isExited s.workers) : Completing k s' := by
  obtain ⟨a1, a2, a3, a4, a5, a6⟩ := h
  refine ⟨by rw [h1]; exact a1, by rw [h2]; exact a2, by rw [h3, h4]; exact a3, by rw [h5]; exact a4,
    by omega, ?_⟩
  rintro ⟨x, hx, hp⟩
  rw [h7, mem_insertEntry] at hx
  rcases hx with rfl | hx
  · rcases hp with hp | hp
    · omega
    · exact hw hp
  · rw [h8, h3]; exact a6 ⟨x, hx, hp⟩

theorem running_notExited {s : State} {i t : Nat} (hi : s.workers[i]? = some (.running t)) :
    cnt isExited s.workers < s.workers.length := by
  have := cnt_total s.workers
  have := cnt_pos (p := isActive) hi rfl
  omega

theorem completing_step {k : Nat} {s s' : State} {ev : Event} (h : Completing k s) (hl : Live s)
    (hev : ∀ c, ev ≠ .setOnStop .joinAll c) (hs : step s ev = some s') : Completing k s' := by
  obtain ⟨-, hs⟩ := step_cases hs
  have hst : s.stage ≠ .alive := hl.stage.1 h.stopping
  cases hs with
  | runAsync prio caller hc =>
    obtain ⟨i, t, -, hi⟩ := canCall_some hc hst
    exact h.insert ⟨prio, s.nextTask, s.nextSeq, caller.isSome⟩ (Nat.le_refl _)
      (fun _ => running_notExited hi) rfl rfl rfl rfl rfl rfl rfl rfl
  | runSync prio caller hc =>
    obtain ⟨i, t, -, hi⟩ := canCall_some hc hst
    exact h.insert ⟨prio, s.nextTask, s.nextSeq, caller.isSome⟩ (Nat.le_refl _)
      (fun _ => running_notExited hi) rfl rfl rfl rfl rfl rfl rfl rfl
  | runAt time prio caller hc =>
    obtain ⟨h1, h2, h3, h4, h5, h6, h7, h8, h9⟩ := runAt_workers s time prio
    exact h.same h3 h4 (by rw [h1]) h2 h5 h7 h6 (by rw [h1])
  | runAfter d prio caller hc =>
    obtain ⟨h1, h2, h3, h4, h5, h6, h7, h8, h9⟩ := runAt_workers s (s.now + d) prio
    exact h.same h3 h4 (by rw [h1]) h2 h5 h7 h6 (by rw [h1])
  | grow n caller hc hns hn => rw [h.stopping] at hns; cases hns
  | shrink n caller hc hns hn => rw [h.stopping] at hns; cases hns
  | setOnStop a caller hc =>
    cases a with
    | joinAll => exact absurd rfl (hev caller)
    | completeTasks =>
      obtain ⟨a1, a2, a3, a4, a5, a6⟩ := h
      exact ⟨a1, rfl, a3, a4, a5, a6⟩
  | notifyOne woken ws hp hw =>
    have c := wakeOne_cnt hw
    exact h.same rfl rfl c.1 rfl rfl rfl rfl c.2.2.1
  | notifyAll hp => exact h.same rfl rfl (by simp) rfl rfl rfl rfl (cnt_wake _).2.2.2
  | spuriousWorker i hi =>
    have c := cnt_set (p := isExited) .ready hi
    simp at c
    exact h.same rfl rfl (by simp) rfl rfl rfl rfl c
  | workerReady i hi => exact completing_pass h s.active i _ hi
  | workerFinished i t hi => exact completing_pass h _ i _ hi
  | taskReturns i t hi =>
    have c := cnt_set (p := isExited) (.finished t) hi
    simp at c
    exact h.same rfl rfl (by simp) rfl rfl rfl rfl c
  | schedulerReady i hi => exact completing_schedulerPass h i
  | schedulerMoves i woken e n ws hi he hw =>
    have c := wakeOne_cnt hw
    refine completing_schedulerPass ?_ i
    exact h.insert ⟨e.prio, e.task, s.nextSeq, false⟩ (Nat.le_refl _) (by intro h; cases h)
      rfl rfl c.1 rfl rfl rfl rfl c.2.2.1
  | stop h' => exact absurd h' hst
  | stopNotifyWorkers hst => exact h.same rfl rfl (by simp) rfl rfl rfl rfl (cnt_wake _).2.2.2
  | _ => exact h.same rfl rfl rfl rfl rfl rfl rfl rfl

theorem completing_run {n k : Nat} {s s' : State} {evs : List Event} (h : Completing k s)
    (hr : Reachable n s) (hev : ∀ c, .setOnStop .joinAll c ∉ evs) (hs : run s evs = some s') :
    Completing k s' := by
  induction evs generalizing s with
  | nil => simp only [run, Option.some.injEq] at hs; subst hs; exact h
  | cons ev evs ih =>
    simp only [run] at hs
    cases hst : step s ev with
    | none => rw [hst] at hs; cases hs
    | some s1 =>
      rw [hst] at hs
      refine ih (completing_step h (live hr) ?_ hst) (.step ev hr hst) ?_ hs
      · intro c hc; exact hev c (by rw [← hc]; exact List.mem_cons_self ..)
      · intro c hc; exact hev c (List.mem_cons_of_mem _ hc)

/-- An entry in the queue stays there until it is started. -/
theorem kept_step {s s' : State} {ev : Event} {e : Entry} (h : e ∈ s.queue ∨ e ∈ s.started)
    (hs : step s ev = some s') : e ∈ s'.queue ∨ e ∈ s'.started := by
  cases flow_step hs with
  | same hq hs hr hst hc hm hn hk => rwa [hq, hst]
  | submit prio fromTask hq hs hr hst hc hm hn hk =>
    rw [hq, hst, mem_insertEntry]
    rcases h with h | h
    · exact .inl (.inr h)
    · exact .inr h
  | schedule time prio hq hs hr hst hc hm hn hk => rwa [hq, hst]
  | move e he hq hs hr hst hc hm hn hk =>
    rw [hq, hst, mem_insertEntry]
    rcases h with h | h
    · exact .inl (.inr h)
    · exact .inr h
  | start e hq hs hr hst hc hm hn hk =>
    rw [hq] at h
    rw [hst, List.mem_append, List.mem_singleton]
    rcases h with h | h
    · rcases List.mem_cons.1 h with h | h
      · exact .inr (.inr h)
      · exact .inl h
    · exact .inr (.inl h)
  | complete t₀ hq hs hr hst hc hm hn hk => rwa [hq, hst]

theorem kept_run {s s' : State} {evs : List Event} {e : Entry} (h : e ∈ s.queue ∨ e ∈ s.started)
    (hs : run s evs = some s') : e ∈ s'.queue ∨ e ∈ s'.started := by
  induction evs generalizing s with
  | nil => simp only [run, Option.some.injEq] at hs; subst hs; exact h
  | cons ev evs ih =>
    simp only [run] at hs
    cases hst : step s ev with
    | none => rw [hst] at hs; cases hs
    | some s1 => rw [hst] at hs; exact ih (kept_step h hst) hs

theorem started_completed {s : State} (h : Conserved s) (hw : ∀ p ∈ s.workers, ∀ t, p ≠ .running t)
    {e : Entry} (he : e ∈ s.started) : e.task ∈ s.completed := by
  have h1 := h.started e.task
  have h2 : cnt (isRunning e.task) s.workers = 0 := by
    unfold cnt
    rw [List.countP_eq_zero]
    intro p hp hr
    exact hw p hp e.task (by simpa [isRunning] using hr)
  have h3 : 0 < (s.started.map (·.task)).count e.task :=
    List.count_pos_iff.2 (List.mem_map_of_mem he)
  exact List.count_pos_iff.1 (by omega)

/-! ## Pools whose destructor starts no task -/

/-- The workers leave without starting a task; `xs` are the tasks started before. -/
structure Leaving (xs : List Entry) (s : State) : Prop where
  stopping : s.stopping = true
  size : s.workers.length = 0 ∨ s.target < s.workers.length
  started : s.started = xs

theorem Leaving.same {xs : List Entry} {s s' : State} (h : Leaving xs s) (h1 : s'.stopping = s.stopping)
    (h2 : s'.workers.length = s.workers.length) (h3 : s'.target = s.target) (h4 : s'.started = s.started) :
    Leaving xs s' :=
  ⟨h1.trans h.stopping, by rw [h2, h3]; exact h.size, h4.trans h.started⟩

theorem leaving_workerPass {xs : List Entry} {s : State} {i : Nat} {a : Int} {x : Phase} (h : Leaving xs s)
    (hx : s.workers[i]? = some x) : Leaving xs (workerPass { s with active := a } i) := by
  unfold workerPass
  simp only
  rw [if_neg, if_neg (by simp [h.stopping])]
  · exact h.same rfl (by simp) rfl rfl
  · have := h.size
    have : i < s.workers.length := by
      rw [List.getElem?_eq_some_iff] at hx; exact hx.1
    omega

theorem wakeOne_length {woken : Option Nat} {ws ws' : List Phase} (h : wakeOne woken ws = some ws') :
    ws'.length = ws.length := by
  rcases wakeOne_spec h with ⟨rfl, -⟩ | ⟨i, -, rfl⟩
  · rfl
  · simp

theorem leaving_schedulerPass {xs : List Entry} {s : State} (h : Leaving xs s) (i : Nat) :
    Leaving xs (schedulerPass s i) := by
  unfold schedulerPass
  split
  · exact h.same rfl rfl rfl rfl
  · exact h.same rfl rfl rfl rfl
  · split <;> exact h.same rfl rfl rfl rfl

theorem leaving_step {xs : List Entry} {s s' : State} {ev : Event} (h : Leaving xs s) (hs : step s ev = some s') :
    Leaving xs s' := by
  obtain ⟨-, hs⟩ := step_cases hs
  have hrun : ∀ time prio, Leaving xs (runAt s time prio) := by
    intro time prio
    unfold runAt
    simp only
    split
    · exact h.same rfl rfl rfl rfl
    · split <;> exact h.same rfl rfl rfl rfl
  cases hs with
  | runAt time prio caller hc => exact hrun _ _
  | runAfter d prio caller hc => exact hrun _ _
  | grow n caller hc hns hn => rw [h.stopping] at hns; cases hns
  | shrink n caller hc hns hn => rw [h.stopping] at hns; cases hns
  | setTargetLate => exact h
  | notifyOne woken ws h0 hw => exact h.same rfl (wakeOne_length hw) rfl rfl
  | notifyAll => exact h.same rfl (by simp) rfl rfl
  | spuriousWorker => exact h.same rfl (by simp) rfl rfl
  | workerReady i hi => exact leaving_workerPass (a := s.active) h hi
  | workerFinished i t hi => exact leaving_workerPass h hi
  | taskReturns => exact h.same rfl (by simp) rfl rfl
  | schedulerReady i hi => exact leaving_schedulerPass h i
  | schedulerMoves i woken e n ws hi he hw =>
    refine leaving_schedulerPass ?_ i
    exact h.same rfl (wakeOne_length hw) rfl rfl
  | stop => exact h.same h.stopping.symm rfl rfl rfl
  | stopNotifyWorkers => exact h.same rfl (by simp) rfl rfl
  | _ => exact h.same rfl rfl rfl rfl

theorem leaving_run {xs : List Entry} {s s' : State} {evs : List Event} (h : Leaving xs s)
    (hr : run s evs = some s') : Leaving xs s' := by
  induction evs generalizing s with
  | nil => cases hr; exact h
  | cons ev evs ih =>
    unfold run at hr
    split at hr
    · rename_i s₁ hs; exact ih (leaving_step h hs) hr
    · cases hr

end Pluto.Pool
