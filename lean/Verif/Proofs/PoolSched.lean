import Verif.Proofs.PoolTasks

/-! # Lemmas about the thread pool: scheduled tasks and the scheduler thread -/

namespace Pluto.Pool

/-! ## All executions -/

/-- `a` is due before `b`, or they are due at the same time and `a` was submitted first. -/
def DueBefore (a b : Timed) : Prop := a.time < b.time ∨ (a.time = b.time ∧ a.task < b.task)

theorem mem_insertTimed {e x : Timed} {q : List Timed} : x ∈ insertTimed e q ↔ x = e ∨ x ∈ q := by
  induction q with
  | nil => simp [insertTimed]
  | cons y q ih =>
    unfold insertTimed
    split
    · simp
    · simp only [List.mem_cons, ih]
      constructor
      · rintro (h | h | h)
        · exact .inr (.inl h)
        · exact .inl h
        · exact .inr (.inr h)
      · rintro (h | h | h)
        · exact .inr (.inl h)
        · exact .inl h
        · exact .inr (.inr h)

theorem sorted_insertTimed {e : Timed} {q : List Timed} (h : q.Pairwise DueBefore)
    (hs : ∀ x ∈ q, x.task < e.task) : (insertTimed e q).Pairwise DueBefore := by
  induction q with
  | nil => simp [insertTimed]
  | cons y q ih =>
    rw [List.pairwise_cons] at h
    unfold insertTimed
    split
    · rename_i hlt
      rw [List.pairwise_cons, List.pairwise_cons]
      refine ⟨?_, h⟩
      intro x hx
      rcases List.mem_cons.1 hx with rfl | hx
      · exact .inl hlt
      · rcases h.1 x hx with h' | h'
        · left; omega
        · left; omega
    · rename_i hle
      rw [List.pairwise_cons]
      refine ⟨?_, ih h.2 (fun x hx => hs x (List.mem_cons_of_mem _ hx))⟩
      intro x hx
      rcases mem_insertTimed.1 hx with rfl | hx
      · have := hs y (List.mem_cons_self ..)
        by_cases heq : y.time = x.time
        · exact .inr ⟨heq, this⟩
        · left; omega
      · exact h.1 x hx

/-- `e` is the first of the entries numbered below `k`. -/
def First (s : State) (e : Timed) (k : Nat) : Prop :=
  k ≤ s.nextTask ∧ ∀ x ∈ s.scheduled, x.task < k → x = e ∨ DueBefore e x

structure Sched (s : State) : Prop where
  sorted : s.scheduled.Pairwise DueBefore
  fresh : ∀ x ∈ s.scheduled, x.task < s.nextTask
  now : s.now ≤ s.maxNow
  due : ∀ e k, .timedOut e k ∈ s.schedulers → e.time ≤ s.maxNow
  movedDue : ∀ e ∈ s.moved, e.time ≤ s.maxNow
  waitFirst : ∀ e k, .waiting e k ∈ s.schedulers → First s e k
  timedFirst : ∀ e k, .timedOut e k ∈ s.schedulers → First s e k
  awake : (s.stage = .joining ∨ s.stage = .destroyed) → ∀ e k, .waiting e k ∉ s.schedulers

theorem Sched.same {s s' : State} (h : Sched s) (h1 : s'.scheduled = s.scheduled)
    (h2 : s.nextTask ≤ s'.nextTask) (h3 : s'.now = s.now) (h4 : s'.maxNow = s.maxNow)
    (h5 : s'.schedulers = s.schedulers) (h6 : s'.moved = s.moved) (h7 : s'.stage = s.stage) :
    Sched s' := by
  obtain ⟨a1, a2, a3, a4, a5, a6, a7, a8⟩ := h
  unfold First at a6 a7
  constructor <;> (try unfold First) <;> simp only [h1, h3, h4, h5, h6, h7]
  · exact a1
  · exact fun x hx => Nat.lt_of_lt_of_le (a2 x hx) h2
  · exact a3
  · exact a4
  · exact a5
  · exact fun e k hm => ⟨Nat.le_trans (a6 e k hm).1 h2, (a6 e k hm).2⟩
  · exact fun e k hm => ⟨Nat.le_trans (a7 e k hm).1 h2, (a7 e k hm).2⟩
  · exact a8

/-- Schedulers may wake up, end or appear. -/
theorem Sched.shrink {s s' : State} (h : Sched s) (h1 : s'.scheduled = s.scheduled)
    (h2 : s'.nextTask = s.nextTask) (h3 : s'.now = s.now) (h4 : s'.maxNow = s.maxNow)
    (h5 : ∀ p ∈ s'.schedulers, p ∈ s.schedulers ∨ p = .ready ∨ p = .exited)
    (h6 : s'.moved = s.moved) (h7 : s'.stage = s.stage) :
    Sched s' := by
  obtain ⟨a1, a2, a3, a4, a5, a6, a7, a8⟩ := h
  have w : ∀ e k, .waiting e k ∈ s'.schedulers → .waiting e k ∈ s.schedulers := by
    intro e k hm; rcases h5 _ hm with h | h | h
    · exact h
    · cases h
    · cases h
  have t : ∀ e k, .timedOut e k ∈ s'.schedulers → .timedOut e k ∈ s.schedulers := by
    intro e k hm; rcases h5 _ hm with h | h | h
    · exact h
    · cases h
    · cases h
  unfold First at a6 a7
  constructor <;> (try unfold First) <;> simp only [h1, h2, h3, h4, h6, h7]
  · exact a1
  · exact a2
  · exact a3
  · exact fun e k hm => a4 e k (t e k hm)
  · exact a5
  · exact fun e k hm => a6 e k (w e k hm)
  · exact fun e k hm => a7 e k (t e k hm)
  · exact fun hs e k hm => a8 hs e k (w e k hm)

theorem sched_pass {s : State} (h : Sched s) (hst : s.stopping = true ↔ s.stage ≠ .alive) (i : Nat) :
    Sched (schedulerPass s i) := by
  unfold schedulerPass
  split
  · rename_i e rest heq hns
    obtain ⟨a1, a2, a3, a4, a5, a6, a7, a8⟩ := h
    refine ⟨a1, a2, a3, ?_, a5, ?_, ?_, ?_⟩
    · intro e' k hm
      rcases List.mem_or_eq_of_mem_set hm with hm | hm
      · exact a4 _ _ hm
      · cases hm
    · intro e' k hm
      rcases List.mem_or_eq_of_mem_set hm with hm | hm
      · exact a6 _ _ hm
      · cases hm
        refine ⟨Nat.le_refl _, ?_⟩
        intro x hx _
        simp only [heq] at hx
        rw [heq, List.pairwise_cons] at a1
        rcases List.mem_cons.1 hx with rfl | hx
        · exact .inl rfl
        · exact .inr (a1.1 x hx)
    · intro e' k hm
      rcases List.mem_or_eq_of_mem_set hm with hm | hm
      · exact a7 _ _ hm
      · cases hm
    · intro hj
      have : s.stopping = true := hst.2 (by
        intro hal; simp only [hal] at hj; rcases hj with hj | hj <;> cases hj)
      rw [this] at hns; cases hns
  · refine h.shrink rfl rfl rfl rfl ?_ rfl rfl
    intro p hp
    rcases List.mem_or_eq_of_mem_set hp with hp | hp
    · exact .inl hp
    · exact .inr (.inr hp)
  · split
    · refine h.shrink rfl rfl rfl rfl ?_ rfl rfl
      intro p hp
      rcases List.mem_or_eq_of_mem_set hp with hp | hp
      · exact .inl hp
      · exact .inr (.inr hp)
    · exact h.same rfl (Nat.le_refl _) rfl rfl rfl rfl rfl

theorem First.schedule {s s' : State} {e : Timed} {k : Nat} (h : First s e k) (time prio : Int)
    (h1 : s'.scheduled = insertTimed ⟨time, prio, s.nextTask⟩ s.scheduled)
    (h2 : s'.nextTask = s.nextTask + 1) : First s' e k := by
  obtain ⟨hk, h⟩ := h
  refine ⟨by omega, ?_⟩
  intro x hx hlt
  rw [h1, mem_insertTimed] at hx
  rcases hx with rfl | hx
  · simp only at hlt; omega
  · exact h x hx hlt

theorem sched_runAt {s : State} (h : Sched s) (time prio : Int) : Sched (runAt s time prio) := by
  have key : ∀ s' : State, s'.scheduled = insertTimed ⟨time, prio, s.nextTask⟩ s.scheduled →
      s'.nextTask = s.nextTask + 1 → s'.now = s.now → s'.maxNow = s.maxNow →
      s'.schedulers = s.schedulers → s'.moved = s.moved → s'.stage = s.stage → Sched s' := by
    intro s' h1 h2 h3 h4 h5 h6 h7
    obtain ⟨a1, a2, a3, a4, a5, a6, a7, a8⟩ := h
    constructor
    · rw [h1]; exact sorted_insertTimed a1 a2
    · rw [h1, h2]
      intro x hx
      rcases mem_insertTimed.1 hx with rfl | hx
      · exact Nat.lt_succ_self _
      · have := a2 x hx; omega
    · rw [h3, h4]; exact a3
    · rw [h5, h4]; exact a4
    · rw [h6, h4]; exact a5
    · rw [h5]; exact fun e k hm => (a6 e k hm).schedule time prio h1 h2
    · rw [h5]; exact fun e k hm => (a7 e k hm).schedule time prio h1 h2
    · rw [h5, h7]; exact a8
  unfold runAt
  simp only
  split
  · exact key _ rfl rfl rfl rfl rfl rfl rfl
  · split <;> exact key _ rfl rfl rfl rfl rfl rfl rfl

theorem sched_step {s s' : State} {ev : Event} (h : Sched s) (hl : Live s)
    (hs : step s ev = some s') : Sched s' := by
  obtain ⟨-, hs⟩ := step_cases hs
  cases hs with
  | runAsync prio caller hc => exact h.same rfl (Nat.le_succ _) rfl rfl rfl rfl rfl
  | runSync prio caller hc => exact h.same rfl (Nat.le_succ _) rfl rfl rfl rfl rfl
  | runAt time prio caller hc => exact sched_runAt h time prio
  | runAfter d prio caller hc => exact sched_runAt h _ prio
  | createScheduler hc =>
    refine h.shrink rfl rfl rfl rfl ?_ rfl rfl
    intro p hp
    rcases List.mem_append.1 hp with hp | hp
    · exact .inl hp
    · exact .inr (.inl (List.mem_singleton.1 hp))
  | notifyScheduler i e n hc hi =>
    refine h.shrink rfl rfl rfl rfl ?_ rfl rfl
    intro p hp
    rcases List.mem_or_eq_of_mem_set hp with hp | hp
    · exact .inl hp
    · exact .inr (.inl hp)
  | spuriousScheduler i e n hi =>
    refine h.shrink rfl rfl rfl rfl ?_ rfl rfl
    intro p hp
    rcases List.mem_or_eq_of_mem_set hp with hp | hp
    · exact .inl hp
    · exact .inr (.inl hp)
  | clock t =>
    obtain ⟨a1, a2, a3, a4, a5, a6, a7, a8⟩ := h
    refine ⟨a1, a2, ?_, ?_, ?_, a6, a7, a8⟩
    · simp only; omega
    · intro e k hm; have := a4 e k hm; simp only; omega
    · intro e hm; have := a5 e hm; simp only; omega
  | workerReady i hi =>
    unfold workerPass; split
    · split <;> exact h.same rfl (Nat.le_refl _) rfl rfl rfl rfl rfl
    · split <;> exact h.same rfl (Nat.le_refl _) rfl rfl rfl rfl rfl
  | workerFinished i t hi =>
    unfold workerPass; split
    · split <;> exact h.same rfl (Nat.le_refl _) rfl rfl rfl rfl rfl
    · split <;> exact h.same rfl (Nat.le_refl _) rfl rfl rfl rfl rfl
  | schedulerTimeout i e n hi ht =>
    have hm := List.mem_of_getElem? hi
    obtain ⟨a1, a2, a3, a4, a5, a6, a7, a8⟩ := h
    refine ⟨a1, a2, a3, ?_, a5, ?_, ?_, ?_⟩
    · intro e' k hm'
      rcases List.mem_or_eq_of_mem_set hm' with hm' | hm'
      · exact a4 _ _ hm'
      · cases hm'; exact Int.le_trans ht a3
    · intro e' k hm'
      rcases List.mem_or_eq_of_mem_set hm' with hm' | hm'
      · exact a6 _ _ hm'
      · cases hm'
    · intro e' k hm'
      rcases List.mem_or_eq_of_mem_set hm' with hm' | hm'
      · exact a7 _ _ hm'
      · cases hm'; exact a6 _ _ hm
    · intro hj e' k hm'
      rcases List.mem_or_eq_of_mem_set hm' with hm' | hm'
      · exact a8 hj _ _ hm'
      · cases hm'
  | schedulerReady i hi => exact sched_pass h hl.stage i
  | schedulerMoves i woken e n ws hi he hw =>
    refine sched_pass ?_ (by exact hl.stage) i
    have hm := List.mem_of_getElem? hi
    obtain ⟨a1, a2, a3, a4, a5, a6, a7, a8⟩ := h
    refine ⟨?_, ?_, a3, a4, ?_, ?_, ?_, a8⟩
    · exact a1.sublist List.erase_sublist
    · exact fun x hx => a2 x (List.mem_of_mem_erase hx)
    · intro x hx
      rcases List.mem_append.1 hx with hx | hx
      · exact a5 x hx
      · rw [List.mem_singleton] at hx; subst hx; exact a4 _ _ hm
    · exact fun e' k hm' => ⟨(a6 e' k hm').1, fun x hx => (a6 e' k hm').2 x (List.mem_of_mem_erase hx)⟩
    · exact fun e' k hm' => ⟨(a7 e' k hm').1, fun x hx => (a7 e' k hm').2 x (List.mem_of_mem_erase hx)⟩
  | stop hst =>
    obtain ⟨a1, a2, a3, a4, a5, a6, a7, a8⟩ := h
    refine ⟨a1, a2, a3, a4, a5, a6, a7, ?_⟩
    rintro (hj | hj) <;> cases hj
  | stopNotifyWorkers hst =>
    obtain ⟨a1, a2, a3, a4, a5, a6, a7, a8⟩ := h
    refine ⟨a1, a2, a3, a4, a5, a6, a7, ?_⟩
    rintro (hj | hj) <;> cases hj
  | stopNotifyScheduler hst =>
    obtain ⟨a1, a2, a3, a4, a5, a6, a7, a8⟩ := h
    have key : ∀ p, p ∈ s.schedulers.map wakeScheduler → p ∈ s.schedulers ∨ p = .ready := by
      intro p hp
      obtain ⟨q, hq, rfl⟩ := List.mem_map.1 hp
      cases q
      · exact .inl hq
      · exact .inr rfl
      · exact .inl hq
      · exact .inl hq
    have nw : ∀ e k, SPhase.waiting e k ∉ s.schedulers.map wakeScheduler := by
      intro e k hp
      obtain ⟨q, hq, hqe⟩ := List.mem_map.1 hp
      cases q <;> cases hqe
    refine ⟨a1, a2, a3, ?_, a5, ?_, ?_, fun _ => nw⟩
    · intro e k hm; rcases key _ hm with hm | hm
      · exact a4 _ _ hm
      · cases hm
    · intro e k hm; exact absurd hm (nw e k)
    · intro e k hm; rcases key _ hm with hm | hm
      · exact a7 _ _ hm
      · cases hm
  | stopReturns hst hw hsch =>
    obtain ⟨a1, a2, a3, a4, a5, a6, a7, a8⟩ := h
    exact ⟨a1, a2, a3, a4, a5, a6, a7, fun _ => a8 (.inl hst)⟩
  | _ => exact h.same rfl (Nat.le_refl _) rfl rfl rfl rfl rfl

theorem sched {n : Nat} {s : State} (h : Reachable n s) : Sched s := by
  induction h with
  | init => constructor <;> simp [init]
  | step ev hr hs ih => exact sched_step ih (live hr) hs

/-- Scheduled tasks are moved at most once. -/
structure Moved (s : State) : Prop where
  once : ∀ t, (s.moved.map (·.task)).count t + (s.scheduled.map (·.task)).count t ≤ 1
  old : ∀ e ∈ s.moved, e.task < s.nextTask

theorem moved_step {s s' : State} {ev : Event} (h : Moved s) (hsc : Sched s)
    (hs : step s ev = some s') : Moved s' := by
  obtain ⟨h1, h2⟩ := h
  cases flow_step hs with
  | same hq hs hr hst hc hm hn hk => exact ⟨by simpa [hm, hs] using h1, by simpa [hm, hn] using h2⟩
  | submit prio fromTask hq hs hr hst hc hm hn hk =>
    refine ⟨by simpa [hm, hs] using h1, ?_⟩
    rw [hm, hn]; exact fun e he => Nat.lt_succ_of_lt (h2 e he)
  | schedule time prio hq hs hr hst hc hm hn hk =>
    refine ⟨?_, ?_⟩
    · intro t
      rw [hm, hs, count_insertTimed]
      simp only
      have := h1 t
      split
      · rename_i heq
        subst heq
        have e1 : (s.moved.map (·.task)).count s.nextTask = 0 := by
          rw [List.count_eq_zero]
          intro hmem
          obtain ⟨e, he, heq⟩ := List.mem_map.1 hmem
          have := h2 e he; omega
        have e2 : (s.scheduled.map (·.task)).count s.nextTask = 0 := by
          rw [List.count_eq_zero]
          intro hmem
          obtain ⟨e, he, heq⟩ := List.mem_map.1 hmem
          have := hsc.fresh e he; omega
        omega
      · omega
    · rw [hm, hn]; exact fun e he => Nat.lt_succ_of_lt (h2 e he)
  | move e he hq hs hr hst hc hm hn hk =>
    refine ⟨?_, ?_⟩
    · intro t
      rw [hm, hs]
      have := h1 t
      have := count_eraseTimed t e s.scheduled he
      simp only [List.map_append, List.map_cons, List.map_nil, List.count_append, List.count_singleton,
        beq_iff_eq]
      omega
    · rw [hm, hn]
      intro x hx
      rcases List.mem_append.1 hx with hx | hx
      · exact h2 x hx
      · rw [List.mem_singleton] at hx; subst hx; exact hsc.fresh x he
  | start e hq hs hr hst hc hm hn hk =>
    exact ⟨by simpa [hm, hs] using h1, by simpa [hm, hn] using h2⟩
  | complete t₀ hq hs hr hst hc hm hn hk =>
    exact ⟨by simpa [hm, hs] using h1, by simpa [hm, hn] using h2⟩

theorem moved {n : Nat} {s : State} (h : Reachable n s) : Moved s := by
  induction h with
  | init => constructor <;> simp [init]
  | step ev hr hs ih => exact moved_step ih (sched hr) hs

end Pluto.Pool
