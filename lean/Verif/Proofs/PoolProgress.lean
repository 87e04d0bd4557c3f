import Verif.Proofs.PoolStop

/-! # Lemmas about the thread pool: it does not come to rest too early, and it comes to rest -/

namespace Pluto.Pool
open Pluto.Spec.Pool

/-! ## A measure -/

def weight : Phase → Nat
  | .ready => 1
  | .blocked => 0
  | .running _ => 3
  | .finished _ => 2
  | .exited => 0

def weights (ws : List Phase) : Nat := (ws.map weight).sum

theorem weights_set {ws : List Phase} {i : Nat} {x : Phase} (y : Phase) (h : ws[i]? = some x) :
    weights (ws.set i y) + weight x = weights ws + weight y := by
  unfold weights
  induction ws generalizing i with
  | nil => simp at h
  | cons w ws ih =>
    cases i with
    | zero =>
      simp only [List.getElem?_cons_zero, Option.some.injEq] at h
      subst h
      simp only [List.set_cons_zero, List.map_cons, List.sum_cons]
      omega
    | succ i =>
      simp only [List.getElem?_cons_succ] at h
      have := ih h
      simp only [List.set_cons_succ, List.map_cons, List.sum_cons]
      omega

theorem weights_erase {ws : List Phase} {i : Nat} {x : Phase} (h : ws[i]? = some x) :
    weights (ws.eraseIdx i) + weight x = weights ws := by
  unfold weights
  induction ws generalizing i with
  | nil => simp at h
  | cons w ws ih =>
    cases i with
    | zero =>
      simp only [List.getElem?_cons_zero, Option.some.injEq] at h
      subst h
      simp only [List.eraseIdx_cons_zero, List.map_cons, List.sum_cons]
      omega
    | succ i =>
      simp only [List.getElem?_cons_succ] at h
      have := ih h
      simp only [List.eraseIdx_cons_succ, List.map_cons, List.sum_cons]
      omega

theorem weights_wake (ws : List Phase) : weights (ws.map wakeWorker) ≤ weights ws + ws.length := by
  unfold weights
  induction ws with
  | nil => simp
  | cons w ws ih =>
    simp only [List.map_cons, List.sum_cons, List.length_cons]
    have : weight (wakeWorker w) ≤ weight w + 1 := by cases w <;> simp [wakeWorker, weight]
    omega

theorem weights_wakeOne {woken : Option Nat} {ws ws' : List Phase}
    (h : wakeOne woken ws = some ws') : weights ws' ≤ weights ws + 1 := by
  rcases wakeOne_spec h with ⟨rfl, _⟩ | ⟨i, hi, rfl⟩
  · omega
  · have := weights_set .ready hi
    simp only [weight] at this
    omega

def sweight : SPhase → Nat
  | .ready => 1
  | .waiting _ _ => 0
  | .timedOut _ _ => 6
  | .exited => 0

def sweights (ss : List SPhase) : Nat := (ss.map sweight).sum

theorem sweights_set {ss : List SPhase} {i : Nat} {x : SPhase} (y : SPhase) (h : ss[i]? = some x) :
    sweights (ss.set i y) + sweight x = sweights ss + sweight y := by
  unfold sweights
  induction ss generalizing i with
  | nil => simp at h
  | cons w ss ih =>
    cases i with
    | zero =>
      simp only [List.getElem?_cons_zero, Option.some.injEq] at h
      subst h
      simp only [List.set_cons_zero, List.map_cons, List.sum_cons]
      omega
    | succ i =>
      simp only [List.getElem?_cons_succ] at h
      have := ih h
      simp only [List.set_cons_succ, List.map_cons, List.sum_cons]
      omega

/-- Work that is left, without the schedulers. -/
def work (s : State) : Nat :=
  4 * s.queue.length + 2 * s.pendingOne + (s.workers.length + 1) * s.pendingAll + weights s.workers

theorem work_pass {s : State} (a : Int) {i : Nat} {x : Phase} (hx : s.workers[i]? = some x)
    (hp : 0 < weight x) : work (workerPass { s with active := a } i) < work s := by
  unfold workerPass work
  simp only
  split
  · split
    · rename_i hq
      have := weights_set .blocked hx
      simp only [hq, List.length_nil, List.length_set]
      have e : weight .blocked = 0 := rfl
      omega
    · rename_i e rest hq
      have := weights_set (.running e.task) hx
      simp only [hq, List.length_cons, List.length_set]
      have e : weight (.running e.task) = 3 := rfl
      omega
  · split
    · have := weights_erase hx
      have hlt : i < s.workers.length := by
        rw [List.getElem?_eq_some_iff] at hx; exact hx.1
      have hl : (s.workers.eraseIdx i).length + 1 ≤ s.workers.length + 1 := by
        rw [List.length_eraseIdx_of_lt hlt]; omega
      have := Nat.mul_le_mul_right s.pendingAll hl
      simp only
      omega
    · have := weights_set .exited hx
      simp only [List.length_set]
      have e : weight .exited = 0 := rfl
      omega

theorem work_own {s s' : State} {ev : Event} (ho : Own ev = true) (hs : step s ev = some s') :
    work s' < work s ∧ s'.stopping = s.stopping ∧ s'.target = s.target ∧ s'.crash = s.crash := by
  obtain ⟨-, hs⟩ := step_cases hs
  have pass : ∀ (a : Int) (i : Nat), (workerPass { s with active := a } i).stopping = s.stopping ∧
      (workerPass { s with active := a } i).target = s.target ∧
      (workerPass { s with active := a } i).crash = s.crash := by
    intro a i
    unfold workerPass; split
    · split <;> simp
    · split <;> simp
  cases hs with
  | notifyOne woken ws hp hw =>
    refine ⟨?_, rfl, rfl, rfl⟩
    have := weights_wakeOne hw
    have hl := (wakeOne_cnt hw).1
    unfold work
    simp only [hl]
    omega
  | notifyAll hp =>
    refine ⟨?_, rfl, rfl, rfl⟩
    have := weights_wake s.workers
    unfold work
    simp only [List.length_map]
    obtain ⟨k, hk⟩ : ∃ k, s.pendingAll = k + 1 := ⟨s.pendingAll - 1, by omega⟩
    rw [hk, Nat.add_sub_cancel, Nat.mul_succ]
    omega
  | workerReady i hi => exact ⟨work_pass s.active hi (by decide), pass s.active i⟩
  | workerFinished i t hi => exact ⟨work_pass _ hi (by simp [weight]), pass _ i⟩
  | taskReturns i t hi =>
    refine ⟨?_, rfl, rfl, rfl⟩
    have := weights_set (.finished t) hi
    unfold work
    simp only [List.length_set]
    simp only [weight] at this
    omega
  | _ => cases ho

theorem own_run {s s' : State} {evs : List Event} (ho : ∀ ev ∈ evs, Own ev = true)
    (hs : run s evs = some s') :
    evs.length + work s' ≤ work s ∧ s'.stopping = s.stopping ∧ s'.target = s.target ∧
      s'.crash = s.crash := by
  induction evs generalizing s with
  | nil => simp only [run, Option.some.injEq] at hs; subst hs; simp
  | cons ev evs ih =>
    simp only [run] at hs
    cases hst : step s ev with
    | none => rw [hst] at hs; cases hs
    | some s1 =>
      rw [hst] at hs
      obtain ⟨h1, h2, h3, h4⟩ := ih (fun e he => ho e (List.mem_cons_of_mem _ he)) hs
      obtain ⟨g1, g2, g3, g4⟩ := work_own (ho ev (List.mem_cons_self ..)) hst
      refine ⟨?_, by rw [h2, g2], by rw [h3, g3], by rw [h4, g4]⟩
      simp only [List.length_cons]
      omega

/-- A worker that has something to do can do it. -/
theorem worker_enabled {s : State} (hc : s.crash = none) {i : Nat} {p : Phase}
    (hi : s.workers[i]? = some p) (hp : p = .ready ∨ ∃ t, p = .finished t) :
    ∃ s', step s (.worker i) = some s' := by
  rcases hp with rfl | ⟨t, rfl⟩
  · exact ⟨_, by simp only [step, hc, hi]; rfl⟩
  · exact ⟨_, by simp only [step, hc, hi]; rfl⟩

theorem return_enabled {s : State} (hc : s.crash = none) {i t : Nat}
    (hi : s.workers[i]? = some (.running t)) : ∃ s', step s (.taskReturns i) = some s' :=
  ⟨_, by simp only [step, hc, hi]; rfl⟩

theorem wakeOne_enabled (ws : List Phase) : ∃ woken ws', wakeOne woken ws = some ws' := by
  by_cases hb : Phase.blocked ∈ ws
  · obtain ⟨i, hi⟩ := List.mem_iff_getElem?.1 hb
    exact ⟨some i, ws.set i .ready, by simp [wakeOne, hi]⟩
  · exact ⟨none, ws, by simp [wakeOne, hb]⟩

/-- When the pool has nothing to do on its own, every worker sleeps or has ended. -/
theorem rest_workers {s : State} (hc : s.crash = none)
    (hq : ∀ i, step s (.worker i) = none) (hr : ∀ i, step s (.taskReturns i) = none) :
    ∀ p ∈ s.workers, p = .blocked ∨ p = .exited := by
  intro p hp
  obtain ⟨i, hi⟩ := List.mem_iff_getElem?.1 hp
  cases p with
  | ready => obtain ⟨s', h⟩ := worker_enabled hc hi (.inl rfl); rw [hq] at h; cases h
  | blocked => exact .inl rfl
  | running t => obtain ⟨s', h⟩ := return_enabled hc hi; rw [hr] at h; cases h
  | finished t => obtain ⟨s', h⟩ := worker_enabled hc hi (.inr ⟨t, rfl⟩); rw [hq] at h; cases h
  | exited => exact .inr rfl

theorem rest_cnt {ws : List Phase} (h : ∀ p ∈ ws, p = .blocked ∨ p = .exited) :
    cnt isReady ws = 0 ∧ cnt isActive ws = 0 ∧ ∀ t, cnt (isRunning t) ws = 0 := by
  unfold cnt
  refine ⟨?_, ?_, fun t => ?_⟩ <;>
  · rw [List.countP_eq_zero]
    intro p hp hr
    rcases h p hp with rfl | rfl <;> simp [isRunning] at hr

theorem rest {s : State} (hl : Live s) (hc : s.crash = none) (hns : s.stopping = false)
    (ht : 0 < s.target) (h : ∀ ev, Own ev = true → step s ev = none) :
    s.queue = [] ∧ s.active = 0 ∧ (∀ p ∈ s.workers, p = .blocked) ∧
      .blocked ∉ s.waitNone ∧ .blocked ∉ s.waitAll := by
  have hw := rest_workers hc (fun i => h _ rfl) (fun i => h _ rfl)
  obtain ⟨c1, c2, -⟩ := rest_cnt hw
  have tot := cnt_total s.workers
  have hex := hl.noExit hns
  have hlow := hl.low
  have p1 : s.pendingOne = 0 := by
    by_contra hp
    obtain ⟨woken, ws', hwk⟩ := wakeOne_enabled s.workers
    have := h (.notifyOne woken) rfl
    simp only [step, hc, hwk] at this
    simp [Nat.pos_of_ne_zero hp] at this
  have p2 : s.pendingAll = 0 := by
    by_contra hp
    have := h .notifyAll rfl
    simp only [step, hc] at this
    simp [Nat.pos_of_ne_zero hp] at this
  have hq : s.queue = [] := by
    have := hl.wake hns
    apply List.eq_nil_of_length_eq_zero
    omega
  have ha : s.active = 0 := by rw [hl.active, c2]; rfl
  refine ⟨hq, ha, ?_, fun hb => hl.waitNone hb hq, fun hb => ?_⟩
  · intro p hp
    rcases hw p hp with h | h
    · exact h
    · subst h
      obtain ⟨i, hi⟩ := List.mem_iff_getElem?.1 hp
      have := cnt_pos (p := isExited) hi rfl
      omega
  · rcases hl.waitAll hb hns ht with h | h | h | h
    · exact h hq
    · exact h ha
    · omega
    · omega

/-! ## The destructor -/

theorem schedulerIndex {n : Nat} {s : State} (h : Reachable n s) :
    (∀ i, s.scheduler = some i → i < s.schedulers.length) ∧ ∀ i ∈ s.assigning, i < s.schedulers.length := by
  induction h with
  | init => simp [init]
  | @step s s' ev hr hs ih =>
    obtain ⟨-, hs⟩ := step_cases hs
    have pass : ∀ (s : State) (i : Nat), ((∀ i, s.scheduler = some i → i < s.schedulers.length) ∧
        ∀ i ∈ s.assigning, i < s.schedulers.length) →
        (∀ j, (schedulerPass s i).scheduler = some j → j < (schedulerPass s i).schedulers.length) ∧
        ∀ j ∈ (schedulerPass s i).assigning, j < (schedulerPass s i).schedulers.length := by
      intro s i ih
      unfold schedulerPass; split
      · simpa using ih
      · simpa using ih
      · split
        · simpa using ih.2
        · exact ih
    cases hs with
    | runAt time prio caller hc =>
      unfold runAt; simp only; split
      · exact ih
      · split <;> exact ih
    | runAfter d prio caller hc =>
      unfold runAt; simp only; split
      · exact ih
      · split <;> exact ih
    | createScheduler hp =>
      refine ⟨fun i hi => ?_, fun i hi => ?_⟩
      · have := ih.1 i hi; simp only [List.length_append, List.length_singleton]; omega
      · simp only [List.length_append, List.length_singleton]
        rcases List.mem_cons.1 hi with rfl | hi
        · omega
        · have := ih.2 i hi; omega
    | assignScheduler i hi hj =>
      refine ⟨fun j hj => ?_, fun j hj => ih.2 j (List.mem_of_mem_erase hj)⟩
      cases hj; exact ih.2 i hi
    | notifyScheduler i e n hp hi => simpa using ih
    | spuriousScheduler i e n hi => simpa using ih
    | workerReady i hi =>
      unfold workerPass; split
      · split <;> exact ih
      · split <;> exact ih
    | workerFinished i t hi =>
      unfold workerPass; split
      · split <;> exact ih
      · split <;> exact ih
    | schedulerTimeout i e n hi ht => simpa using ih
    | schedulerReady i hi => exact pass s i ih
    | schedulerMoves i woken e n ws hi he hw => exact pass _ i ih
    | stopNotifyScheduler hst => simpa using ih
    | _ => exact ih

/-- Work that is left while the destructor joins the threads. -/
def endWork (s : State) : Nat := 4 * s.queue.length + weights s.workers + sweights s.schedulers

theorem endWork_pass {s : State} (hst : s.stopping = true) (a : Int) {i : Nat} {x : Phase}
    (hx : s.workers[i]? = some x) (hp : 0 < weight x) :
    endWork (workerPass { s with active := a } i) < endWork s := by
  unfold workerPass endWork
  simp only
  split
  · split
    · rename_i hq
      have := weights_set .blocked hx
      simp only [hq, List.length_nil]
      have e : weight .blocked = 0 := rfl
      omega
    · rename_i e rest hq
      have := weights_set (.running e.task) hx
      simp only [hq, List.length_cons]
      have e : weight (.running e.task) = 3 := rfl
      omega
  · rw [if_neg (by simp [hst])]
    have := weights_set .exited hx
    have e : weight .exited = 0 := rfl
    simp only
    omega

theorem schedulerPass_stopping {s : State} (hst : s.stopping = true) (i : Nat) :
    schedulerPass s i = { s with schedulers := s.schedulers.set i .exited } := by
  unfold schedulerPass
  split
  · rename_i h; rw [hst] at h; cases h
  · rfl
  · rename_i h; rw [hst] at h; cases h

theorem ending_step {s s' : State} {ev : Event} (he : Ending ev = true) (hl : Live s)
    (hst : s.stage = .joining) (hs : step s ev = some s') (hcr : s'.crash = none) :
    endWork s' < endWork s ∧ s'.stage = .joining := by
  obtain ⟨-, hs⟩ := step_cases hs
  have hstop : s.stopping = true := hl.stage.2 (by rw [hst]; decide)
  have pass : ∀ (a : Int) (i : Nat), (workerPass { s with active := a } i).stage = s.stage := by
    intro a i
    unfold workerPass; split
    · split <;> rfl
    · split <;> rfl
  cases hs with
  | workerReady i hi =>
    exact ⟨endWork_pass hstop s.active hi (by decide), by rw [← hst]; exact pass s.active i⟩
  | workerFinished i t hi =>
    exact ⟨endWork_pass hstop _ hi (by simp [weight]), by rw [← hst]; exact pass _ i⟩
  | taskReturns i t hi =>
    refine ⟨?_, hst⟩
    have := weights_set (.finished t) hi
    unfold endWork
    simp only [weight] at this
    simp only
    omega
  | schedulerReady i hi =>
    rw [schedulerPass_stopping hstop]
    refine ⟨?_, hst⟩
    have := sweights_set .exited hi
    unfold endWork
    simp only [sweight] at this
    simp only
    omega
  | schedulerDangling i woken e n hi he => cases hcr
  | schedulerMoves i woken e n ws hi he hw =>
    rw [schedulerPass_stopping (by exact hstop)]
    refine ⟨?_, hst⟩
    have h1 := sweights_set .exited hi
    have h2 := weights_wakeOne hw
    have h3 := length_insertEntry ⟨e.prio, e.task, s.nextSeq, false⟩ s.queue
    unfold endWork
    simp only [sweight] at h1
    simp only [enqueue, h3]
    omega
  | _ => cases he

theorem ending_run {n : Nat} {s s' : State} {evs : List Event} (he : ∀ ev ∈ evs, Ending ev = true)
    (hr : Reachable n s) (hst : s.stage = .joining) (hs : run s evs = some s')
    (hcr : s'.crash = none) : evs.length + endWork s' ≤ endWork s ∧ s'.stage = .joining := by
  induction evs generalizing s with
  | nil => simp only [run, Option.some.injEq] at hs; subst hs; simp [hst]
  | cons ev evs ih =>
    simp only [run] at hs
    cases hstp : step s ev with
    | none => rw [hstp] at hs; cases hs
    | some s1 =>
      rw [hstp] at hs
      have hcr1 : s1.crash = none := by
        cases evs with
        | nil => simp only [run, Option.some.injEq] at hs; subst hs; exact hcr
        | cons ev' evs' =>
          simp only [run] at hs
          cases hstp' : step s1 ev' with
          | none => rw [hstp'] at hs; cases hs
          | some s2 => exact (step_cases hstp').1
      obtain ⟨g1, g2⟩ := ending_step (he ev (List.mem_cons_self ..)) (live hr) hst hstp hcr1
      obtain ⟨h1, h2⟩ := ih (fun e h => he e (List.mem_cons_of_mem _ h)) (.step ev hr hstp) g2 hs
      refine ⟨?_, h2⟩
      simp only [List.length_cons]
      omega

theorem ending_rest {n : Nat} {s : State} (hr : Reachable n s) (hc : s.crash = none)
    (hst : s.stage = .joining) (h : ∀ ev, Ending ev = true → step s ev = none) :
    (∀ p ∈ s.workers, p = .exited) ∧ (∀ p ∈ s.schedulers, p = .exited) ∧
      ∃ s', step s .stopReturns = some s' ∧ s'.stage = .destroyed := by
  have hl := live hr
  have hw := rest_workers hc (fun i => h _ rfl) (fun i => h _ rfl)
  have hb := hl.awake (by rw [hst]; decide) (by rw [hst]; decide)
  have hw' : ∀ p ∈ s.workers, p = .exited := by
    intro p hp
    rcases hw p hp with rfl | h
    · obtain ⟨i, hi⟩ := List.mem_iff_getElem?.1 hp
      have := cnt_pos (p := isBlocked) hi rfl
      omega
    · exact h
  have hs : ∀ p ∈ s.schedulers, p = .exited := by
    intro p hp
    obtain ⟨i, hi⟩ := List.mem_iff_getElem?.1 hp
    cases p with
    | ready =>
      have := h (.scheduler i none) rfl
      simp only [step, hc, hi] at this
      simp at this
    | waiting e k => exact absurd hp ((sched hr).awake (.inl hst) e k)
    | timedOut e k =>
      obtain ⟨woken, ws', hwk⟩ := wakeOne_enabled s.workers
      have := h (.scheduler i woken) rfl
      simp only [step, hc, hi, moveTimed, hwk] at this
      by_cases hm : e ∈ s.scheduled
      · simp [hm] at this
      · simp [hm] at this
    | exited => rfl
  refine ⟨hw', hs, ?_⟩
  have hse : schedulerEnded s = true := by
    unfold schedulerEnded
    split
    · rename_i i hi
      have hlt := (schedulerIndex hr).1 i hi
      have := hs _ (List.getElem_mem hlt)
      rw [List.getElem?_eq_getElem hlt, this]
      rfl
    · rfl
  refine ⟨{ s with stage := .destroyed }, ?_, rfl⟩
  simp only [step, hc]
  simp [hst, hse]
  exact hw'

theorem count_set_ge {ws : List Wait} {i : Nat} : ws.count .blocked ≤ (ws.set i .blocked).count .blocked := by
  induction ws generalizing i with
  | nil => simp
  | cons w ws ih =>
    cases i with
    | zero =>
      simp only [List.set_cons_zero, List.count_cons]
      split <;> simp
    | succ i =>
      simp only [List.set_cons_succ, List.count_cons]
      have := ih (i := i)
      omega

theorem count_erase_ge {ws : List Wait} {i : Nat} (h : ws[i]? = some .checking) :
    ws.count .blocked ≤ (ws.eraseIdx i).count .blocked := by
  induction ws generalizing i with
  | nil => simp
  | cons w ws ih =>
    cases i with
    | zero =>
      simp only [List.getElem?_cons_zero, Option.some.injEq] at h
      subst h
      simp
    | succ i =>
      simp only [List.eraseIdx_cons_succ, List.count_cons]
      have := ih (i := i) (by simpa using h)
      omega

theorem pass_asleep {s : State} {i : Nat} {p : Phase} (ht : s.target = 0) (hi : s.workers[i]? = some p) :
    (workerPass s i).target = 0 ∧ (workerPass s i).waitAll = s.waitAll := by
  have : ¬ s.workers.length ≤ s.target := by
    rw [List.getElem?_eq_some_iff] at hi
    obtain ⟨h, _⟩ := hi
    omega
  unfold workerPass
  rw [if_neg (fun h => this h.1)]
  split <;> exact ⟨ht, rfl⟩

theorem schedulerPass_keeps (s : State) (i : Nat) :
    (schedulerPass s i).target = s.target ∧ (schedulerPass s i).waitAll = s.waitAll := by
  unfold schedulerPass
  split
  · exact ⟨rfl, rfl⟩
  · exact ⟨rfl, rfl⟩
  · split <;> exact ⟨rfl, rfl⟩

/-- While the target is 0 no caller of `wait_until_all_tasks_complete` is woken. -/
theorem asleep_step {s s' : State} {ev : Event} (ht : s.target = 0) (hs : step s ev = some s')
    (hz : ∀ n c, ev = .setTarget n c → n = 0) (hsp : ∀ i, ev ≠ .spuriousAll i) :
    s'.target = 0 ∧ s.waitAll.count .blocked ≤ s'.waitAll.count .blocked := by
  obtain ⟨-, hs⟩ := step_cases hs
  cases hs with
  | runAt => unfold runAt; simp only; split <;> (try split) <;> exact ⟨ht, Nat.le_refl _⟩
  | runAfter => unfold Pluto.Pool.runAt; simp only; split <;> (try split) <;> exact ⟨ht, Nat.le_refl _⟩
  | grow n c => exact ⟨hz n c rfl, Nat.le_refl _⟩
  | shrink n c => exact ⟨hz n c rfl, Nat.le_refl _⟩
  | spuriousAll i => exact absurd rfl (hsp i)
  | workerReady i hi =>
    obtain ⟨h1, h2⟩ := pass_asleep ht hi
    exact ⟨h1, by rw [h2]⟩
  | workerFinished i t hi =>
    obtain ⟨h1, h2⟩ := pass_asleep (s := { s with active := s.active - 1 }) ht hi
    exact ⟨h1, by rw [h2]⟩
  | schedulerReady i =>
    obtain ⟨h1, h2⟩ := schedulerPass_keeps s i
    exact ⟨by rw [h1]; exact ht, by rw [h2]⟩
  | schedulerMoves i woken e n ws =>
    obtain ⟨h1, h2⟩ := schedulerPass_keeps { enqueue s e.prio e.task false with
      scheduled := s.scheduled.erase e, workers := ws, moved := s.moved ++ [e] } i
    exact ⟨by rw [h1]; exact ht, by rw [h2]; exact Nat.le_refl _⟩
  | callWaitAll => exact ⟨ht, by simp [List.count_append]⟩
  | waitAllBlocks => exact ⟨ht, count_set_ge⟩
  | waitAllReturns i hi => exact ⟨ht, count_erase_ge hi⟩
  | _ => exact ⟨ht, Nat.le_refl _⟩

end Pluto.Pool
