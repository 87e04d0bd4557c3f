import Verif.Model.PoolExit
import Verif.Spec.PoolExit
import Verif.Proofs.PoolNest

/-!
# Proofs about who destroys the pool
-/

namespace Pluto.PoolExit
open Pluto.PoolNest (actor taskOf)
open Pluto.Spec.PoolExit (Rest)

/-! ## What a step of the pool leaves alone once the flag is set -/

theorem wakeOne_kept {woken : Option Nat} {ws ws' : List Pool.Phase}
    (h : Pool.wakeOne woken ws = some ws') :
    ws'.length = ws.length ∧
      ∀ (i : Nat) (p : Pool.Phase), p ≠ .blocked → ws[i]? = some p → ws'[i]? = some p := by
  unfold Pool.wakeOne at h
  split at h
  · rename_i j
    split at h
    · rename_i hj
      cases h
      refine ⟨List.length_set .., fun i p hp hi => ?_⟩
      rw [List.getElem?_set_ne, hi]
      rintro rfl
      rw [hj] at hi
      exact hp (Option.some.inj hi).symm
    · cases h
  · split at h
    · cases h
    · cases h; exact ⟨rfl, fun _ _ _ h => h⟩

theorem map_kept (ws : List Pool.Phase) :
    (ws.map Pool.wakeWorker).length = ws.length ∧
      ∀ (i : Nat) (p : Pool.Phase), p ≠ .blocked → ws[i]? = some p →
        (ws.map Pool.wakeWorker)[i]? = some p := by
  refine ⟨List.length_map .., fun i p hp hi => ?_⟩
  rw [List.getElem?_map, hi]
  cases p <;> first | rfl | exact absurd rfl hp

theorem set_kept {ws : List Pool.Phase} {j : Nat} {x : Pool.Phase} (y : Pool.Phase)
    (hj : ws[j]? = some x) :
    (ws.set j y).length = ws.length ∧
      ∀ (i : Nat) (p : Pool.Phase), p ≠ x → ws[i]? = some p → (ws.set j y)[i]? = some p := by
  refine ⟨List.length_set .., fun i p hp hi => ?_⟩
  rw [List.getElem?_set_ne, hi]
  rintro rfl
  rw [hj] at hi
  exact hp (Option.some.inj hi).symm

theorem pass_kept {s : Pool.State} {j : Nat} {x : Pool.Phase} (hst : s.stopping = true)
    (hj : s.workers[j]? = some x) :
    (Pool.workerPass s j).stopping = true ∧
    (Pool.workerPass s j).workers.length = s.workers.length ∧
      ∀ (i : Nat) (p : Pool.Phase), p ≠ x → s.workers[i]? = some p →
        (Pool.workerPass s j).workers[i]? = some p := by
  unfold Pool.workerPass
  split
  · split
    · exact ⟨hst, set_kept _ hj⟩
    · exact ⟨hst, set_kept _ hj⟩
  · rw [if_neg (by simp [hst])]
    exact ⟨hst, set_kept _ hj⟩

theorem schedulerPass_kept (s : Pool.State) (i : Nat) :
    (Pool.schedulerPass s i).stopping = s.stopping ∧
      (Pool.schedulerPass s i).workers = s.workers := by
  unfold Pool.schedulerPass
  split
  · exact ⟨rfl, rfl⟩
  · exact ⟨rfl, rfl⟩
  · split <;> exact ⟨rfl, rfl⟩

theorem runAt_kept (s : Pool.State) (time prio : Int) :
    (Pool.runAt s time prio).stopping = s.stopping ∧
      (Pool.runAt s time prio).workers = s.workers := by
  unfold Pool.runAt
  simp only
  split
  · exact ⟨rfl, rfl⟩
  · split <;> exact ⟨rfl, rfl⟩

/-- Once the flag is set no worker joins or leaves the pool, and a worker that calls a task
goes on to call it until that task returns. -/
theorem kept {s s' : Pool.State} {ev : Pool.Event} (h : Pool.step s ev = some s')
    (hst : s.stopping = true) :
    s'.stopping = true ∧ s'.workers.length = s.workers.length ∧
      ∀ (i t : Nat), s.workers[i]? = some (.running t) → actor s ev ≠ some t →
        s'.workers[i]? = some (.running t) := by
  have same : ∀ {q : Pool.State}, q.stopping = s.stopping → q.workers = s.workers →
      q.stopping = true ∧ q.workers.length = s.workers.length ∧
      ∀ (i t : Nat), s.workers[i]? = some (.running t) → actor s ev ≠ some t →
        q.workers[i]? = some (.running t) := by
    intro q h1 h2
    rw [h1, h2]
    exact ⟨hst, rfl, fun _ _ h _ => h⟩
  obtain ⟨-, hs⟩ := Pool.step_cases h
  cases hs with
  | grow n caller hc hs hn => rw [hst] at hs; cases hs
  | shrink n caller hc hs hn => rw [hst] at hs; cases hs
  | runAt time prio caller hc =>
    exact same (runAt_kept ..).1 (runAt_kept ..).2
  | runAfter d prio caller hc =>
    exact same (runAt_kept ..).1 (runAt_kept ..).2
  | notifyOne woken ws hp hw =>
    obtain ⟨h1, h2⟩ := wakeOne_kept hw
    exact ⟨hst, h1, fun i t hi _ => h2 i _ (by simp) hi⟩
  | notifyAll hp =>
    obtain ⟨h1, h2⟩ := map_kept s.workers
    exact ⟨hst, h1, fun i t hi _ => h2 i _ (by simp) hi⟩
  | stopNotifyWorkers hp =>
    obtain ⟨h1, h2⟩ := map_kept s.workers
    exact ⟨hst, h1, fun i t hi _ => h2 i _ (by simp) hi⟩
  | spuriousWorker j hj =>
    obtain ⟨h1, h2⟩ := set_kept .ready hj
    exact ⟨hst, h1, fun i t hi _ => h2 i _ (by simp) hi⟩
  | workerReady j hj =>
    obtain ⟨h0, h1, h2⟩ := pass_kept hst hj
    exact ⟨h0, h1, fun i t hi _ => h2 i _ (by simp) hi⟩
  | workerFinished j u hj =>
    obtain ⟨h0, h1, h2⟩ := pass_kept (s := { s with active := s.active - 1 }) hst hj
    exact ⟨h0, h1, fun i t hi _ => h2 i _ (by simp) hi⟩
  | taskReturns j u hj =>
    obtain ⟨h1, h2⟩ := set_kept (.finished u) hj
    refine ⟨hst, h1, fun i t hi ha => h2 i _ ?_ hi⟩
    intro e
    cases e
    exact ha (by simp [actor, taskOf, hj])
  | schedulerReady i hi => exact same (schedulerPass_kept ..).1 (schedulerPass_kept ..).2
  | schedulerMoves j woken e n ws hj he hw =>
    obtain ⟨h1, h2⟩ := wakeOne_kept hw
    rw [(schedulerPass_kept ..).1, (schedulerPass_kept ..).2]
    exact ⟨hst, h1, fun i t hi _ => h2 i _ (by simp) hi⟩
  | stop h => exact ⟨rfl, rfl, fun _ _ h _ => h⟩
  | _ => exact same rfl rfl

/-! ## Steps -/

/-- The cases of a step. -/
inductive Stepped (s : State) : Event → State → Prop where
  | pool (ev : Pool.Event) (p : Pool.State) (h1 : ev ≠ .stopNotifyScheduler)
      (h2 : ∀ t, s.by_ = some t → actor s.pool ev ≠ some t)
      (h3 : ev = .stopReturns → s.todo = []) (h : Pool.step s.pool ev = some p) :
    Stepped s (.pool ev) { s with pool := p }
  | destroy (t : Nat) (p : Pool.State) (ht : .running t ∈ s.pool.workers)
      (h : Pool.step s.pool .stop = some p) :
    Stepped s (.destroy t) { s with pool := p, by_ := some t }
  | joins (order : List Nat) (p : Pool.State)
      (ho : order.Perm (List.range s.pool.workers.length))
      (h : Pool.step s.pool .stopNotifyScheduler = some p) :
    Stepped s (.joins order) { s with pool := p, todo := order }
  | itself (i t : Nat) (rest : List Nat) (h : s.todo = i :: rest) (ht : s.by_ = some t)
      (hi : s.pool.workers[i]? = some (.running t)) (hst : s.pool.stage = .joining)
      (hc : s.pool.crash = none) :
    Stepped s .join { s with terminated := true }
  | join (i : Nat) (rest : List Nat) (h : s.todo = i :: rest)
      (hi : s.pool.workers[i]? = some .exited) (hst : s.pool.stage = .joining)
      (hc : s.pool.crash = none) :
    Stepped s .join { s with todo := rest }

theorem step_cases {s s' : State} {ev : Event} (h : step s ev = some s') :
    s.terminated = false ∧ Stepped s ev s' := by
  unfold step at h
  split at h
  · cases h
  · rename_i hterm
    refine ⟨by simpa using hterm, ?_⟩
    cases ev with
    | pool ev =>
      simp only [poolStep] at h
      split at h
      · cases h
      · rename_i h1
        split at h
        · cases h
        · rename_i h2
          split at h
          · cases h
          · rename_i h3
            obtain ⟨p, hp, rfl⟩ := Option.map_eq_some_iff.1 h
            refine .pool ev p h1 (fun t hb ha => h2 ?_) (fun e => ?_) hp
            · rw [hb, ha]; exact ⟨rfl, rfl⟩
            · by_contra ht; exact h3 ⟨e, ht⟩
    | destroy t =>
      simp only at h
      split at h
      · rename_i ht
        obtain ⟨p, hp, rfl⟩ := Option.map_eq_some_iff.1 h
        exact .destroy t p (by simpa using ht) hp
      · cases h
    | joins order =>
      simp only at h
      split at h
      · rename_i ho
        obtain ⟨p, hp, rfl⟩ := Option.map_eq_some_iff.1 h
        exact .joins order p (List.isPerm_iff.1 ho) hp
      · cases h
    | join =>
      simp only at h
      split at h
      · rename_i hj
        unfold join at h
        split at h
        · cases h
        · rename_i i rest htodo
          split at h
          · rename_i hi
            cases h
            obtain ⟨t, ht⟩ := Option.isSome_iff_exists.1 hi.1
            exact .itself i t rest htodo ht
              (PoolNest.taskOf_running (hi.2.trans ht)) hj.1 hj.2
          · split at h
            · rename_i hi
              cases h
              exact .join i rest htodo hi hj.1 hj.2
            · cases h
      · cases h

theorem reachable_run {n : Nat} {s s' : State} {evs : List Event} (h : Reachable n s)
    (hr : run s evs = some s') : Reachable n s' := by
  induction evs generalizing s with
  | nil => simp only [run, Option.some.injEq] at hr; subst hr; exact h
  | cons ev evs ih =>
    simp only [run] at hr
    cases hst : step s ev with
    | none => rw [hst] at hr; cases hr
    | some s1 => rw [hst] at hr; exact ih (.step ev h hst) hr

/-- Every execution is one of the pool. -/
theorem pool_reachable {n : Nat} {s : State} (h : Reachable n s) : Pool.Reachable n s.pool := by
  induction h with
  | init => exact .init
  | step ev _ hs ih =>
    obtain ⟨-, hs⟩ := step_cases hs
    cases hs with
    | pool ev p h1 h2 h3 h => exact .step ev ih h
    | destroy t p ht h => exact .step _ ih h
    | joins order p ho h => exact .step _ ih h
    | itself => exact ih
    | join => exact ih

/-! ## The invariant -/

/-- The task that has called the destructor goes on, and the loop has still to join its
worker. -/
structure Inv (s : State) : Prop where
  begun : ∀ t, s.by_ = some t → s.pool.stopping = true
  runs : ∀ t, s.by_ = some t → ∃ i, s.pool.workers[i]? = some (.running t) ∧
    (s.pool.stage = .joining → i ∈ s.todo)
  bound : ∀ i ∈ s.todo, i < s.pool.workers.length
  early : s.pool.stage ≠ .joining → s.pool.stage ≠ .destroyed → s.todo = []
  done : s.pool.stage = .destroyed → s.todo = []

theorem stage_stop {p p' : Pool.State} (h : Pool.step p .stop = some p') :
    p.stage = .alive ∧ p' = { p with stopping := true, stage := .flagged, stopSeq := p.nextSeq } := by
  obtain ⟨-, hs⟩ := Pool.step_cases h
  cases hs with
  | stop g => exact ⟨g, rfl⟩

theorem stage_sched {p p' : Pool.State} (h : Pool.step p .stopNotifyScheduler = some p') :
    p.stage = .notifiedWorkers ∧
      p' = { p with schedulers := p.schedulers.map Pool.wakeScheduler, stage := .joining } := by
  obtain ⟨-, hs⟩ := Pool.step_cases h
  cases hs with
  | stopNotifyScheduler g => exact ⟨g, rfl⟩

theorem pass_stage (s : Pool.State) (i : Nat) : (Pool.workerPass s i).stage = s.stage := by
  unfold Pool.workerPass
  split
  · split <;> rfl
  · split <;> rfl

theorem schedulerPass_stage (s : Pool.State) (i : Nat) :
    (Pool.schedulerPass s i).stage = s.stage := by
  unfold Pool.schedulerPass
  split
  · rfl
  · rfl
  · split <;> rfl

theorem runAt_stage (s : Pool.State) (time prio : Int) :
    (Pool.runAt s time prio).stage = s.stage := by
  unfold Pool.runAt
  simp only
  split
  · rfl
  · split <;> rfl

/-- How the stage changes. -/
theorem stage_step {p p' : Pool.State} {ev : Pool.Event} (h : Pool.step p ev = some p')
    (h1 : ev ≠ .stopNotifyScheduler) :
    p'.stage = p.stage ∨ (p.stage = .alive ∧ p'.stage = .flagged) ∨
      (p.stage = .flagged ∧ p'.stage = .notifiedWorkers) ∨
      (ev = .stopReturns ∧ p.stage = .joining ∧ p'.stage = .destroyed ∧
        ∀ x ∈ p.workers, x = .exited) := by
  obtain ⟨-, hs⟩ := Pool.step_cases h
  cases hs with
  | stop g => exact .inr (.inl ⟨g, rfl⟩)
  | stopNotifyWorkers g => exact .inr (.inr (.inl ⟨g, rfl⟩))
  | stopNotifyScheduler h => exact absurd rfl h1
  | stopReturns g hw hs => exact .inr (.inr (.inr ⟨rfl, g, rfl, hw⟩))
  | runAt => exact .inl (runAt_stage ..)
  | runAfter => exact .inl (runAt_stage ..)
  | workerReady => exact .inl (pass_stage ..)
  | workerFinished => exact .inl (pass_stage ..)
  | schedulerReady => exact .inl (schedulerPass_stage ..)
  | schedulerMoves => exact .inl (schedulerPass_stage ..)
  | _ => exact .inl rfl

theorem inv {n : Nat} {s : State} (h : Reachable n s) : Inv s := by
  induction h with
  | init => constructor <;> simp [init]
  | @step s s' ev hr hs ih =>
    have hl := Pool.live (pool_reachable hr)
    obtain ⟨-, hs⟩ := step_cases hs
    cases hs with
    | pool ev p h1 h2 h3 h =>
      have hstage := stage_step h h1
      have len : s.pool.stopping = true → p.workers.length = s.pool.workers.length :=
        fun e => (kept h e).2.1
      constructor
      · intro t ht; exact (kept h (ih.begun t ht)).1
      · intro t ht
        obtain ⟨i, hi, hj⟩ := ih.runs t ht
        refine ⟨i, (kept h (ih.begun t ht)).2.2 i t hi (h2 t ht), fun hst => ?_⟩
        rcases hstage with e | ⟨-, e⟩ | ⟨-, e⟩ | ⟨-, -, e, -⟩
        · exact hj (e ▸ hst)
        · rw [e] at hst; cases hst
        · rw [e] at hst; cases hst
        · rw [e] at hst; cases hst
      · intro i hi
        have hst : s.pool.stopping = true := by
          rw [hl.stage]
          intro e
          have := ih.early (by rw [e]; decide) (by rw [e]; decide)
          simp only at hi
          rw [this] at hi; cases hi
        simp only
        rw [len hst]
        exact ih.bound i hi
      · intro a b
        simp only at a b ⊢
        rcases hstage with e | ⟨e, -⟩ | ⟨e, -⟩ | ⟨-, -, e, -⟩
        · exact ih.early (e ▸ a) (e ▸ b)
        · exact ih.early (by rw [e]; decide) (by rw [e]; decide)
        · exact ih.early (by rw [e]; decide) (by rw [e]; decide)
        · exact absurd e b
      · intro a
        simp only at a ⊢
        rcases hstage with e | ⟨-, e⟩ | ⟨-, e⟩ | ⟨e, -⟩
        · exact ih.done (e ▸ a)
        · rw [e] at a; cases a
        · rw [e] at a; cases a
        · exact h3 e
    | destroy t p ht h =>
      obtain ⟨ha, rfl⟩ := stage_stop h
      have he := ih.early (by rw [ha]; decide) (by rw [ha]; decide)
      constructor
      · intro _ _; rfl
      · intro u hu
        cases hu
        obtain ⟨i, hi⟩ := List.mem_iff_getElem?.1 ht
        exact ⟨i, hi, fun e => by cases e⟩
      · intro i hi; simp only [he] at hi; cases hi
      · intro _ _; exact he
      · intro e; cases e
    | joins order p ho h =>
      obtain ⟨ha, rfl⟩ := stage_sched h
      constructor
      · exact ih.begun
      · intro u hu
        obtain ⟨i, hi, -⟩ := ih.runs u hu
        refine ⟨i, hi, fun _ => ?_⟩
        obtain ⟨hlt, -⟩ := List.getElem?_eq_some_iff.1 hi
        exact ho.mem_iff.2 (List.mem_range.2 hlt)
      · intro i hi; exact List.mem_range.1 (ho.mem_iff.1 hi)
      · intro a; exact absurd rfl a
      · intro e; cases e
    | itself i t rest h ht hi hst hc => exact ⟨ih.begun, ih.runs, ih.bound, ih.early, ih.done⟩
    | join i rest h hi hst hc =>
      constructor
      · exact ih.begun
      · intro u hu
        obtain ⟨j, hj, hm⟩ := ih.runs u hu
        refine ⟨j, hj, fun e => ?_⟩
        have := hm e
        rw [h] at this
        rcases List.mem_cons.1 this with rfl | h'
        · rw [hi] at hj; cases hj
        · exact h'
      · intro j hj
        exact ih.bound j (by rw [h]; exact List.mem_cons_of_mem _ hj)
      · intro a; exact absurd hst a
      · intro e; simp only at e; rw [hst] at e; cases e

/-! ## The end -/

/-- Work that is left: the threads, the loop, and the termination. -/
def left (s : State) : Nat :=
  Pool.endWork s.pool + s.todo.length + (if s.terminated = false then 1 else 0)

theorem ending_step {n : Nat} {s s' : State} {ev : Event} (he : Spec.PoolExit.Ending ev = true)
    (hr : Reachable n s) (hst : s.pool.stage = .joining) (h : step s ev = some s')
    (hc : s'.pool.crash = none) :
    left s' + 1 ≤ left s ∧ s'.by_ = s.by_ ∧ s'.pool.stage = .joining := by
  obtain ⟨hterm, hs⟩ := step_cases h
  cases hs with
  | pool ev p h1 h2 h3 g =>
    obtain ⟨g1, g2⟩ := Pool.ending_step he (Pool.live (pool_reachable hr)) hst g hc
    refine ⟨?_, rfl, g2⟩
    simp only [left]
    omega
  | destroy t p ht h => cases he
  | joins order p ho h => cases he
  | itself i t rest h ht hi hst hc =>
    refine ⟨?_, rfl, hst⟩
    simp [left, hterm]
  | join i rest g hi hst hc =>
    refine ⟨?_, rfl, hst⟩
    simp only [left, g, List.length_cons]
    omega

theorem ending_run {n : Nat} {s s' : State} {evs : List Event}
    (he : ∀ ev ∈ evs, Spec.PoolExit.Ending ev = true) (hr : Reachable n s)
    (hst : s.pool.stage = .joining) (h : run s evs = some s') (hc : s'.pool.crash = none) :
    evs.length + left s' ≤ left s ∧ s'.by_ = s.by_ ∧ s'.pool.stage = .joining := by
  induction evs generalizing s with
  | nil => simp only [run, Option.some.injEq] at h; subst h; simp [hst]
  | cons ev evs ih =>
    simp only [run] at h
    cases hstp : step s ev with
    | none => rw [hstp] at h; cases h
    | some s1 =>
      rw [hstp] at h
      have hcr1 : s1.pool.crash = none := by
        cases evs with
        | nil => simp only [run, Option.some.injEq] at h; subst h; exact hc
        | cons ev' evs' =>
          simp only [run] at h
          cases hstp' : step s1 ev' with
          | none => rw [hstp'] at h; cases h
          | some s2 =>
            obtain ⟨-, g⟩ := step_cases hstp'
            have hev := he ev' (by simp)
            cases g with
            | pool ev p h1 h2 h3 k => exact (Pool.step_cases k).1
            | destroy t p ht k => exact (Pool.step_cases k).1
            | joins order p ho k => exact (Pool.step_cases k).1
            | itself i t rest h ht hi hst hc => exact hc
            | join i rest h hi hst hc => exact hc
      obtain ⟨g1, g2, g3⟩ := ending_step (he ev (List.mem_cons_self ..)) hr hst hstp hcr1
      obtain ⟨k1, k2, k3⟩ := ih (fun e h => he e (List.mem_cons_of_mem _ h)) (.step ev hr hstp) g3 h
      refine ⟨?_, k2.trans g2, k3⟩
      simp only [List.length_cons]
      omega

/-- When nothing remains to be done, the destructor returns, unless the loop has come to the
worker that has called it. -/
theorem rest {n : Nat} {s : State} (hr : Reachable n s) (hc : s.pool.crash = none)
    (hst : s.pool.stage = .joining) (hterm : s.terminated = false) (h : Rest s) :
    s.by_ = none ∧ ∃ s', step s (.pool .stopReturns) = some s' ∧ s'.pool.stage = .destroyed := by
  have hi := inv hr
  have hpr := pool_reachable hr
  have hl := Pool.live hpr
  have hnt : ¬ s.terminated = true := by simp [hterm]
  have stepPool : ∀ ev, Spec.Pool.Ending ev = true → (∀ t, s.by_ = some t → actor s.pool ev ≠ some t) →
      Pool.step s.pool ev = none := by
    intro ev he h3
    have h1 : ev ≠ .stopReturns := by rintro rfl; cases he
    have h2 : ev ≠ .stopNotifyScheduler := by rintro rfl; cases he
    have := h (.pool ev) he
    unfold step at this
    rw [if_neg hnt] at this
    simp only [poolStep] at this
    rw [if_neg h2, if_neg, if_neg (fun e => h1 e.1)] at this
    · simpa using this
    · rintro ⟨a, b⟩
      obtain ⟨t, ht⟩ := Option.isSome_iff_exists.1 a
      exact h3 t (b ▸ ht) ht
  have hb := hl.awake (by rw [hst]; decide) (by rw [hst]; decide)
  have hw : ∀ p ∈ s.pool.workers, p = .exited ∨ ∃ t, s.by_ = some t ∧ p = .running t := by
    intro p hp
    obtain ⟨i, hpi⟩ := List.mem_iff_getElem?.1 hp
    cases p with
    | ready =>
      obtain ⟨s', g⟩ := Pool.worker_enabled hc hpi (.inl rfl)
      rw [stepPool _ rfl (fun t _ e => by cases e)] at g; cases g
    | blocked => have := Pool.cnt_pos (p := Pool.isBlocked) hpi rfl; omega
    | running t =>
      by_cases ht : s.by_ = some t
      · exact .inr ⟨t, ht, rfl⟩
      · obtain ⟨s', g⟩ := Pool.return_enabled hc hpi
        rw [stepPool _ rfl (fun u hu e => ?_)] at g
        · cases g
        · simp only [actor, taskOf, hpi] at e
          exact ht (hu.trans e.symm)
    | finished t =>
      obtain ⟨s', g⟩ := Pool.worker_enabled hc hpi (.inr ⟨t, rfl⟩)
      rw [stepPool _ rfl (fun t _ e => by cases e)] at g; cases g
    | exited => exact .inl rfl
  cases htodo : s.todo with
  | cons i rest =>
    have hlt := hi.bound i (by rw [htodo]; exact List.mem_cons_self ..)
    have hj := h .join rfl
    unfold step at hj
    rw [if_neg hnt] at hj
    simp only at hj
    rw [if_pos ⟨hst, hc⟩] at hj
    simp only [join, htodo] at hj
    have hget := List.getElem?_eq_getElem hlt
    rcases hw _ (List.getElem_mem hlt) with e | ⟨t, ht, e⟩
    · rw [e] at hget
      simp only [hget, if_true] at hj
      split at hj <;> cases hj
    · rw [e] at hget
      rw [if_pos ⟨by simp [ht], by simp [taskOf, hget, ht]⟩] at hj
      cases hj
  | nil =>
    have hby : s.by_ = none := by
      cases hb : s.by_ with
      | none => rfl
      | some t =>
        obtain ⟨i, -, hm⟩ := hi.runs t hb
        have := hm hst
        rw [htodo] at this; cases this
    have hno : ∀ ev t, s.by_ = some t → actor s.pool ev ≠ some t := by
      intro ev t e; rw [hby] at e; cases e
    obtain ⟨-, -, p, hp, hd⟩ := Pool.ending_rest hpr hc hst
      (fun ev he => stepPool ev he (hno ev))
    refine ⟨hby, { s with pool := p }, ?_, hd⟩
    unfold step
    rw [if_neg hnt]
    simp only [poolStep]
    rw [if_neg (by simp), if_neg (by simp [actor]), if_neg (by simp [htodo]), hp]
    rfl

/-- The task that has called the destructor runs in every later state. -/
theorem never {n : Nat} {s : State} (hr : Reachable n s) {t : Nat} (ht : s.by_ = some t) :
    s.pool.stage ≠ .destroyed := by
  induction hr with
  | init => cases ht
  | @step s s' ev hr hs ih =>
    obtain ⟨hterm, hs⟩ := step_cases hs
    cases hs with
    | pool ev p h1 h2 h3 h =>
      have := ih ht
      simp only
      intro e
      rcases stage_step h h1 with g | ⟨-, g⟩ | ⟨-, g⟩ | ⟨-, -, -, g⟩
      · exact this (g ▸ e)
      · rw [g] at e; cases e
      · rw [g] at e; cases e
      · obtain ⟨i, hi, -⟩ := (inv hr).runs t ht
        have := g _ (List.mem_of_getElem? hi)
        cases this
    | destroy u p hu h =>
      obtain ⟨-, rfl⟩ := stage_stop h
      simp
    | joins order p ho h =>
      obtain ⟨-, rfl⟩ := stage_sched h
      simp
    | itself i t' rest h ht' hi hst hc => simp [hst]
    | join i rest h hi hst hc => simp [hst]

/-- Only a join of the worker that has called the destructor terminates the program. -/
theorem alive {n : Nat} {s : State} (hr : Reachable n s) (hb : s.by_ = none) :
    s.terminated = false := by
  induction hr with
  | init => rfl
  | @step s s' ev hr hs ih =>
    obtain ⟨hterm, hs⟩ := step_cases hs
    cases hs with
    | itself i t rest h ht hi hst hc => rw [show s.by_ = none from hb] at ht; cases ht
    | _ => exact hterm

end Pluto.PoolExit
