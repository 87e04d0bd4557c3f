import Verif.Spec.PoolSteps

/-! # A thread pool, statement by statement: simulation by the pool whose critical sections are executed at once -/

namespace Pluto.Proofs.PoolSteps
open Pluto Pluto.PoolSteps
open Pluto.Pool (Event Entry Timed Phase SPhase Wait Action Crash Stage)

/-- What only critical sections read or write. -/
structure Prot where
  queue : List Entry
  scheduled : List Timed
  onStop : Action
  stopping : Bool
  target : Nat
  active : Int
  nextTask : Nat
  nextSeq : Nat
  started : List Entry
  moved : List Timed
  maxTarget : Nat
  stopSeq : Nat

def prot (s : Pool.State) : Prot :=
  ⟨s.queue, s.scheduled, s.onStop, s.stopping, s.target, s.active, s.nextTask, s.nextSeq, s.started, s.moved, s.maxTarget,
    s.stopSeq⟩

def load (s : Pool.State) (P : Prot) : Pool.State :=
  { s with
    queue := P.queue, scheduled := P.scheduled, onStop := P.onStop, stopping := P.stopping, target := P.target
    active := P.active, nextTask := P.nextTask, nextSeq := P.nextSeq, started := P.started, moved := P.moved
    maxTarget := P.maxTarget, stopSeq := P.stopSeq }

theorem canCall_load (s : Pool.State) (P : Prot) (c : Option Nat) : Pool.canCall (load s P) c = Pool.canCall s c := by
  cases c <;> rfl

theorem schedulerEnded_load (s : Pool.State) (P : Prot) : Pool.schedulerEnded (load s P) = Pool.schedulerEnded s := rfl

/-- The steps that need no mutex. -/
inductive Out (a : Pool.State) : Event → Pool.State → Prop where
  | syncReturns (t : Nat) (h1 : t ∈ a.syncs) (h2 : t ∈ a.fulfilled) :
      Out a (.syncReturns t) { a with syncs := a.syncs.erase t }
  | createScheduler (h1 : 0 < a.creating) : Out a .createScheduler
      { a with
        creating := a.creating - 1
        schedulers := a.schedulers ++ [.ready]
        assigning := a.schedulers.length :: a.assigning }
  | assignTwice (i k : Nat) (h1 : i ∈ a.assigning) (h2 : a.scheduler = some k) :
      Out a (.assignScheduler i) { a with crash := some .assignedTwice }
  | assign (i : Nat) (h1 : i ∈ a.assigning) (h2 : a.scheduler = none) :
      Out a (.assignScheduler i) { a with assigning := a.assigning.erase i, scheduler := some i }
  | notifyOne (w : Option Nat) (ws : List Phase) (h1 : 0 < a.pendingOne) (h2 : Pool.wakeOne w a.workers = some ws) :
      Out a (.notifyOne w) { a with pendingOne := a.pendingOne - 1, workers := ws }
  | notifyAll (h1 : 0 < a.pendingAll) :
      Out a .notifyAll { a with pendingAll := a.pendingAll - 1, workers := a.workers.map Pool.wakeWorker }
  | notifySome (i : Nat) (e : Timed) (n : Nat) (h1 : 0 < a.pendingSched) (h2 : a.schedulers[i]? = some (.waiting e n)) :
      Out a (.notifyScheduler (some i)) { a with pendingSched := a.pendingSched - 1, schedulers := a.schedulers.set i .ready }
  | notifyNone (h1 : 0 < a.pendingSched) (h2 : ¬ a.schedulers.any Pool.isWaiting = true) :
      Out a (.notifyScheduler none) { a with pendingSched := a.pendingSched - 1 }
  | spuriousWorker (i : Nat) (h1 : a.workers[i]? = some .blocked) :
      Out a (.spuriousWorker i) { a with workers := a.workers.set i .ready }
  | spuriousScheduler (i : Nat) (e : Timed) (n : Nat) (h1 : a.schedulers[i]? = some (.waiting e n)) :
      Out a (.spuriousScheduler i) { a with schedulers := a.schedulers.set i .ready }
  | spuriousNone (i : Nat) (h1 : a.waitNone[i]? = some .blocked) :
      Out a (.spuriousNone i) { a with waitNone := a.waitNone.set i .checking }
  | spuriousAll (i : Nat) (h1 : a.waitAll[i]? = some .blocked) :
      Out a (.spuriousAll i) { a with waitAll := a.waitAll.set i .checking }
  | clock (t : Int) : Out a (.clock t) { a with now := t, maxNow := max a.maxNow t }
  | taskReturns (i t : Nat) (h1 : a.workers[i]? = some (.running t)) : Out a (.taskReturns i)
      { a with
        workers := a.workers.set i (.finished t)
        completed := a.completed ++ [t]
        fulfilled := if t ∈ a.syncs then t :: a.fulfilled else a.fulfilled }
  | taskThrows (i t : Nat) (h1 : a.workers[i]? = some (.running t)) :
      Out a (.taskThrows i) { a with crash := some .taskThrew }
  | timeout (i : Nat) (e : Timed) (n : Nat) (h1 : a.schedulers[i]? = some (.waiting e n)) (h2 : e.time ≤ a.now) :
      Out a (.schedulerTimeout i) { a with schedulers := a.schedulers.set i (.timedOut e n) }
  | callWaitNone (c : Option Nat) (h1 : Pool.canCall a c = true) :
      Out a (.callWaitNone c) { a with waitNone := a.waitNone ++ [.checking] }
  | callWaitAll (c : Option Nat) (h1 : Pool.canCall a c = true) :
      Out a (.callWaitAll c) { a with waitAll := a.waitAll ++ [.checking] }
  | stopNotifyWorkers (h1 : a.stage = .flagged) :
      Out a .stopNotifyWorkers { a with workers := a.workers.map Pool.wakeWorker, stage := .notifiedWorkers }
  | stopNotifyScheduler (h1 : a.stage = .notifiedWorkers) :
      Out a .stopNotifyScheduler { a with schedulers := a.schedulers.map Pool.wakeScheduler, stage := .joining }
  | stopReturns (h1 : a.stage = .joining) (h2 : ∀ p ∈ a.workers, p = .exited) (h3 : Pool.schedulerEnded a = true) :
      Out a .stopReturns { a with stage := .destroyed }

theorem out_of_step {a a' : Pool.State} {ev : Event} (h : isOutside ev = true) (hs : Pool.step a ev = some a') :
    a.crash = none ∧ Out a ev a' := by
  by_cases hc : a.crash.isSome
  · cases ev <;> simp [Pool.step, hc] at hs
  · refine ⟨by simpa using hc, ?_⟩
    cases ev <;> first | (simp [isOutside] at h; done) | skip
    all_goals simp only [Pool.step, if_neg hc] at hs
    all_goals (repeat' split at hs)
    all_goals first | (cases hs; done) | (cases hs; constructor <;> simp_all; done) | skip
    all_goals cases hs
    all_goals first
      | exact .assignTwice _ _ ‹_› ‹_› | exact .notifySome _ _ _ ‹_› ‹_› | exact .spuriousScheduler _ _ _ ‹_›
      | exact .taskThrows _ _ ‹_› | exact .timeout _ _ _ ‹_› ‹_› | (rename_i hx; exact .stopReturns hx.1 hx.2.1 hx.2.2)
      | (rename_i t hw hm; have hr := Out.taskReturns _ t hw; simp only [hm, if_true, if_false] at hr; exact hr)

theorem step_of_out {a a' : Pool.State} {ev : Event} (hc : a.crash = none) (h : Out a ev a') :
    isOutside ev = true ∧ Pool.step a ev = some a' := by
  cases h <;> refine ⟨rfl, ?_⟩ <;> simp_all [Pool.step]
  case stopReturns h1 h2 h3 => exact h2

/-- What needs no mutex does not depend on what only critical sections read or write. -/
theorem out_load {s b : Pool.State} {P : Prot} {ev : Event} (h : Out (load s P) ev b) :
    ∃ s', Out s ev s' ∧ b = load s' P := by
  cases h
  case assignTwice i k h1 h2 => exact ⟨_, .assignTwice i k h1 h2, rfl⟩
  case assign i h1 h2 => exact ⟨_, .assign i h1 h2, rfl⟩
  case notifySome i e n h1 h2 => exact ⟨_, .notifySome i e n h1 h2, rfl⟩
  case notifyNone h1 h2 => exact ⟨_, .notifyNone h1 h2, rfl⟩
  case callWaitNone c h1 => exact ⟨_, .callWaitNone c (by rwa [canCall_load] at h1), rfl⟩
  case callWaitAll c h1 => exact ⟨_, .callWaitAll c (by rwa [canCall_load] at h1), rfl⟩
  all_goals exact ⟨_, by constructor <;> assumption, rfl⟩

/-- What needs no mutex does not change what only critical sections read or write. -/
theorem out_prot {a a' : Pool.State} {ev : Event} (h : Out a ev a') :
    prot a' = prot a ∧ a'.workers.length = a.workers.length ∧ (a.stage = .alive → a'.stage = .alive) := by
  cases h <;> simp_all [prot]
  case notifyOne w ws h1 h2 =>
    cases w with
    | none => simp only [Pool.wakeOne] at h2; split at h2 <;> simp_all
    | some j => simp only [Pool.wakeOne] at h2; split at h2 <;> simp_all; rw [← h2]; simp

/-- Nor where a thread is that waits for the mutex. -/
theorem out_workers {a a' : Pool.State} {ev : Event} (h : Out a ev a') (i : Nat) (p : Phase) (hi : a.workers[i]? = some p)
    (hb : p ≠ .blocked) (hev : ev ≠ .taskReturns i) : a'.workers[i]? = some p := by
  have hset : ∀ j q, a.workers[j]? = some .blocked → (a.workers.set j q)[i]? = some p := by
    intro j q hj
    by_cases hji : j = i
    · subst hji; rw [hi] at hj; exact absurd (Option.some.inj hj) hb
    · rw [List.getElem?_set_ne hji]; exact hi
  have hmap : (a.workers.map Pool.wakeWorker)[i]? = some p := by
    rw [List.getElem?_map, hi]; cases p <;> simp_all [Pool.wakeWorker]
  cases h <;> first | exact hi | exact hmap | skip
  case notifyOne w ws h1 h2 =>
    cases w with
    | none => simp only [Pool.wakeOne] at h2; split at h2 <;> simp_all
    | some j =>
      simp only [Pool.wakeOne] at h2
      split at h2
      · cases h2; exact hset j _ (by assumption)
      · cases h2
  case spuriousWorker j h1 => exact hset j _ h1
  case taskReturns j t h1 =>
    have : j ≠ i := fun e => hev (by rw [e])
    show (a.workers.set j _)[i]? = _
    rw [List.getElem?_set_ne this]; exact hi

theorem out_schedulers {a a' : Pool.State} {ev : Event} (h : Out a ev a') (i : Nat) (q : SPhase)
    (hi : a.schedulers[i]? = some q) (hq : Pool.isWaiting q = false) : a'.schedulers[i]? = some q := by
  have hset : ∀ j e n r, a.schedulers[j]? = some (.waiting e n) → (a.schedulers.set j r)[i]? = some q := by
    intro j e n r hj
    by_cases hji : j = i
    · subst hji; rw [hi] at hj; rw [Option.some.inj hj] at hq; cases hq
    · rw [List.getElem?_set_ne hji]; exact hi
  cases h <;> first | exact hi | skip
  case createScheduler h1 =>
    show (a.schedulers ++ _)[i]? = _
    rw [List.getElem?_append_left (List.getElem?_eq_some_iff.1 hi).1]; exact hi
  case notifySome j e n h1 h2 => exact hset j e n _ h2
  case spuriousScheduler j e n h1 => exact hset j e n _ h1
  case timeout j e n h1 h2 => exact hset j e n _ h1
  case stopNotifyScheduler h1 =>
    show (a.schedulers.map _)[i]? = _
    rw [List.getElem?_map, hi]; cases q <;> simp_all [Pool.wakeScheduler, Pool.isWaiting]

theorem set_checking (l : List Wait) (i j : Nat) (h : l[i]? = some .checking) : (l.set j .checking)[i]? = some .checking := by
  rw [List.getElem?_set]
  have := (List.getElem?_eq_some_iff.1 h).1
  split
  · rename_i hj; subst hj; rw [if_pos this]
  · exact h

theorem out_waits {a a' : Pool.State} {ev : Event} (h : Out a ev a') (i : Nat) :
    (a.waitNone[i]? = some .checking → a'.waitNone[i]? = some .checking) ∧
      (a.waitAll[i]? = some .checking → a'.waitAll[i]? = some .checking) := by
  cases h <;> first | exact ⟨id, id⟩ | skip
  case spuriousNone j h1 => exact ⟨fun h => set_checking _ _ _ h, id⟩
  case spuriousAll j h1 => exact ⟨id, fun h => set_checking _ _ _ h⟩
  case callWaitNone c h1 =>
    refine ⟨fun h => ?_, id⟩
    show (a.waitNone ++ _)[i]? = _
    rw [List.getElem?_append_left (List.getElem?_eq_some_iff.1 h).1]; exact h
  case callWaitAll c h1 =>
    refine ⟨id, fun h => ?_⟩
    show (a.waitAll ++ _)[i]? = _
    rw [List.getElem?_append_left (List.getElem?_eq_some_iff.1 h).1]; exact h

/-- How the rest of the state differs from that of the pool whose sections are executed at once, when a thread is in the
middle of a section. -/
inductive Kind where
  /-- the callers of the functions that wait have been notified -/
  | notified (none' all : Bool)
  /-- workers have been created -/
  | spawned (ok : Nat → Nat → Prop)
  /-- a worker has been notified -/
  | woken
  /-- a thread is about to create a scheduler, which the other pool already knows -/
  | create
  /-- a thread is about to notify the scheduler, which the other pool already knows -/
  | wake
  /-- the scheduler thread `i` has not ended, in the other pool it has -/
  | ended (i : Nat)

def wakeIf (x : Bool) (l : List Wait) : List Wait := if x then Pool.wakeAll l else l

def coreRel : Kind → Pool.State → Pool.State → Prop
  | .notified x y, a, core => core = { a with waitNone := wakeIf x a.waitNone, waitAll := wakeIf y a.waitAll }
  | .spawned ok, a, core => ∃ m, ok m a.workers.length ∧ core = { a with workers := a.workers ++ List.replicate m .ready }
  | .woken, a, core => ∃ w ws, Pool.wakeOne w a.workers = some ws ∧ core = { a with workers := ws }
  | .create, a, core => a = { core with creating := core.creating + 1 }
  | .wake, a, core => a = { core with pendingSched := core.pendingSched + 1 }
  | .ended i, a, core => a = { core with schedulers := core.schedulers.set i .exited } ∧
      ∃ q, core.schedulers[i]? = some q ∧ Pool.isWaiting q = false

theorem coreRel_crash {k : Kind} {a core : Pool.State} (h : coreRel k a core) : core.crash = a.crash := by
  cases k with
  | notified x y => rw [h]
  | spawned ok => obtain ⟨m, -, h⟩ := h; rw [h]
  | woken => obtain ⟨m, ws, -, h⟩ := h; rw [h]
  | create => rw [h]
  | wake => rw [h]
  | ended i => rw [h.1]

theorem wakeIf_append (x : Bool) (l : List Wait) : wakeIf x (l ++ [.checking]) = wakeIf x l ++ [.checking] := by
  cases x <;> simp [wakeIf, Pool.wakeAll]

theorem wakeIf_set (x : Bool) (l : List Wait) (i : Nat) : wakeIf x (l.set i .checking) = (wakeIf x l).set i .checking := by
  cases x
  · rfl
  · simp [wakeIf, Pool.wakeAll]

theorem wakeIf_blocked {x : Bool} {l : List Wait} {i : Nat} (h : (wakeIf x l)[i]? = some .blocked) : l[i]? = some .blocked := by
  cases x
  · exact h
  · simp [wakeIf, Pool.wakeAll] at h

/-- `core'` can be followed. -/
def Follows (k : Kind) (a : Pool.State) (ev : Event) (core' : Pool.State) : Prop :=
  ∃ ev' a', (ev' = ev ∨ ∃ w, ev' = .notifyOne w) ∧ Out a ev' a' ∧ coreRel k a' core'

theorem follow_notified {x y : Bool} {a core core' : Pool.State} {ev : Event} (hk : coreRel (.notified x y) a core)
    (h : Out core ev core') : Follows (.notified x y) a ev core' := by
  subst hk
  cases h
  case assignTwice i k h1 h2 => exact ⟨_, _, .inl rfl, .assignTwice i k h1 h2, rfl⟩
  case assign i h1 h2 => exact ⟨_, _, .inl rfl, .assign i h1 h2, rfl⟩
  case notifySome i e n h1 h2 => exact ⟨_, _, .inl rfl, .notifySome i e n h1 h2, rfl⟩
  case notifyNone h1 h2 => exact ⟨_, _, .inl rfl, .notifyNone h1 h2, rfl⟩
  case spuriousNone i h1 =>
    exact ⟨_, _, .inl rfl, .spuriousNone i (wakeIf_blocked h1), by simp only [coreRel, wakeIf_set]⟩
  case spuriousAll i h1 =>
    exact ⟨_, _, .inl rfl, .spuriousAll i (wakeIf_blocked h1), by simp only [coreRel, wakeIf_set]⟩
  case callWaitNone c h1 =>
    exact ⟨_, _, .inl rfl, .callWaitNone c (by cases c <;> exact h1), by simp only [coreRel, wakeIf_append]⟩
  case callWaitAll c h1 =>
    exact ⟨_, _, .inl rfl, .callWaitAll c (by cases c <;> exact h1), by simp only [coreRel, wakeIf_append]⟩
  all_goals (refine ⟨_, _, .inl rfl, (by constructor <;> assumption), ?_⟩; rfl)

theorem append_get {ws : List Phase} {m i : Nat} {p : Phase} (h : (ws ++ List.replicate m .ready)[i]? = some p)
    (hp : p ≠ .ready) : ws[i]? = some p ∧ i < ws.length := by
  by_cases hi : i < ws.length
  · rw [List.getElem?_append_left hi] at h; exact ⟨h, hi⟩
  · rw [List.getElem?_append_right (by omega)] at h
    have := List.eq_of_mem_replicate (List.mem_of_getElem? h)
    exact absurd this hp

theorem append_canCall {a : Pool.State} {m : Nat} {c : Option Nat}
    (h : Pool.canCall { a with workers := a.workers ++ List.replicate m .ready } c = true) : Pool.canCall a c = true := by
  cases c with
  | none => exact h
  | some i =>
    simp only [Pool.canCall] at h ⊢
    split at h
    · rename_i t ht; rw [(append_get ht (by simp)).1]
    · cases h

theorem follow_spawned {ok : Nat → Nat → Prop} {a core core' : Pool.State} {ev : Event} (hk : coreRel (.spawned ok) a core)
    (h : Out core ev core') : Follows (.spawned ok) a ev core' := by
  obtain ⟨m, hm, hk⟩ := hk
  subst hk
  cases h
  case assignTwice i k h1 h2 => exact ⟨_, _, .inl rfl, .assignTwice i k h1 h2, m, hm, rfl⟩
  case assign i h1 h2 => exact ⟨_, _, .inl rfl, .assign i h1 h2, m, hm, rfl⟩
  case notifySome i e n h1 h2 => exact ⟨_, _, .inl rfl, .notifySome i e n h1 h2, m, hm, rfl⟩
  case notifyNone h1 h2 => exact ⟨_, _, .inl rfl, .notifyNone h1 h2, m, hm, rfl⟩
  case callWaitNone c h1 => exact ⟨_, _, .inl rfl, .callWaitNone c (append_canCall h1), m, hm, rfl⟩
  case callWaitAll c h1 => exact ⟨_, _, .inl rfl, .callWaitAll c (append_canCall h1), m, hm, rfl⟩
  case notifyOne w ws h1 h2 =>
    cases w with
    | none =>
      simp only [Pool.wakeOne] at h2
      split at h2
      · cases h2
      · rename_i hb
        cases h2
        exact ⟨_, _, .inl rfl, .notifyOne none a.workers h1
          (by rw [Pool.wakeOne, if_neg (fun hm => hb (List.mem_append_left _ hm))]), m, hm, rfl⟩
    | some i =>
      simp only [Pool.wakeOne] at h2
      split at h2
      · rename_i hb
        obtain ⟨hb, hi⟩ := append_get hb (by simp)
        cases h2
        refine ⟨_, _, .inl rfl, .notifyOne (some i) (a.workers.set i .ready) h1 (by rw [Pool.wakeOne, if_pos hb]), m, ?_, ?_⟩
        · simpa using hm
        · simp only [List.set_append_left _ _ hi]
      · cases h2
  case notifyAll h1 =>
    refine ⟨_, _, .inl rfl, .notifyAll h1, m, by simpa using hm, ?_⟩
    simp [List.map_append, List.map_replicate, Pool.wakeWorker]
  case spuriousWorker i h1 =>
    obtain ⟨hb, hi⟩ := append_get h1 (by simp)
    refine ⟨_, _, .inl rfl, .spuriousWorker i hb, m, by simpa using hm, ?_⟩
    simp only [List.set_append_left _ _ hi]
  case taskReturns i t h1 =>
    obtain ⟨hb, hi⟩ := append_get h1 (by simp)
    refine ⟨_, _, .inl rfl, .taskReturns i t hb, m, by simpa using hm, ?_⟩
    simp only [List.set_append_left _ _ hi]
  case taskThrows i t h1 =>
    obtain ⟨hb, hi⟩ := append_get h1 (by simp)
    exact ⟨_, _, .inl rfl, .taskThrows i t hb, m, hm, rfl⟩
  case stopNotifyWorkers h1 =>
    refine ⟨_, _, .inl rfl, .stopNotifyWorkers h1, m, by simpa using hm, ?_⟩
    simp [List.map_append, List.map_replicate, Pool.wakeWorker]
  case stopReturns h1 h2 h3 =>
    exact ⟨_, _, .inl rfl, .stopReturns h1 (fun p hp => h2 p (List.mem_append_left _ hp)) h3, m, hm, rfl⟩
  all_goals (refine ⟨_, _, .inl rfl, (by constructor <;> assumption), m, ?_, ?_⟩; exact hm; rfl)

theorem out_noBlocked {a a' : Pool.State} {ev : Event} (h : Out a ev a') (hb : .blocked ∉ a.workers) :
    .blocked ∉ a'.workers := by
  have hset : ∀ (i : Nat) (p : Phase), p ≠ .blocked → .blocked ∉ a.workers.set i p := by
    intro i p hp hm
    rcases List.mem_or_eq_of_mem_set hm with hm | hm
    · exact hb hm
    · exact hp hm.symm
  have hmap : .blocked ∉ a.workers.map Pool.wakeWorker := by
    intro hm
    obtain ⟨p, -, hp⟩ := List.mem_map.1 hm
    cases p <;> simp [Pool.wakeWorker] at hp
  cases h <;> first | exact hb | exact hmap | exact hset _ _ (by simp) | skip
  case notifyOne w ws h1 h2 =>
    cases w with
    | none =>
      simp only [Pool.wakeOne] at h2
      split at h2
      · cases h2
      · cases h2; exact hb
    | some i =>
      simp only [Pool.wakeOne] at h2
      split at h2
      · cases h2; exact hset _ _ (by simp)
      · cases h2

theorem map_wake_noBlocked (l : List Phase) : .blocked ∉ l.map Pool.wakeWorker := by
  intro hm
  obtain ⟨p, -, hp⟩ := List.mem_map.1 hm
  cases p <;> simp [Pool.wakeWorker] at hp

theorem map_wake_set (l : List Phase) (j : Nat) (h : l[j]? = some .blocked) :
    (l.set j .ready).map Pool.wakeWorker = l.map Pool.wakeWorker := by
  apply List.ext_getElem?
  intro i
  simp only [List.getElem?_map, List.getElem?_set]
  split
  · rename_i hj
    subst hj
    rw [if_pos (List.getElem?_eq_some_iff.1 h).1, h]; rfl
  · rfl

theorem set_get {l : List Phase} {i j : Nat} {p : Phase} (h : (l.set j .ready)[i]? = some p) (hp : p ≠ .ready) :
    i ≠ j ∧ l[i]? = some p := by
  rw [List.getElem?_set] at h
  split at h
  · split at h
    · exact absurd (Option.some.inj h).symm hp
    · cases h
  · rename_i hij; exact ⟨fun e => hij e.symm, h⟩

theorem follow_woken {a core core' : Pool.State} {ev : Event} (hk : coreRel .woken a core) (h : Out core ev core') :
    Follows .woken a ev core' := by
  obtain ⟨w, ws, hw, hk⟩ := hk
  cases w with
  | none =>
    simp only [Pool.wakeOne] at hw
    split at hw
    · cases hw
    · rename_i hb
      cases hw
      subst hk
      exact ⟨ev, core', .inl rfl, h, none, core'.workers, by rw [Pool.wakeOne, if_neg (out_noBlocked h hb)], rfl⟩
  | some j =>
    simp only [Pool.wakeOne] at hw
    split at hw
    case isFalse => cases hw
    rename_i hj
    cases hw
    subst hk
    have hjl := (List.getElem?_eq_some_iff.1 hj).1
    have keep : ∀ {ws' : List Phase}, ws' = a.workers → Pool.wakeOne (some j) ws' = some (ws'.set j .ready) := by
      intro ws' e; rw [e, Pool.wakeOne, if_pos hj]
    have other : ∀ (i : Nat) (p : Phase), i ≠ j →
        Pool.wakeOne (some j) (a.workers.set i p) = some ((a.workers.set j .ready).set i p) := by
      intro i p hij
      rw [Pool.wakeOne, if_pos (by rw [List.getElem?_set_ne hij]; exact hj), List.set_comm _ _ (Ne.symm hij)]
    have hcall : ∀ c, Pool.canCall { a with workers := a.workers.set j .ready } c = true → Pool.canCall a c = true := by
      intro c hc
      cases c with
      | none => exact hc
      | some i =>
        simp only [Pool.canCall] at hc ⊢
        split at hc
        · rename_i t ht; rw [(set_get ht (by simp)).2]
        · cases hc
    cases h
    case assignTwice i k h1 h2 => exact ⟨_, _, .inl rfl, .assignTwice i k h1 h2, some j, _, keep rfl, rfl⟩
    case assign i h1 h2 => exact ⟨_, _, .inl rfl, .assign i h1 h2, some j, _, keep rfl, rfl⟩
    case notifySome i e n h1 h2 => exact ⟨_, _, .inl rfl, .notifySome i e n h1 h2, some j, _, keep rfl, rfl⟩
    case notifyNone h1 h2 => exact ⟨_, _, .inl rfl, .notifyNone h1 h2, some j, _, keep rfl, rfl⟩
    case callWaitNone c h1 => exact ⟨_, _, .inl rfl, .callWaitNone c (hcall c h1), some j, _, keep rfl, rfl⟩
    case callWaitAll c h1 => exact ⟨_, _, .inl rfl, .callWaitAll c (hcall c h1), some j, _, keep rfl, rfl⟩
    case notifyOne w ws h1 h2 =>
      cases w with
      | none =>
        simp only [Pool.wakeOne] at h2
        split at h2
        · cases h2
        · rename_i hb
          cases h2
          exact ⟨_, _, .inr ⟨some j, rfl⟩, .notifyOne (some j) (a.workers.set j .ready) h1 (keep rfl), none, _,
            by rw [Pool.wakeOne, if_neg hb], rfl⟩
      | some i =>
        simp only [Pool.wakeOne] at h2
        split at h2
        · rename_i hi
          obtain ⟨hij, hi⟩ := set_get hi (by simp)
          cases h2
          exact ⟨_, _, .inl rfl, .notifyOne (some i) (a.workers.set i .ready) h1 (by rw [Pool.wakeOne, if_pos hi]), some j, _,
            other i _ hij, rfl⟩
        · cases h2
    case notifyAll h1 =>
      refine ⟨_, _, .inl rfl, .notifyAll h1, none, _, by rw [Pool.wakeOne, if_neg (map_wake_noBlocked _)], ?_⟩
      simp only [map_wake_set _ _ hj]
    case stopNotifyWorkers h1 =>
      refine ⟨_, _, .inl rfl, .stopNotifyWorkers h1, none, _, by rw [Pool.wakeOne, if_neg (map_wake_noBlocked _)], ?_⟩
      simp only [map_wake_set _ _ hj]
    case spuriousWorker i h1 =>
      obtain ⟨hij, hi⟩ := set_get h1 (by simp)
      exact ⟨_, _, .inl rfl, .spuriousWorker i hi, some j, _, other i _ hij, rfl⟩
    case taskReturns i t h1 =>
      obtain ⟨hij, hi⟩ := set_get h1 (by simp)
      exact ⟨_, _, .inl rfl, .taskReturns i t hi, some j, _, other i _ hij, rfl⟩
    case taskThrows i t h1 =>
      obtain ⟨hij, hi⟩ := set_get h1 (by simp)
      exact ⟨_, _, .inl rfl, .taskThrows i t hi, some j, _, keep rfl, rfl⟩
    case stopReturns h1 h2 h3 =>
      have := h2 .ready (List.mem_of_getElem? (i := j) (by rw [List.getElem?_set, if_pos rfl, if_pos hjl]))
      cases this
    all_goals (refine ⟨_, _, .inl rfl, (by constructor <;> assumption), some j, a.workers.set j .ready, ?_, ?_⟩; exact keep rfl; rfl)

theorem follow_create {a core core' : Pool.State} {ev : Event} (hk : coreRel .create a core) (h : Out core ev core') :
    Follows .create a ev core' := by
  subst hk
  cases h
  case assignTwice i k h1 h2 => exact ⟨_, _, .inl rfl, .assignTwice i k h1 h2, rfl⟩
  case assign i h1 h2 => exact ⟨_, _, .inl rfl, .assign i h1 h2, rfl⟩
  case notifySome i e n h1 h2 => exact ⟨_, _, .inl rfl, .notifySome i e n h1 h2, rfl⟩
  case notifyNone h1 h2 => exact ⟨_, _, .inl rfl, .notifyNone h1 h2, rfl⟩
  case callWaitNone c h1 => exact ⟨_, _, .inl rfl, .callWaitNone c (by cases c <;> exact h1), rfl⟩
  case callWaitAll c h1 => exact ⟨_, _, .inl rfl, .callWaitAll c (by cases c <;> exact h1), rfl⟩
  case createScheduler h1 =>
    refine ⟨_, _, .inl rfl, .createScheduler (Nat.succ_pos _), ?_⟩
    simp only [coreRel, Nat.add_sub_cancel, Nat.sub_add_cancel h1]
  all_goals (refine ⟨_, _, .inl rfl, (by constructor <;> assumption), ?_⟩; rfl)

theorem follow_wake {a core core' : Pool.State} {ev : Event} (hk : coreRel .wake a core) (h : Out core ev core') :
    Follows .wake a ev core' := by
  subst hk
  cases h
  case assignTwice i k h1 h2 => exact ⟨_, _, .inl rfl, .assignTwice i k h1 h2, rfl⟩
  case assign i h1 h2 => exact ⟨_, _, .inl rfl, .assign i h1 h2, rfl⟩
  case notifySome i e n h1 h2 =>
    refine ⟨_, _, .inl rfl, .notifySome i e n (Nat.succ_pos _) h2, ?_⟩
    simp only [coreRel, Nat.add_sub_cancel, Nat.sub_add_cancel h1]
  case notifyNone h1 h2 =>
    refine ⟨_, _, .inl rfl, .notifyNone (Nat.succ_pos _) h2, ?_⟩
    simp only [coreRel, Nat.add_sub_cancel, Nat.sub_add_cancel h1]
  case callWaitNone c h1 => exact ⟨_, _, .inl rfl, .callWaitNone c (by cases c <;> exact h1), rfl⟩
  case callWaitAll c h1 => exact ⟨_, _, .inl rfl, .callWaitAll c (by cases c <;> exact h1), rfl⟩
  all_goals (refine ⟨_, _, .inl rfl, (by constructor <;> assumption), ?_⟩; rfl)

theorem follow_ended {i : Nat} {a core core' : Pool.State} {ev : Event} (hk : coreRel (.ended i) a core)
    (h : Out core ev core') : Follows (.ended i) a ev core' := by
  obtain ⟨hk, q, hi, hq⟩ := hk
  have hi' := out_schedulers h i q hi hq
  have hil := (List.getElem?_eq_some_iff.1 hi).1
  have hne : ∀ {j : Nat} {e : Timed} {n : Nat}, core.schedulers[j]? = some (.waiting e n) → j ≠ i := by
    intro j e n hj e; subst e; rw [hi] at hj; rw [Option.some.inj hj] at hq; cases hq
  have hget : ∀ {j : Nat} {e : Timed} {n : Nat}, core.schedulers[j]? = some (.waiting e n) →
      (core.schedulers.set i .exited)[j]? = some (.waiting e n) := by
    intro j e n hj
    rw [List.getElem?_set_ne (Ne.symm (hne hj))]; exact hj
  subst hk
  cases h
  case assignTwice j k h1 h2 => exact ⟨_, _, .inl rfl, .assignTwice j k h1 h2, rfl, q, hi', hq⟩
  case assign j h1 h2 => exact ⟨_, _, .inl rfl, .assign j h1 h2, rfl, q, hi', hq⟩
  case createScheduler h1 =>
    refine ⟨_, _, .inl rfl, .createScheduler h1, ?_, q, hi', hq⟩
    simp only [List.length_set, List.set_append_left _ _ hil]
  case notifySome j e n h1 h2 =>
    refine ⟨_, _, .inl rfl, .notifySome j e n h1 (hget h2), ?_, q, hi', hq⟩
    simp only [List.set_comm _ _ (hne h2)]
  case notifyNone h1 h2 =>
    refine ⟨_, _, .inl rfl, .notifyNone h1 ?_, rfl, q, hi', hq⟩
    simp only [List.any_eq_true, not_exists, not_and] at h2 ⊢
    intro x hx
    rcases List.mem_or_eq_of_mem_set hx with hx | hx
    · exact h2 x hx
    · rw [hx]; simp [Pool.isWaiting]
  case spuriousScheduler j e n h1 =>
    refine ⟨_, _, .inl rfl, .spuriousScheduler j e n (hget h1), ?_, q, hi', hq⟩
    simp only [List.set_comm _ _ (hne h1)]
  case timeout j e n h1 h2 =>
    refine ⟨_, _, .inl rfl, .timeout j e n (hget h1) h2, ?_, q, hi', hq⟩
    simp only [List.set_comm _ _ (hne h1)]
  case callWaitNone c h1 => exact ⟨_, _, .inl rfl, .callWaitNone c (by cases c <;> exact h1), rfl, q, hi', hq⟩
  case callWaitAll c h1 => exact ⟨_, _, .inl rfl, .callWaitAll c (by cases c <;> exact h1), rfl, q, hi', hq⟩
  case stopNotifyScheduler h1 =>
    refine ⟨_, _, .inl rfl, .stopNotifyScheduler h1, ?_, q, hi', hq⟩
    simp only [List.map_set, Pool.wakeScheduler]
  case stopReturns h1 h2 h3 =>
    refine ⟨_, _, .inl rfl, .stopReturns h1 h2 ?_, rfl, q, hi', hq⟩
    simp only [Pool.schedulerEnded] at h3 ⊢
    split at h3
    · rename_i k hk
      simp only [beq_iff_eq] at h3 ⊢
      by_cases hik : i = k
      · rw [List.getElem?_set, if_pos hik, if_pos hil]
      · rw [List.getElem?_set_ne hik]; exact h3
    · rfl
  all_goals (refine ⟨_, _, .inl rfl, (by constructor <;> assumption), ?_, q, hi', hq⟩; rfl)

theorem follow {k : Kind} {a core core' : Pool.State} {ev : Event} (hk : coreRel k a core) (h : Out core ev core') :
    Follows k a ev core' := by
  cases k with
  | notified x y => exact follow_notified hk h
  | spawned ok => exact follow_spawned hk h
  | woken => exact follow_woken hk h
  | create => exact follow_create hk h
  | wake => exact follow_wake hk h
  | ended i => exact follow_ended hk h

end Pluto.Proofs.PoolSteps
