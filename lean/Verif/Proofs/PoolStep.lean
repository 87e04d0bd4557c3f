import Verif.Model.Pool

/-! # The steps of the thread pool as a relation, for case analysis -/

namespace Pluto.Pool

/-- The ways in which an event can happen. -/
inductive Step (s : State) : Event → State → Prop where
  | runAsync (prio : Int) (caller : Option Nat) (hc : canCall s caller = true) :
    Step s (.runAsync prio caller)
      { enqueue s prio s.nextTask caller.isSome with
        nextTask := s.nextTask + 1, pendingOne := s.pendingOne + 1 }
  | runSync (prio : Int) (caller : Option Nat) (hc : canCall s caller = true) :
    Step s (.runSync prio caller)
      { enqueue s prio s.nextTask caller.isSome with
        nextTask := s.nextTask + 1, pendingOne := s.pendingOne + 1, syncs := s.nextTask :: s.syncs }
  | syncReturns (t : Nat) (hs : t ∈ s.syncs) (hf : t ∈ s.fulfilled) :
    Step s (.syncReturns t) { s with syncs := s.syncs.erase t }
  | runAt (time prio : Int) (caller : Option Nat) (hc : canCall s caller = true) :
    Step s (.runAt time prio caller) (runAt s time prio)
  | runAfter (d prio : Int) (caller : Option Nat) (hc : canCall s caller = true) :
    Step s (.runAfter d prio caller) (Pluto.Pool.runAt s (s.now + d) prio)
  | createScheduler (h : 0 < s.creating) :
    Step s .createScheduler
      { s with
        creating := s.creating - 1
        schedulers := s.schedulers ++ [.ready]
        assigning := s.schedulers.length :: s.assigning }
  | assignTwice (i j : Nat) (hi : i ∈ s.assigning) (hj : s.scheduler = some j) :
    Step s (.assignScheduler i) { s with crash := some .assignedTwice }
  | assignScheduler (i : Nat) (hi : i ∈ s.assigning) (hj : s.scheduler = none) :
    Step s (.assignScheduler i)
      { s with assigning := s.assigning.erase i, scheduler := some i }
  | grow (n : Nat) (caller : Option Nat) (hc : canCall s caller = true) (hs : s.stopping = false)
      (hn : s.workers.length ≤ n) :
    Step s (.setTarget n caller)
      { s with
        target := n
        maxTarget := max s.maxTarget n
        workers := s.workers ++ List.replicate (n - s.workers.length) .ready }
  | shrink (n : Nat) (caller : Option Nat) (hc : canCall s caller = true) (hs : s.stopping = false)
      (hn : n < s.workers.length) :
    Step s (.setTarget n caller)
      { s with
        target := n
        maxTarget := max s.maxTarget n
        pendingAll := s.pendingAll + 1 }
  | setTargetLate (n : Nat) (caller : Option Nat) (hc : canCall s caller = true)
      (hs : s.stopping = true) : Step s (.setTarget n caller) s
  | setOnStop (a : Action) (caller : Option Nat) (hc : canCall s caller = true) :
    Step s (.setOnStop a caller) { s with onStop := a }
  | notifyOne (woken : Option Nat) (ws : List Phase) (h : 0 < s.pendingOne)
      (hw : wakeOne woken s.workers = some ws) :
    Step s (.notifyOne woken) { s with pendingOne := s.pendingOne - 1, workers := ws }
  | notifyAll (h : 0 < s.pendingAll) :
    Step s .notifyAll
      { s with pendingAll := s.pendingAll - 1, workers := s.workers.map wakeWorker }
  | notifyScheduler (i : Nat) (e : Timed) (n : Nat) (h : 0 < s.pendingSched)
      (hi : s.schedulers[i]? = some (.waiting e n)) :
    Step s (.notifyScheduler (some i))
      { s with pendingSched := s.pendingSched - 1, schedulers := s.schedulers.set i .ready }
  | notifyNoScheduler (h : 0 < s.pendingSched) (hn : s.schedulers.any isWaiting = false) :
    Step s (.notifyScheduler none) { s with pendingSched := s.pendingSched - 1 }
  | spuriousWorker (i : Nat) (hi : s.workers[i]? = some .blocked) :
    Step s (.spuriousWorker i) { s with workers := s.workers.set i .ready }
  | spuriousScheduler (i : Nat) (e : Timed) (n : Nat)
      (hi : s.schedulers[i]? = some (.waiting e n)) :
    Step s (.spuriousScheduler i) { s with schedulers := s.schedulers.set i .ready }
  | spuriousNone (i : Nat) (hi : s.waitNone[i]? = some .blocked) :
    Step s (.spuriousNone i) { s with waitNone := s.waitNone.set i .checking }
  | spuriousAll (i : Nat) (hi : s.waitAll[i]? = some .blocked) :
    Step s (.spuriousAll i) { s with waitAll := s.waitAll.set i .checking }
  | clock (t : Int) : Step s (.clock t) { s with now := t, maxNow := max s.maxNow t }
  | workerReady (i : Nat) (hi : s.workers[i]? = some .ready) :
    Step s (.worker i) (workerPass s i)
  | workerFinished (i : Nat) (t : Nat) (hi : s.workers[i]? = some (.finished t)) :
    Step s (.worker i) (workerPass { s with active := s.active - 1 } i)
  | taskReturns (i : Nat) (t : Nat) (hi : s.workers[i]? = some (.running t)) :
    Step s (.taskReturns i)
      { s with
        workers := s.workers.set i (.finished t)
        completed := s.completed ++ [t]
        fulfilled := if t ∈ s.syncs then t :: s.fulfilled else s.fulfilled }
  | taskThrows (i : Nat) (t : Nat) (hi : s.workers[i]? = some (.running t)) :
    Step s (.taskThrows i) { s with crash := some .taskThrew }
  | schedulerTimeout (i : Nat) (e : Timed) (n : Nat)
      (hi : s.schedulers[i]? = some (.waiting e n)) (ht : e.time ≤ s.now) :
    Step s (.schedulerTimeout i) { s with schedulers := s.schedulers.set i (.timedOut e n) }
  | schedulerReady (i : Nat) (hi : s.schedulers[i]? = some .ready) :
    Step s (.scheduler i none) (schedulerPass s i)
  | schedulerDangling (i : Nat) (woken : Option Nat) (e : Timed) (n : Nat)
      (hi : s.schedulers[i]? = some (.timedOut e n)) (he : e ∉ s.scheduled) :
    Step s (.scheduler i woken) { s with crash := some .danglingIterator }
  | schedulerMoves (i : Nat) (woken : Option Nat) (e : Timed) (n : Nat) (ws : List Phase)
      (hi : s.schedulers[i]? = some (.timedOut e n)) (he : e ∈ s.scheduled)
      (hw : wakeOne woken s.workers = some ws) :
    Step s (.scheduler i woken)
      (schedulerPass
        { enqueue s e.prio e.task false with
          scheduled := s.scheduled.erase e
          workers := ws
          moved := s.moved ++ [e] } i)
  | callWaitNone (caller : Option Nat) (hc : canCall s caller = true) :
    Step s (.callWaitNone caller) { s with waitNone := s.waitNone ++ [.checking] }
  | callWaitAll (caller : Option Nat) (hc : canCall s caller = true) :
    Step s (.callWaitAll caller) { s with waitAll := s.waitAll ++ [.checking] }
  | waitNoneBlocks (i : Nat) (hi : s.waitNone[i]? = some .checking) (hq : s.queue ≠ []) :
    Step s (.waitNone i) { s with waitNone := s.waitNone.set i .blocked }
  | waitNoneReturns (i : Nat) (hi : s.waitNone[i]? = some .checking) (hq : s.queue = []) :
    Step s (.waitNone i) { s with waitNone := s.waitNone.eraseIdx i }
  | waitAllBlocks (i : Nat) (hi : s.waitAll[i]? = some .checking)
      (hq : s.queue ≠ [] ∨ s.active ≠ 0) :
    Step s (.waitAll i) { s with waitAll := s.waitAll.set i .blocked }
  | waitAllReturns (i : Nat) (hi : s.waitAll[i]? = some .checking)
      (hq : s.queue = [] ∧ s.active = 0) :
    Step s (.waitAll i) { s with waitAll := s.waitAll.eraseIdx i }
  | stop (h : s.stage = .alive) :
    Step s .stop { s with stopping := true, stage := .flagged, stopSeq := s.nextSeq }
  | stopNotifyWorkers (h : s.stage = .flagged) :
    Step s .stopNotifyWorkers
      { s with workers := s.workers.map wakeWorker, stage := .notifiedWorkers }
  | stopNotifyScheduler (h : s.stage = .notifiedWorkers) :
    Step s .stopNotifyScheduler
      { s with schedulers := s.schedulers.map wakeScheduler, stage := .joining }
  | stopReturns (h : s.stage = .joining) (hw : ∀ p ∈ s.workers, p = .exited)
      (hs : schedulerEnded s = true) : Step s .stopReturns { s with stage := .destroyed }

theorem step_cases {s s' : State} {ev : Event} (h : step s ev = some s') :
    s.crash = none ∧ Step s ev s' := by
  unfold step at h
  split at h
  · cases h
  rename_i hcrash
  refine ⟨by cases hc : s.crash <;> simp [hc] at hcrash ⊢, ?_⟩
  cases ev with
  | runAsync prio caller =>
    simp only at h; split at h
    · rename_i hc; cases h; exact .runAsync prio caller hc
    · cases h
  | runSync prio caller =>
    simp only at h; split at h
    · rename_i hc; cases h; exact .runSync prio caller hc
    · cases h
  | syncReturns t =>
    simp only at h; split at h
    · rename_i hc; cases h; exact .syncReturns t hc.1 hc.2
    · cases h
  | runAt time prio caller =>
    simp only at h; split at h
    · rename_i hc; cases h; exact .runAt time prio caller hc
    · cases h
  | runAfter d prio caller =>
    simp only at h; split at h
    · rename_i hc; cases h; exact .runAfter d prio caller hc
    · cases h
  | createScheduler =>
    simp only at h; split at h
    · rename_i hc; cases h; exact .createScheduler hc
    · cases h
  | assignScheduler i =>
    simp only at h; split at h
    · rename_i hc
      split at h
      · rename_i j hj; cases h; exact .assignTwice i j hc hj
      · rename_i hj; cases h; exact .assignScheduler i hc hj
    · cases h
  | setTarget n caller =>
    simp only at h; split at h
    · rename_i hc
      split at h
      · rename_i hs
        cases h
        split
        · rename_i hlt
          simp only [List.length_append, List.length_replicate] at hlt
          have hn : n < s.workers.length := by omega
          have h0 : n - s.workers.length = 0 := by omega
          rw [h0, List.replicate_zero, List.append_nil]
          exact .shrink n caller hc hs hn
        · rename_i hlt
          simp only [List.length_append, List.length_replicate] at hlt
          exact .grow n caller hc hs (by omega)
      · rename_i hs
        cases h
        exact .setTargetLate n caller hc (by simpa using hs)
    · cases h
  | setOnStop a caller =>
    simp only at h; split at h
    · rename_i hc; cases h; exact .setOnStop a caller hc
    · cases h
  | notifyOne woken =>
    simp only at h; split at h
    · rename_i hc
      split at h
      · rename_i ws hw; cases h; exact .notifyOne woken ws hc hw
      · cases h
    · cases h
  | notifyAll =>
    simp only at h; split at h
    · rename_i hc; cases h; exact .notifyAll hc
    · cases h
  | notifyScheduler woken =>
    simp only at h; split at h
    · rename_i hc
      split at h
      · rename_i i
        split at h
        · rename_i e n hi; cases h; exact .notifyScheduler i e n hc hi
        · cases h
      · split at h
        · cases h
        · rename_i hn; cases h; exact .notifyNoScheduler hc (by simpa using hn)
    · cases h
  | spuriousWorker i =>
    simp only at h; split at h
    · rename_i hc; cases h; exact .spuriousWorker i hc
    · cases h
  | spuriousScheduler i =>
    simp only at h; split at h
    · rename_i e n hi; cases h; exact .spuriousScheduler i e n hi
    · cases h
  | spuriousNone i =>
    simp only at h; split at h
    · rename_i hc; cases h; exact .spuriousNone i hc
    · cases h
  | spuriousAll i =>
    simp only at h; split at h
    · rename_i hc; cases h; exact .spuriousAll i hc
    · cases h
  | clock t => cases h; exact .clock t
  | worker i =>
    simp only at h; split at h
    · rename_i hi; cases h; exact .workerReady i hi
    · rename_i t hi; cases h; exact .workerFinished i t hi
    · cases h
  | taskReturns i =>
    simp only at h; split at h
    · rename_i t hi; cases h; exact .taskReturns i t hi
    · cases h
  | taskThrows i =>
    simp only at h; split at h
    · rename_i t hi; cases h; exact .taskThrows i t hi
    · cases h
  | schedulerTimeout i =>
    simp only at h; split at h
    · rename_i e n hi
      split at h
      · rename_i ht; cases h; exact .schedulerTimeout i e n hi ht
      · cases h
    · cases h
  | scheduler i woken =>
    simp only at h; split at h
    · rename_i hi
      split at h
      · rename_i hw
        cases h
        rw [Option.isNone_iff_eq_none] at hw
        subst hw
        exact .schedulerReady i hi
      · cases h
    · rename_i e n hi
      have hcr : s.crash.isSome = false := by simpa using hcrash
      unfold moveTimed at h
      by_cases he : e ∈ s.scheduled
      · rw [if_pos he] at h
        cases hw : wakeOne woken s.workers with
        | none => rw [hw] at h; simp at h
        | some ws =>
          rw [hw] at h
          simp only [enqueue, hcr, Bool.false_eq_true, if_false, Option.some.injEq] at h
          subst h
          exact .schedulerMoves i woken e n ws hi he hw
      · rw [if_neg he] at h
        simp only [Option.isSome_some, if_true, Option.some.injEq] at h
        subst h
        exact .schedulerDangling i woken e n hi he
    · cases h
  | callWaitNone caller =>
    simp only at h; split at h
    · rename_i hc; cases h; exact .callWaitNone caller hc
    · cases h
  | callWaitAll caller =>
    simp only at h; split at h
    · rename_i hc; cases h; exact .callWaitAll caller hc
    · cases h
  | waitNone i =>
    simp only at h; split at h
    · rename_i hi
      split at h
      · rename_i hq; cases h; exact .waitNoneBlocks i hi hq
      · rename_i hq; cases h; exact .waitNoneReturns i hi (by simpa using hq)
    · cases h
  | waitAll i =>
    simp only at h; split at h
    · rename_i hi
      split at h
      · rename_i hq; cases h; exact .waitAllBlocks i hi hq
      · rename_i hq
        cases h
        exact .waitAllReturns i hi (by simpa [not_or] using hq)
    · cases h
  | stop =>
    simp only at h; split at h
    · rename_i hc; cases h; exact .stop hc
    · cases h
  | stopNotifyWorkers =>
    simp only at h; split at h
    · rename_i hc; cases h; exact .stopNotifyWorkers hc
    · cases h
  | stopNotifyScheduler =>
    simp only at h; split at h
    · rename_i hc; cases h; exact .stopNotifyScheduler hc
    · cases h
  | stopReturns =>
    simp only at h; split at h
    · rename_i hc; cases h; exact .stopReturns hc.1 hc.2.1 hc.2.2
    · cases h

end Pluto.Pool
