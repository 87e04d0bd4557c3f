/-!
# Model of `include/pluto/thread_pool.hpp`

The pool is a transition system.  A step is either one critical section of `m_mutex`
(from acquiring it to releasing it in `unlock`, in `wait` or at the end of the scope), or
something a thread does outside the mutex: a notification sent after unlocking, the end
of a task, the creation of the scheduler thread and its assignment to `m_scheduler`, the
steps of the destructor.  Any step of any thread that is enabled may be next, so an
execution of the model is an interleaving chosen by an adversary.  Condition variables
may wake up spuriously, `notify_one` wakes an arbitrary sleeper if there is one.

Worker threads are anonymous: `m_workers` is the list of the states of its threads, and a
worker that removes itself from the table disappears.  (A worker finds its own entry in
the table, because the thread that creates it holds the mutex until the entry exists.)

Not modelled: failures to create a thread or to allocate memory, the contents of tasks
(a task is a number; it may do anything the environment may do, and it ends, or throws,
at any time or never).
Fields marked "history" are not part of the code; they record what happened.
-/

namespace Pluto.Pool

/-- Element of `m_waitingTasks` (lines 92, 99): the task and its priority, the key. -/
structure Entry where
  prio : Int
  task : Nat
  /-- history: number of entries that were put into the queue earlier -/
  seq : Nat
  /-- history: whether a task running in the pool submitted it -/
  fromTask : Bool
deriving DecidableEq, Repr

/-- Element of `m_scheduledTasks` (lines 78-88, 94, 100). -/
structure Timed where
  time : Int
  prio : Int
  task : Nat
deriving DecidableEq, Repr

/-- What a worker thread is doing in `start_working`, lines 385-431. -/
inductive Phase where
  /-- it is about to acquire the mutex and to go to the loop condition: it has just been
  created (387) or has been woken (399) -/
  | ready
  /-- it sleeps in `m_workersCondition.wait` (399) -/
  | blocked
  /-- it is calling the task (415) -/
  | running (t : Nat)
  /-- the task has returned and it is about to acquire the mutex (417) -/
  | finished (t : Nat)
  /-- it has ended, and its entry is still in `m_workers` -/
  | exited
deriving DecidableEq, Repr

/-- What a scheduler thread is doing in `start_scheduling`, lines 362-383. -/
inductive SPhase where
  /-- it is about to acquire the mutex and to go to the loop condition -/
  | ready
  /-- it sleeps in `wait_until` (369) for the element `begin` = `e`; history: `upTo` is
  the number of tasks submitted when it began to wait -/
  | waiting (e : Timed) (upTo : Nat)
  /-- `wait_until` has timed out and it is about to acquire the mutex -/
  | timedOut (e : Timed) (upTo : Nat)
  /-- it has ended -/
  | exited
deriving DecidableEq, Repr

/-- What a caller of one of the two waiting functions is doing, lines 341-359. -/
inductive Wait where
  /-- it is about to acquire the mutex and to check the condition -/
  | checking
  /-- it sleeps -/
  | blocked
deriving DecidableEq, Repr

/-- `thread_pool::action`, lines 60-64. -/
inductive Action where
  | joinAll
  | completeTasks
deriving DecidableEq, Repr

/-- How far the destructor is, lines 127-149. -/
inductive Stage where
  /-- it has not been called -/
  | alive
  /-- the flag is set (129-132) -/
  | flagged
  /-- the workers have been notified (134) -/
  | notifiedWorkers
  /-- the scheduler has been notified (135), the threads are being joined -/
  | joining
  /-- it has returned -/
  | destroyed
deriving DecidableEq, Repr

/-- Ways for the program to go wrong.  At `thread_pool.hpp` 307, 371-372, 381, 415. -/
inductive Crash where
  /-- `std::thread::operator=` on a joinable thread (307) calls `std::terminate` -/
  | assignedTwice
  /-- `detach` on a thread that is not joinable (381) throws in a thread function -/
  | detachedUnassigned
  /-- `begin` (371, 372) is the iterator of an erased element -/
  | danglingIterator
  /-- an exception leaves a task (415) and so a thread function -/
  | taskThrew
deriving DecidableEq, Repr

/-- State of the pool and of all threads that use it.  `thread_pool.hpp` 96-109. -/
structure State where
  /-- `m_waitingTasks` -/
  queue : List Entry := []
  /-- `m_scheduledTasks` -/
  scheduled : List Timed := []
  /-- `m_workers` -/
  workers : List Phase := []
  /-- `m_scheduler`: which of the `schedulers` it represents, if it is joinable -/
  scheduler : Option Nat := none
  /-- `m_onStop` -/
  onStop : Action := .joinAll
  /-- `m_isStopping` -/
  stopping : Bool := false
  /-- `m_targetWorkersSize` -/
  target : Nat := 0
  /-- `m_activeWorkersSize`; an integer, so that going below zero would show -/
  active : Int := 0
  /-- all scheduler threads that were created -/
  schedulers : List SPhase := []
  /-- calls of `m_workersCondition.notify_one()` that are about to happen (261) -/
  pendingOne : Nat := 0
  /-- calls of `m_workersCondition.notify_all()` that are about to happen (237) -/
  pendingAll : Nat := 0
  /-- calls of `m_schedulerCondition.notify_one()` that are about to happen (313) -/
  pendingSched : Nat := 0
  /-- calls of `run_at` that are about to create a thread (307) -/
  creating : Nat := 0
  /-- threads that calls of `run_at` have created and are about to assign (307) -/
  assigning : List Nat := []
  /-- callers of `wait_until_no_tasks_waiting` -/
  waitNone : List Wait := []
  /-- callers of `wait_until_all_tasks_complete` -/
  waitAll : List Wait := []
  /-- callers of `run_sync`, by the task for which they wait -/
  syncs : List Nat := []
  /-- the promises of `run_sync` that are fulfilled, by the task -/
  fulfilled : List Nat := []
  stage : Stage := .alive
  /-- `clock_type::now()` -/
  now : Int := 0
  crash : Option Crash := none
  /-- history: number of tasks submitted; tasks are numbered in this order -/
  nextTask : Nat := 0
  /-- history: number of entries put into the queue -/
  nextSeq : Nat := 0
  /-- history: entries taken from the queue by workers, in order -/
  started : List Entry := []
  /-- history: tasks that have returned, in order -/
  completed : List Nat := []
  /-- history: tasks moved from the schedule to the queue, in order -/
  moved : List Timed := []
  /-- history: all clock readings so far are at most this -/
  maxNow : Int := 0
  /-- history: the largest target so far -/
  maxTarget : Nat := 0
  /-- history: `nextSeq` when the destructor set the flag -/
  stopSeq : Nat := 0
deriving DecidableEq, Repr

/-! ## Parts of the critical sections -/

/-- `m_waitingTasks.emplace(priority, task)`, lines 257 and 371: a `std::multimap` ordered
by `is_greater`, where an equal key is inserted behind the equal ones. -/
def insertEntry (e : Entry) : List Entry → List Entry
  | [] => [e]
  | x :: xs => if e.prio > x.prio then e :: x :: xs else x :: insertEntry e xs

/-- `m_scheduledTasks.emplace(time, …)`, line 302: a `std::multimap` ordered by `<`. -/
def insertTimed (e : Timed) : List Timed → List Timed
  | [] => [e]
  | x :: xs => if e.time < x.time then e :: x :: xs else x :: insertTimed e xs

/-- A notification of all callers that sleep on a condition, lines 396 and 409. -/
def wakeAll (ws : List Wait) : List Wait := ws.map fun _ => .checking

/-- `m_workersCondition.notify_one()`: `woken` is the worker that wakes up, which must be
asleep; `none` is possible only if no worker is asleep.  `thread_pool.hpp` 261, 375. -/
def wakeOne (woken : Option Nat) (ws : List Phase) : Option (List Phase) :=
  match woken with
  | some i => if ws[i]? = some .blocked then some (ws.set i .ready) else none
  | none => if .blocked ∈ ws then none else some ws

/-- `m_workersCondition.notify_all()`.  `thread_pool.hpp` 134, 237. -/
def wakeWorker : Phase → Phase
  | .blocked => .ready
  | p => p

/-- `m_schedulerCondition.notify_one()`, likewise.  `thread_pool.hpp` 313. -/
def isWaiting : SPhase → Bool
  | .waiting _ _ => true
  | _ => false

/-- `m_schedulerCondition.notify_all()`.  `thread_pool.hpp` 135. -/
def wakeScheduler : SPhase → SPhase
  | .waiting _ _ => .ready
  | p => p

/-- The end of the worker loop and what follows, lines 389-411 and 422-430, by the worker
at position `i`, from the loop condition until it releases the mutex. -/
def workerPass (s : State) (i : Nat) : State :=
  if s.workers.length ≤ s.target ∧
      (s.stopping = false ∨ (s.onStop = .completeTasks ∧ s.queue ≠ [])) then
    match s.queue with
    | [] =>
      { s with
        waitAll := if s.active = 0 then wakeAll s.waitAll else s.waitAll
        workers := s.workers.set i .blocked }
    | e :: rest =>
      { s with
        queue := rest
        waitNone := if rest = [] then wakeAll s.waitNone else s.waitNone
        active := s.active + 1
        workers := s.workers.set i (.running e.task)
        started := s.started ++ [e] }
  else if s.stopping = false then { s with workers := s.workers.eraseIdx i }
  else { s with workers := s.workers.set i .exited }

/-- The loop condition of the scheduler and what follows, lines 366-369 and 379-382, by
the scheduler thread `i`. -/
def schedulerPass (s : State) (i : Nat) : State :=
  match s.scheduled, s.stopping with
  | e :: _, false => { s with schedulers := s.schedulers.set i (.waiting e s.nextTask) }
  | _, true => { s with schedulers := s.schedulers.set i .exited }
  | [], false =>
    match s.scheduler with
    | some _ => { s with scheduler := none, schedulers := s.schedulers.set i .exited }
    | none => { s with crash := some .detachedUnassigned }

/-- A task is put into the queue.  `thread_pool.hpp` 257, 371. -/
def enqueue (s : State) (prio : Int) (t : Nat) (fromTask : Bool) : State :=
  { s with
    queue := insertEntry ⟨prio, t, s.nextSeq, fromTask⟩ s.queue
    nextSeq := s.nextSeq + 1 }

/-- What the scheduler does when `wait_until` has timed out for `e`, lines 371-375. -/
def moveTimed (s : State) (e : Timed) (woken : Option Nat) : Option State :=
  if e ∈ s.scheduled then
    match wakeOne woken s.workers with
    | some ws =>
      let s := enqueue s e.prio e.task false
      some { s with
        scheduled := s.scheduled.erase e
        workers := ws
        moved := s.moved ++ [e] }
    | none => none
  else some { s with crash := some .danglingIterator }

/-- `run_at`, lines 300-314, until the mutex is released. -/
def runAt (s : State) (time prio : Int) : State :=
  let scheduled := insertTimed ⟨time, prio, s.nextTask⟩ s.scheduled
  let s := { s with scheduled := scheduled, nextTask := s.nextTask + 1 }
  if s.scheduler.isNone then { s with creating := s.creating + 1 }
  else if scheduled.head?.map (·.time) = some time then
    { s with pendingSched := s.pendingSched + 1 }
  else s

/-! ## Steps -/

/-- What can happen next.  In calls of the interface `caller` is the worker whose task
makes the call, or `none` for a thread outside the pool.  `thread_pool.hpp` 112-432. -/
inductive Event where
  /-- critical section of `run_async`, lines 255-258 -/
  | runAsync (prio : Int) (caller : Option Nat)
  /-- critical section of the `run_async` in `run_sync`, lines 275-282 -/
  | runSync (prio : Int) (caller : Option Nat)
  /-- `promise.get_future().wait()` returns, line 285 -/
  | syncReturns (t : Nat)
  /-- critical section of `run_at`, lines 300-314 -/
  | runAt (time prio : Int) (caller : Option Nat)
  /-- critical section of `run_after`, lines 325-331 -/
  | runAfter (duration prio : Int) (caller : Option Nat)
  /-- the thread of line 307 is created -/
  | createScheduler
  /-- thread `i` is assigned to `m_scheduler`, line 307 -/
  | assignScheduler (i : Nat)
  /-- `target_workers_size(n)`, lines 221-236 -/
  | setTarget (n : Nat) (caller : Option Nat)
  /-- `on_stop(action)`, lines 244-249 -/
  | setOnStop (a : Action) (caller : Option Nat)
  /-- notification of a worker, line 261 -/
  | notifyOne (woken : Option Nat)
  /-- notification of all workers, line 237 -/
  | notifyAll
  /-- notification of the scheduler, line 313 -/
  | notifyScheduler (woken : Option Nat)
  /-- worker `i` wakes up spuriously -/
  | spuriousWorker (i : Nat)
  /-- scheduler `i` wakes up spuriously -/
  | spuriousScheduler (i : Nat)
  /-- a caller of `wait_until_no_tasks_waiting` wakes up spuriously -/
  | spuriousNone (i : Nat)
  /-- a caller of `wait_until_all_tasks_complete` wakes up spuriously -/
  | spuriousAll (i : Nat)
  /-- the clock shows `t` -/
  | clock (t : Int)
  /-- worker `i` executes a critical section of `start_working` -/
  | worker (i : Nat)
  /-- the task that worker `i` is calling returns -/
  | taskReturns (i : Nat)
  /-- the task that worker `i` is calling throws -/
  | taskThrows (i : Nat)
  /-- `wait_until` of scheduler `i` times out -/
  | schedulerTimeout (i : Nat)
  /-- scheduler `i` executes a critical section of `start_scheduling`; `woken` is the
  worker woken in line 375 -/
  | scheduler (i : Nat) (woken : Option Nat)
  /-- call of `wait_until_no_tasks_waiting` -/
  | callWaitNone (caller : Option Nat)
  /-- call of `wait_until_all_tasks_complete` -/
  | callWaitAll (caller : Option Nat)
  /-- caller `i` checks the condition of line 345 -/
  | waitNone (i : Nat)
  /-- caller `i` checks the condition of line 355 -/
  | waitAll (i : Nat)
  /-- the destructor sets the flag, lines 129-132 -/
  | stop
  /-- the destructor notifies the workers, line 134 -/
  | stopNotifyWorkers
  /-- the destructor notifies the scheduler, line 135 -/
  | stopNotifyScheduler
  /-- the destructor has joined all threads, lines 137-148, and returns -/
  | stopReturns
deriving DecidableEq, Repr

/-- Whether `caller` can call a function: threads outside must not call it when the
destructor has begun; a task can, as long as it runs.  `thread_pool.hpp` 165-359. -/
def canCall (s : State) : Option Nat → Bool
  | none => s.stage == .alive
  | some i =>
    match s.workers[i]? with
    | some (.running _) => true
    | _ => false

/-- Whether joining `m_scheduler` returns, lines 145-148. -/
def schedulerEnded (s : State) : Bool :=
  match s.scheduler with
  | some i => s.schedulers[i]? == some .exited
  | none => true

/-- One step; `none` if the event cannot happen in this state.  `thread_pool.hpp` 112-432. -/
def step (s : State) (ev : Event) : Option State :=
  if s.crash.isSome then none
  else match ev with
  | .runAsync prio caller =>
    if canCall s caller then
      let s := enqueue s prio s.nextTask caller.isSome
      some { s with nextTask := s.nextTask + 1, pendingOne := s.pendingOne + 1 }
    else none
  | .runSync prio caller =>
    if canCall s caller then
      let t := s.nextTask
      let s := enqueue s prio t caller.isSome
      some { s with
        nextTask := t + 1, pendingOne := s.pendingOne + 1, syncs := t :: s.syncs }
    else none
  | .syncReturns t =>
    if t ∈ s.syncs ∧ t ∈ s.fulfilled then some { s with syncs := s.syncs.erase t } else none
  | .runAt time prio caller => if canCall s caller then some (runAt s time prio) else none
  | .runAfter duration prio caller =>
    if canCall s caller then some (runAt s (s.now + duration) prio) else none
  | .createScheduler =>
    if 0 < s.creating then
      some { s with
        creating := s.creating - 1
        schedulers := s.schedulers ++ [.ready]
        assigning := s.schedulers.length :: s.assigning }
    else none
  | .assignScheduler i =>
    if i ∈ s.assigning then
      match s.scheduler with
      | some _ => some { s with crash := some .assignedTwice }
      | none => some { s with assigning := s.assigning.erase i, scheduler := some i }
    else none
  | .setTarget n caller =>
    if canCall s caller then
      if s.stopping = false then
        let s := { s with
          target := n
          maxTarget := max s.maxTarget n
          workers := s.workers ++ List.replicate (n - s.workers.length) .ready }
        some (if s.target < s.workers.length then { s with pendingAll := s.pendingAll + 1 } else s)
      else some s
    else none
  | .setOnStop a caller => if canCall s caller then some { s with onStop := a } else none
  | .notifyOne woken =>
    if 0 < s.pendingOne then
      match wakeOne woken s.workers with
      | some ws => some { s with pendingOne := s.pendingOne - 1, workers := ws }
      | none => none
    else none
  | .notifyAll =>
    if 0 < s.pendingAll then
      some { s with pendingAll := s.pendingAll - 1, workers := s.workers.map wakeWorker }
    else none
  | .notifyScheduler woken =>
    if 0 < s.pendingSched then
      match woken with
      | some i =>
        match s.schedulers[i]? with
        | some (.waiting _ _) =>
          some { s with
            pendingSched := s.pendingSched - 1, schedulers := s.schedulers.set i .ready }
        | _ => none
      | none =>
        if s.schedulers.any isWaiting then none
        else some { s with pendingSched := s.pendingSched - 1 }
    else none
  | .spuriousWorker i =>
    if s.workers[i]? = some .blocked then some { s with workers := s.workers.set i .ready }
    else none
  | .spuriousScheduler i =>
    match s.schedulers[i]? with
    | some (.waiting _ _) => some { s with schedulers := s.schedulers.set i .ready }
    | _ => none
  | .spuriousNone i =>
    if s.waitNone[i]? = some .blocked then some { s with waitNone := s.waitNone.set i .checking }
    else none
  | .spuriousAll i =>
    if s.waitAll[i]? = some .blocked then some { s with waitAll := s.waitAll.set i .checking }
    else none
  | .clock t => some { s with now := t, maxNow := max s.maxNow t }
  | .worker i =>
    match s.workers[i]? with
    | some .ready => some (workerPass s i)
    | some (.finished _) => some (workerPass { s with active := s.active - 1 } i)
    | _ => none
  | .taskReturns i =>
    match s.workers[i]? with
    | some (.running t) =>
      some { s with
        workers := s.workers.set i (.finished t)
        completed := s.completed ++ [t]
        fulfilled := if t ∈ s.syncs then t :: s.fulfilled else s.fulfilled }
    | _ => none
  | .taskThrows i =>
    match s.workers[i]? with
    | some (.running _) => some { s with crash := some .taskThrew }
    | _ => none
  | .schedulerTimeout i =>
    match s.schedulers[i]? with
    | some (.waiting e n) =>
      if e.time ≤ s.now then some { s with schedulers := s.schedulers.set i (.timedOut e n) }
      else none
    | _ => none
  | .scheduler i woken =>
    match s.schedulers[i]? with
    | some .ready => if woken.isNone then some (schedulerPass s i) else none
    | some (.timedOut e _) =>
      match moveTimed s e woken with
      | some s => some (if s.crash.isSome then s else schedulerPass s i)
      | none => none
    | _ => none
  | .callWaitNone caller =>
    if canCall s caller then some { s with waitNone := s.waitNone ++ [.checking] } else none
  | .callWaitAll caller =>
    if canCall s caller then some { s with waitAll := s.waitAll ++ [.checking] } else none
  | .waitNone i =>
    if s.waitNone[i]? = some .checking then
      if s.queue ≠ [] then some { s with waitNone := s.waitNone.set i .blocked }
      else some { s with waitNone := s.waitNone.eraseIdx i }
    else none
  | .waitAll i =>
    if s.waitAll[i]? = some .checking then
      if s.queue ≠ [] ∨ s.active ≠ 0 then some { s with waitAll := s.waitAll.set i .blocked }
      else some { s with waitAll := s.waitAll.eraseIdx i }
    else none
  | .stop =>
    if s.stage = .alive then
      some { s with stopping := true, stage := .flagged, stopSeq := s.nextSeq }
    else none
  | .stopNotifyWorkers =>
    if s.stage = .flagged then
      some { s with workers := s.workers.map wakeWorker, stage := .notifiedWorkers }
    else none
  | .stopNotifyScheduler =>
    if s.stage = .notifiedWorkers then
      some { s with schedulers := s.schedulers.map wakeScheduler, stage := .joining }
    else none
  | .stopReturns =>
    if s.stage = .joining ∧ (∀ p ∈ s.workers, p = .exited) ∧ schedulerEnded s = true then
      some { s with stage := .destroyed }
    else none

/-! ## Getters -/

/-- `std::size_t` arithmetic.  `thread_pool.hpp` 186, 192. -/
def size (x : Int) : Nat := (x % 2 ^ 64).toNat

/-- `workers_size`, lines 165-169. -/
def workersSize (s : State) : Nat := s.workers.length

/-- `target_workers_size`, lines 171-175. -/
def targetWorkersSize (s : State) : Nat := s.target

/-- `active_workers_size`, lines 177-181, and `active_tasks_size`, lines 195-199. -/
def activeWorkersSize (s : State) : Nat := size s.active

/-- `waiting_workers_size`, lines 183-187. -/
def waitingWorkersSize (s : State) : Nat := size (s.workers.length - s.active)

/-- `tasks_size`, lines 189-193. -/
def tasksSize (s : State) : Nat := size (s.queue.length + s.active)

/-- `waiting_tasks_size`, lines 201-205. -/
def waitingTasksSize (s : State) : Nat := s.queue.length

/-- `scheduled_tasks_size`, lines 207-211. -/
def scheduledTasksSize (s : State) : Nat := s.scheduled.length

/-! ## Executions -/

/-- The constructor, lines 112-125: `n` workers are created while it holds the mutex. -/
def init (n : Nat) : State :=
  { target := n, maxTarget := n, workers := List.replicate n .ready }

/-- Several steps.  `thread_pool.hpp` 112-432. -/
def run (s : State) : List Event → Option State
  | [] => some s
  | ev :: evs =>
    match step s ev with
    | some s => run s evs
    | none => none

/-- States that executions of a pool created with `n` workers reach.  `thread_pool.hpp` 112-432. -/
inductive Reachable (n : Nat) : State → Prop where
  | init : Reachable n (init n)
  | step {s s' : State} (ev : Event) : Reachable n s → step s ev = some s' → Reachable n s'

end Pluto.Pool
