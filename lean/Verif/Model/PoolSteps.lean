import Verif.Model.Pool

/-!
# Model of `include/pluto/thread_pool.hpp`, statement by statement

In `Pool.lean` a critical section of `m_mutex` is one step.  Here it is as many steps as it has statements (and tests),
between which everything may happen that needs no mutex: notifications, the end of tasks, time-outs, spurious wake-ups,
the creation and assignment of the scheduler thread, the notifications and joins of the destructor.  A thread waits until
nobody holds the mutex before it enters a section.

What happens outside of critical sections is as in `Pool.lean`.  `run_after` (lines 325-331) reads the clock before it
calls `run_at`, so here it is a call of `run_at` with any time.  Creating a worker and putting it into the table (lines
229-230) is one step; the new thread needs the mutex before it does anything.
-/

namespace Pluto.PoolSteps
open Pluto.Pool (Event Entry Timed Phase SPhase Wait Action Crash)

/-- The functions without an effect, lines 165-217. -/
inductive Getter where
  | workersSize | targetWorkersSize | activeWorkersSize | waitingWorkersSize | tasksSize | activeTasksSize | waitingTasksSize
  | scheduledTasksSize | onStop
deriving DecidableEq, Repr

/-- What they return.  `thread_pool.hpp` 165-217. -/
inductive Result where
  | size (n : Nat)
  | action (a : Action)
deriving DecidableEq, Repr

/-- A critical section: one of those of `Pool.lean`, or that of a function without an effect.  `thread_pool.hpp` 112-432. -/
inductive Sec where
  | event (ev : Event)
  | get (g : Getter) (caller : Option Nat)
deriving DecidableEq, Repr

/-- Where a thread is in a critical section: the statement which it executes next. In `start_working` and
`start_scheduling` `from` is how it came into the section (history), `e` is the element at `begin`.
`thread_pool.hpp` 112-432. -/
inductive Pc where
  /-- `m_waitingTasks.emplace`, line 257 -/
  | emplace
  /-- the end of the section, where nothing is left to do but to release the mutex, after which `run_async` (258) will
  notify a worker, and functions that wait return (349, 359) -/
  | leave
  /-- likewise, in `run_sync`, whose task has the number `t` -/
  | leaveSync (t : Nat)
  /-- `if (!m_isStopping)`, line 223 -/
  | isStopping
  /-- `m_targetWorkersSize = targetWorkersSize`, line 225 -/
  | target
  /-- `while (m_workers.size() < m_targetWorkersSize)`, line 227 -/
  | more
  /-- lines 229-230 -/
  | spawn
  /-- `if (m_targetWorkersSize < m_workers.size())`, line 233 -/
  | fewer
  /-- `lock.unlock()`, line 236 -/
  | leaveNotify
  /-- `m_onStop = onStop`, line 247 -/
  | onStop
  /-- `m_isStopping = true`, line 131 -/
  | flag
  /-- `m_scheduledTasks.emplace`, line 302 -/
  | schedule
  /-- `if (!m_scheduler.joinable())`, line 304 -/
  | joinable
  /-- `lock.unlock()`, line 306 -/
  | leaveCreate
  /-- `time == m_scheduledTasks.begin()->first`, line 309 -/
  | first
  /-- `lock.unlock()`, line 312 -/
  | leaveWake
  /-- `!m_waitingTasks.empty()`, lines 345 and 355 -/
  | noTasks
  /-- `m_activeWorkersSize != 0`, line 355 -/
  | noActive
  /-- `wait`, lines 347 and 357 -/
  | sleep
  /-- `--m_activeWorkersSize`, line 418 -/
  | dec (from' : Phase)
  /-- `m_workers.size() <= m_targetWorkersSize`, line 389 -/
  | size (from' : Phase)
  /-- `!m_isStopping`, line 390 -/
  | working (from' : Phase)
  /-- `m_onStop == action::complete_tasks`, line 390 -/
  | complete (from' : Phase)
  /-- `!m_waitingTasks.empty()`, line 390 -/
  | anyLeft (from' : Phase)
  /-- `m_waitingTasks.empty()`, line 392 -/
  | anyTask (from' : Phase)
  /-- `m_activeWorkersSize == 0`, line 394 -/
  | idle (from' : Phase)
  /-- `m_tasksCompleteCondition.notify_all()`, line 396 -/
  | notifyComplete (from' : Phase)
  /-- `m_workersCondition.wait(lock)`, line 399 -/
  | block (from' : Phase)
  /-- lines 403-404 -/
  | take (from' : Phase)
  /-- `m_waitingTasks.erase(begin)`, line 405 -/
  | erase (from' : Phase) (e : Entry)
  /-- `m_waitingTasks.empty()`, line 407 -/
  | emptied (from' : Phase) (e : Entry)
  /-- `m_tasksWorkingCondition.notify_all()`, line 409 -/
  | notifyWorking (from' : Phase) (e : Entry)
  /-- `++m_activeWorkersSize`, line 412 -/
  | inc (from' : Phase) (e : Entry)
  /-- `lock.unlock()`, line 413 -/
  | start (from' : Phase) (e : Entry)
  /-- `if (!m_isStopping)`, line 422 -/
  | leaving (from' : Phase)
  /-- lines 424-428 -/
  | eraseSelf (from' : Phase)
  /-- the end of a thread, line 430 or 383, when the pool is stopping -/
  | exit (from' : Phase)
  /-- `m_waitingTasks.emplace`, line 371 -/
  | move (e : Timed) (upTo : Nat)
  /-- `m_scheduledTasks.erase(begin)`, line 372 -/
  | unschedule (e : Timed) (upTo : Nat)
  /-- `m_workersCondition.notify_one()`, line 375 -/
  | notifyWorker (e : Timed) (upTo : Nat)
  /-- `!m_scheduledTasks.empty()`, line 366 -/
  | anyScheduled (from' : SPhase)
  /-- `!m_isStopping`, line 366 -/
  | scheduling (from' : SPhase)
  /-- line 368 -/
  | begin (from' : SPhase)
  /-- `wait_until`, line 369 -/
  | doze (from' : SPhase) (e : Timed)
  /-- `if (!m_isStopping)`, line 379 -/
  | ending (from' : SPhase)
  /-- `m_scheduler.detach()`, line 381 -/
  | detach (from' : SPhase)
  /-- the end of a scheduler, line 383, which has been detached -/
  | leaveEnded
  /-- the end of a scheduler, line 383, when the pool is stopping -/
  | exitScheduler (from' : SPhase)
  /-- the first member is read -/
  | read
  /-- the second member is read, the first one is `x` -/
  | read2 (x : Nat)
  /-- the end of the section, `r` will be returned -/
  | result (r : Result)
deriving DecidableEq, Repr

/-- What happened in the order of the critical sections, which ends with the last one that was left.
`thread_pool.hpp` 112-432. -/
inductive Item where
  | event (ev : Event)
  | got (g : Getter) (r : Result)
deriving DecidableEq, Repr

/-- The pool, who holds the mutex and where this thread is.  `thread_pool.hpp` 96-109. -/
structure State where
  base : Pool.State
  inside : Option (Sec × Pc) := none
  /-- history: the critical sections that were left -/
  log : List Item := []
deriving DecidableEq, Repr

/-- What happens without the mutex.  `thread_pool.hpp` 112-432. -/
def isOutside : Event → Bool
  | .syncReturns _ | .createScheduler | .assignScheduler _ | .notifyOne _ | .notifyAll | .notifyScheduler _
  | .spuriousWorker _ | .spuriousScheduler _ | .spuriousNone _ | .spuriousAll _ | .clock _ | .taskReturns _ | .taskThrows _
  | .schedulerTimeout _ | .callWaitNone _ | .callWaitAll _ | .stopNotifyWorkers | .stopNotifyScheduler | .stopReturns => true
  | _ => false

/-- The worker whose task executes the section.  `thread_pool.hpp` 112-432. -/
def callerOf : Sec → Option Nat
  | .get _ c => c
  | .event (.runAsync _ c) | .event (.runSync _ c) | .event (.runAt _ _ c) | .event (.setTarget _ c)
  | .event (.setOnStop _ c) => c
  | _ => none

/-- A task does not end in the middle of a function that it has called.  `thread_pool.hpp` 112-432. -/
def hinders (sec : Sec) : Event → Bool
  | .taskReturns i | .taskThrows i => callerOf sec == some i
  | _ => false

/-- Whether a thread can enter a critical section when the mutex is free, and its first statement.
`thread_pool.hpp` 112-432. -/
def enter (s : Pool.State) : Sec → Option Pc
  | .event (.runAsync _ c) | .event (.runSync _ c) => if Pool.canCall s c then some .emplace else none -- line 256
  | .event (.runAt _ _ c) => if Pool.canCall s c then some .schedule else none -- line 300
  | .event (.setTarget _ c) => if Pool.canCall s c then some .isStopping else none -- line 221
  | .event (.setOnStop _ c) => if Pool.canCall s c then some .onStop else none -- line 246
  | .event (.worker i) => -- lines 387, 399 and 417
    match s.workers[i]? with
    | some .ready => some (.size .ready)
    | some (.finished t) => some (.dec (.finished t))
    | _ => none
  | .event (.scheduler i none) => -- lines 364 and 369
    match s.schedulers[i]? with
    | some .ready => some (.anyScheduled .ready)
    | some (.timedOut e n) => some (.move e n)
    | _ => none
  | .event (.waitNone i) => if s.waitNone[i]? = some .checking then some .noTasks else none -- lines 343 and 347
  | .event (.waitAll i) => if s.waitAll[i]? = some .checking then some .noTasks else none -- lines 353 and 357
  | .event .stop => if s.stage = .alive then some .flag else none -- line 130
  | .get _ c => if Pool.canCall s c then some .read else none -- lines 165-217
  | _ => none

/-- A statement of `run_async`, line 257. -/
def emplaceTask (s : Pool.State) (prio : Int) (c : Option Nat) : Pool.State :=
  let t := s.nextTask
  { Pool.enqueue s prio t c.isSome with nextTask := t + 1 }

/-- The statements of `target_workers_size`, lines 219-242. -/
def goTarget (n : Nat) (s : Pool.State) : Pc → Option (Pool.State × Option Pc)
  | .isStopping => some (s, some (if s.stopping then .leave else .target))
  | .target => some ({ s with target := n, maxTarget := max s.maxTarget n }, some .more)
  | .more => some (s, some (if s.workers.length < s.target then .spawn else .fewer))
  | .spawn => some ({ s with workers := s.workers ++ [.ready] }, some .more)
  | .fewer => some (s, some (if s.target < s.workers.length then .leaveNotify else .leave))
  | .leaveNotify => some ({ s with pendingAll := s.pendingAll + 1 }, none)
  | .leave => some (s, none)
  | _ => none

/-- The statements of `run_at`, lines 295-315. -/
def goAt (time prio : Int) (s : Pool.State) : Pc → Option (Pool.State × Option Pc)
  | .schedule =>
    some ({ s with scheduled := Pool.insertTimed ⟨time, prio, s.nextTask⟩ s.scheduled, nextTask := s.nextTask + 1 }, some .joinable)
  | .joinable => some (s, some (if s.scheduler.isNone then .leaveCreate else .first))
  | .first => some (s, some (if s.scheduled.head?.map (·.time) = some time then .leaveWake else .leave))
  | .leaveCreate => some ({ s with creating := s.creating + 1 }, none)
  | .leaveWake => some ({ s with pendingSched := s.pendingSched + 1 }, none)
  | .leave => some (s, none)
  | _ => none

/-- The statements of `start_working`, lines 385-431, of worker `i`. -/
def goWorker (i : Nat) (s : Pool.State) : Pc → Option (Pool.State × Option Pc)
  | .dec p => some ({ s with active := s.active - 1 }, some (.size p))
  | .size p => some (s, some (if s.workers.length ≤ s.target then .working p else .leaving p))
  | .working p => some (s, some (if s.stopping then .complete p else .anyTask p))
  | .complete p => some (s, some (if s.onStop = .completeTasks then .anyLeft p else .leaving p))
  | .anyLeft p => some (s, some (if s.queue = [] then .leaving p else .anyTask p))
  | .anyTask p => some (s, some (if s.queue = [] then .idle p else .take p))
  | .idle p => some (s, some (if s.active = 0 then .notifyComplete p else .block p))
  | .notifyComplete p => some ({ s with waitAll := Pool.wakeAll s.waitAll }, some (.block p))
  | .block _ => some ({ s with workers := s.workers.set i .blocked }, none)
  | .take p =>
    match s.queue with
    | e :: _ => some (s, some (.erase p e))
    | [] => none
  | .erase p e => some ({ s with queue := s.queue.tail, started := s.started ++ [e] }, some (.emptied p e))
  | .emptied p e => some (s, some (if s.queue = [] then .notifyWorking p e else .inc p e))
  | .notifyWorking p e => some ({ s with waitNone := Pool.wakeAll s.waitNone }, some (.inc p e))
  | .inc p e => some ({ s with active := s.active + 1 }, some (.start p e))
  | .start _ e => some ({ s with workers := s.workers.set i (.running e.task) }, none)
  | .leaving p => some (s, some (if s.stopping then .exit p else .eraseSelf p))
  | .eraseSelf _ => some ({ s with workers := s.workers.eraseIdx i }, some .leave)
  | .leave => some (s, none)
  | .exit _ => some ({ s with workers := s.workers.set i .exited }, none)
  | _ => none

/-- The statements of `start_scheduling`, lines 362-383, of scheduler thread `i`; `woken` is the worker that is woken in
line 375. -/
def goScheduler (i : Nat) (woken : Option Nat) (s : Pool.State) : Pc → Option (Pool.State × Option Pc)
  | .move e n =>
    if e ∈ s.scheduled then some (Pool.enqueue s e.prio e.task false, some (.unschedule e n))
    else some ({ s with crash := some .danglingIterator }, some (.move e n))
  | .unschedule e n => some ({ s with scheduled := s.scheduled.erase e, moved := s.moved ++ [e] }, some (.notifyWorker e n))
  | .notifyWorker e n =>
    match Pool.wakeOne woken s.workers with
    | some ws => some ({ s with workers := ws }, some (.anyScheduled (.timedOut e n)))
    | none => none
  | .anyScheduled p => some (s, some (if s.scheduled = [] then .ending p else .scheduling p))
  | .scheduling p => some (s, some (if s.stopping then .ending p else .begin p))
  | .begin p =>
    match s.scheduled with
    | e :: _ => some (s, some (.doze p e))
    | [] => none
  | .doze _ e => some ({ s with schedulers := s.schedulers.set i (.waiting e s.nextTask) }, none)
  | .ending p => some (s, some (if s.stopping then .exitScheduler p else .detach p))
  | .detach p =>
    match s.scheduler with
    | some _ => some ({ s with scheduler := none }, some .leaveEnded)
    | none => some ({ s with crash := some .detachedUnassigned }, some (.detach p))
  | .leaveEnded => some ({ s with schedulers := s.schedulers.set i .exited }, none)
  | .exitScheduler _ => some ({ s with schedulers := s.schedulers.set i .exited }, none)
  | _ => none

/-- The statements of the functions without an effect, lines 165-217. -/
def goGet (s : Pool.State) : Getter → Pc → Option (Pool.State × Option Pc)
  | .workersSize, .read => some (s, some (.result (.size s.workers.length)))
  | .targetWorkersSize, .read => some (s, some (.result (.size s.target)))
  | .activeWorkersSize, .read | .activeTasksSize, .read => some (s, some (.result (.size (Pool.size s.active))))
  | .waitingWorkersSize, .read => some (s, some (.read2 s.workers.length))
  | .waitingWorkersSize, .read2 x => some (s, some (.result (.size (Pool.size (x - s.active)))))
  | .tasksSize, .read => some (s, some (.read2 s.queue.length))
  | .tasksSize, .read2 x => some (s, some (.result (.size (Pool.size (x + s.active)))))
  | .waitingTasksSize, .read => some (s, some (.result (.size s.queue.length)))
  | .scheduledTasksSize, .read => some (s, some (.result (.size s.scheduled.length)))
  | .onStop, .read => some (s, some (.result (.action s.onStop)))
  | _, .result _ => some (s, none)
  | _, _ => none

/-- The next statement of the thread that holds the mutex: the state and the statement after it, `none` if the mutex has been
released (in `wait` or at the end of the scope).  `thread_pool.hpp` 112-432. -/
def go (s : Pool.State) (woken : Option Nat) : Sec → Pc → Option (Pool.State × Option Pc)
  | .event (.runAsync prio c), .emplace => some (emplaceTask s prio c, some .leave)
  | .event (.runAsync _ _), .leave => some ({ s with pendingOne := s.pendingOne + 1 }, none)
  | .event (.runSync prio c), .emplace => some (emplaceTask s prio c, some (.leaveSync s.nextTask))
  | .event (.runSync _ _), .leaveSync t => some ({ s with pendingOne := s.pendingOne + 1, syncs := t :: s.syncs }, none)
  | .event (.setTarget n _), pc => goTarget n s pc
  | .event (.setOnStop a _), .onStop => some ({ s with onStop := a }, some .leave)
  | .event (.setOnStop _ _), .leave => some (s, none)
  | .event .stop, .flag => some ({ s with stopping := true, stopSeq := s.nextSeq }, some .leave)
  | .event .stop, .leave => some ({ s with stage := .flagged }, none)
  | .event (.runAt time prio _), pc => goAt time prio s pc
  | .event (.waitNone _), .noTasks => some (s, some (if s.queue = [] then .leave else .sleep))
  | .event (.waitNone i), .sleep => some ({ s with waitNone := s.waitNone.set i .blocked }, none)
  | .event (.waitNone i), .leave => some ({ s with waitNone := s.waitNone.eraseIdx i }, none)
  | .event (.waitAll _), .noTasks => some (s, some (if s.queue = [] then .noActive else .sleep))
  | .event (.waitAll _), .noActive => some (s, some (if s.active = 0 then .leave else .sleep))
  | .event (.waitAll i), .sleep => some ({ s with waitAll := s.waitAll.set i .blocked }, none)
  | .event (.waitAll i), .leave => some ({ s with waitAll := s.waitAll.eraseIdx i }, none)
  | .event (.worker i), pc => goWorker i s pc
  | .event (.scheduler i _), pc => goScheduler i woken s pc
  | .get g _, pc => goGet s g pc
  | _, _ => none

/-- What is recorded of a section.  `thread_pool.hpp` 112-432. -/
def item : Sec → Pc → Item
  | .get g _, .result r => .got g r
  | .get g _, _ => .got g (.size 0)
  | .event ev, _ => .event ev

/-- What can happen next.  `thread_pool.hpp` 112-432. -/
inductive Move where
  /-- a thread locks the mutex and enters a section -/
  | enter (sec : Sec)
  /-- the thread that holds the mutex executes a statement -/
  | go (woken : Option Nat)
  /-- something that needs no mutex -/
  | outside (ev : Event)
deriving DecidableEq, Repr

/-- One step; `none` if it cannot happen.  `thread_pool.hpp` 112-432. -/
def step (f : State) (m : Move) : Option State :=
  if f.base.crash.isSome then none
  else match m, f.inside with
  | .enter sec, none => (enter f.base sec).map fun pc => { f with inside := some (sec, pc) }
  | .enter _, some _ => none
  | .go _, none => none
  | .go woken, some (sec, pc) =>
    match go f.base woken sec pc with
    | some (s, some pc') => some { f with base := s, inside := some (sec, pc') }
    | some (s, none) => some { base := s, inside := none, log := f.log ++ [item sec pc] }
    | none => none
  | .outside ev, inside =>
    if isOutside ev = true ∧ (inside.elim false fun x => hinders x.1 ev) = false then
      (Pool.step f.base ev).map fun s => { f with base := s }
    else none

/-- The constructor, lines 112-125, holds the mutex until it has created the workers. -/
def init (n : Nat) : State := { base := Pool.init n }

/-- Several steps.  `thread_pool.hpp` 112-432. -/
def run (f : State) : List Move → Option State
  | [] => some f
  | m :: ms =>
    match step f m with
    | some f => run f ms
    | none => none

/-- States that executions of a pool created with `n` workers reach.  `thread_pool.hpp` 112-432. -/
inductive Reachable (n : Nat) : State → Prop where
  | init : Reachable n (init n)
  | step {f f' : State} (m : Move) : Reachable n f → step f m = some f' → Reachable n f'

end Pluto.PoolSteps
