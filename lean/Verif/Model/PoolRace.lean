/-!
# Model of the accesses of `thread_pool` to its members

`Verif/Model/Pool.lean` has one step for each critical section.  Here each access to a member of the pool is a step of its own, of any
number of threads, so that accesses of different threads can meet.  The functions of `include/pluto/thread_pool.hpp` are written
in a small language (`Code`).  Branches and loops that depend on data other than `m_isStopping` and `m_scheduler.joinable()` may
go either way.  The function objects of tasks are not modelled here (see `PoolLife`), nor exceptions (see `PoolFault`).
-/

namespace Pluto.PoolRace

/-- The members of the pool (lines 96-109) but for the mutex and the condition variables; `handles` are the `std::thread` objects
in `m_workers`. -/
inductive Loc where
  | workers | handles | scheduler | waiting | scheduled | onStop | stopping | target | active
deriving DecidableEq, Repr

/-- What a thread does to the pool.  For `thread_pool.hpp` 112-432. -/
inductive Act where
  /-- locks `m_mutex` -/
  | lock
  /-- unlocks `m_mutex` -/
  | unlock
  | read (l : Loc)
  | write (l : Loc)
  /-- notifies a condition variable of the pool -/
  | notify
  /-- `m_isStopping = true`, line 131 -/
  | setStopping
  /-- creates a worker thread and puts it into `m_workers`, lines 122-123 and 229-230 -/
  | spawnWorker
  /-- `m_workers.erase(it)`, line 428 -/
  | eraseSelf
  /-- creates the temporary `std::thread` of line 307, which runs -/
  | spawnScheduler
  /-- assigns it to `m_scheduler`, line 307; `std::terminate` if that has a thread -/
  | assignScheduler
  /-- `m_scheduler.detach()`, line 381; throws (and so ends the program) if it has no thread -/
  | detachScheduler
  /-- the calls of `join` of lines 137-143 have all returned -/
  | joinWorkers
  /-- `m_scheduler.join()`, line 147 -/
  | joinScheduler
deriving DecidableEq, Repr

/-- Conditions on which branches depend.  `thread_pool.hpp` 304, 366, 379, 389-390, 422. -/
inductive Cond where
  /-- `m_isStopping` -/
  | stopping
  /-- `m_scheduler.joinable()` -/
  | joinable
deriving DecidableEq, Repr

/-- Programs.  For `thread_pool.hpp` 112-432. -/
inductive Code where
  | skip
  | act (a : Act)
  | seq (c d : Code)
  /-- a branch that depends on other data -/
  | choice (c d : Code)
  /-- a loop whose end depends on other data -/
  | loop (c : Code)
  | cond (b : Cond) (c d : Code)
  /-- any number of calls of functions of the pool -/
  | call
  /-- a call has returned -/
  | ret
deriving DecidableEq, Repr

/-- Programs one after the other.  For `thread_pool.hpp` 112-432. -/
def seqs : List Code → Code
  | [] => .skip
  | [c] => c
  | c :: cs => .seq c (seqs cs)

/-- Actions one after the other.  For `thread_pool.hpp` 112-432. -/
def acts (as : List Act) : Code := seqs (as.map .act)

/-- `condition.wait(lock)`: wakes up sooner or later, with or without a reason.  `thread_pool.hpp` 347, 357, 369, 399. -/
def wait : Code := acts [.unlock, .lock]

/-- The functions without an effect, lines 165-217. -/
inductive Getter where
  | workersSize | targetWorkersSize | activeWorkersSize | waitingWorkersSize | tasksSize | activeTasksSize | waitingTasksSize
  | scheduledTasksSize | onStop
deriving DecidableEq, Repr

/-- The public functions, lines 165-359. `run_after` calls `run_at` (330), and the overloads for `priority` call those for
`signed char`. -/
inductive Fn where
  | get (g : Getter)
  | setTarget | setOnStop | runAsync | runSync | runAt | waitNoTasks | waitAllTasks
deriving DecidableEq, Repr

/-- Lines 165-217. -/
def getterReads : Getter → List Loc
  | .workersSize => [.workers]
  | .targetWorkersSize => [.target]
  | .activeWorkersSize => [.active]
  | .waitingWorkersSize => [.workers, .active]
  | .tasksSize => [.waiting, .active]
  | .activeTasksSize => [.active]
  | .waitingTasksSize => [.waiting]
  | .scheduledTasksSize => [.scheduled]
  | .onStop => [.onStop]

/-- `run_async`, lines 251-262. -/
def runAsync : Code := acts [.lock, .write .waiting, .unlock, .notify]

/-- `target_workers_size`, lines 219-242. -/
def setTarget : Code :=
  seqs [acts [.lock],
    .cond .stopping (acts [.unlock])
      (seqs [acts [.write .target],
        .loop (acts [.read .workers, .read .target, .spawnWorker]),
        acts [.read .workers, .read .target],
        .choice (acts [.unlock, .notify]) (acts [.unlock])])]

/-- `run_at`, lines 295-315. -/
def runAt : Code :=
  seqs [acts [.lock, .write .scheduled],
    .cond .joinable
      (seqs [acts [.read .scheduled], .choice (acts [.unlock, .notify]) (acts [.unlock])])
      (acts [.unlock, .spawnScheduler, .assignScheduler])]

/-- The public functions.  `run_sync` (271-286) waits for a promise of its own. -/
def code : Fn → Code
  | .get g => acts ([.lock] ++ (getterReads g).map .read ++ [.unlock])
  | .setTarget => setTarget
  | .setOnStop => acts [.lock, .write .onStop, .unlock] -- lines 244-249
  | .runAsync => runAsync
  | .runSync => runAsync
  | .runAt => runAt
  | .waitNoTasks => -- lines 341-349
    seqs [acts [.lock, .read .waiting], .loop (seqs [wait, acts [.read .waiting]]), acts [.unlock]]
  | .waitAllTasks => -- lines 351-359
    seqs [acts [.lock, .read .waiting, .read .active], .loop (seqs [wait, acts [.read .waiting, .read .active]]), acts [.unlock]]

/-- The constructor, lines 116-125; the members have been initialised before. -/
def constructor : Code :=
  seqs [acts [.lock], .loop (acts [.read .workers, .read .target, .spawnWorker]), acts [.read .workers, .read .target, .unlock]]

/-- The destructor, lines 127-149.  The accesses of lines 137-141 are repeated until all threads have ended. -/
def destructor : Code :=
  seqs [acts [.lock, .setStopping, .unlock, .notify, .notify],
    .loop (acts [.read .workers, .read .handles, .write .handles]),
    acts [.joinWorkers, .read .workers],
    .cond .joinable (acts [.joinScheduler]) .skip]

/-- `start_scheduling`, lines 362-383. -/
def scheduling : Code :=
  seqs [acts [.lock, .read .scheduled, .read .stopping],
    .loop (seqs [acts [.read .scheduled], wait,
      .choice (acts [.read .scheduled, .write .waiting, .write .scheduled, .notify]) .skip,
      acts [.read .scheduled, .read .stopping]]),
    .cond .stopping .skip (acts [.detachScheduler]),
    acts [.unlock]]

/-- What the condition of the loop of `start_working` reads, lines 389-390. -/
def workingCond : Code := acts [.read .workers, .read .target, .read .stopping, .read .onStop, .read .waiting]

/-- `start_working`, lines 385-431; `task()` (415) may call functions of the pool. -/
def working : Code :=
  seqs [acts [.lock], workingCond,
    .loop (seqs [acts [.read .waiting],
      .choice
        (seqs [acts [.read .active], .choice (acts [.notify]) .skip, wait])
        (seqs [acts [.write .waiting, .read .waiting], .choice (acts [.notify]) .skip, acts [.write .active, .unlock], .call,
          acts [.lock, .write .active]]),
      workingCond]),
    .cond .stopping (acts [.unlock])
      (seqs [acts [.read .workers], .choice (acts [.write .handles, .eraseSelf, .unlock]) (acts [.unlock])])]

/-- What a thread is.  For `thread_pool.hpp` 112-432. -/
inductive Kind where
  /-- the one that constructs the pool -/
  | maker
  /-- one that uses the pool -/
  | user
  | worker
  | scheduler
  /-- the one that destroys the pool -/
  | destroyer
deriving DecidableEq, Repr

/-- A thread.  For `thread_pool.hpp` 112-432. -/
structure Thread where
  kind : Kind
  /-- what is left to do -/
  todo : List Code
  /-- the temporary of line 307 -/
  temp : Option Nat := none
  /-- history: the function of the pool that has been called and has not returned -/
  inside : Option Fn := none
deriving DecidableEq, Repr

/-- The pool and all threads that use it.  `thread_pool.hpp` 96-109. -/
structure State where
  threads : List Thread := [⟨.maker, [constructor], none, none⟩]
  /-- who holds `m_mutex` -/
  owner : Option Nat := none
  /-- `m_isStopping` -/
  stopping : Bool := false
  /-- the threads in `m_workers` -/
  workers : List Nat := []
  /-- the thread of `m_scheduler` -/
  handle : Option Nat := none
  /-- history: the destructor has been called -/
  destroying : Bool := false
  /-- `std::terminate` -/
  crashed : Bool := false
deriving DecidableEq, Repr

/-- A thread has nothing left to do.  For `thread_pool.hpp` 112-432. -/
def finished (s : State) (i : Nat) : Bool :=
  match s.threads[i]? with
  | some t => t.todo.isEmpty
  | none => false

/-- The action `a` of thread `i`, which is `t` and then has `k` left to do; `none` if it has to wait.
For `thread_pool.hpp` 112-432. -/
def act (s : State) (i : Nat) (t : Thread) (k : List Code) (a : Act) : Option State :=
  let s' := { s with threads := s.threads.set i { t with todo := k } }
  match a with
  | .lock => if s.owner = none then some { s' with owner := some i } else none
  | .unlock => some { s' with owner := none }
  | .read _ => some s'
  | .write _ => some s'
  | .notify => some s'
  | .setStopping => some { s' with stopping := true }
  | .spawnWorker =>
    some { s' with threads := s'.threads ++ [⟨.worker, [working], none, none⟩], workers := s.workers ++ [s.threads.length] }
  | .eraseSelf => some { s' with workers := s.workers.erase i }
  | .spawnScheduler =>
    some { s' with
      threads := s.threads.set i { t with todo := k, temp := some s.threads.length } ++ [⟨.scheduler, [scheduling], none, none⟩] }
  | .assignScheduler =>
    if s.handle = none then
      some { s' with threads := s.threads.set i { t with todo := k, temp := none }, handle := t.temp }
    else some { s with crashed := true }
  | .detachScheduler => if s.handle = none then some { s with crashed := true } else some { s' with handle := none }
  | .joinWorkers => if s.workers.all (finished s) then some s' else none
  | .joinScheduler =>
    match s.handle with
    | some j => if finished s j then some { s' with handle := none } else none
    | none => some { s with crashed := true }

/-- What a condition is.  For `thread_pool.hpp` 112-432. -/
def holds (s : State) : Cond → Bool
  | .stopping => s.stopping
  | .joinable => s.handle.isSome

/-- What can happen next.  For `thread_pool.hpp` 112-432. -/
inductive Event where
  /-- a thread goes on, at a branch as `b` says, at `call` with a call of `f` -/
  | go (i : Nat) (b : Bool) (f : Option Fn)
  /-- another thread starts to use the pool -/
  | user
  /-- the destructor is called -/
  | destroy
deriving DecidableEq, Repr

/-- A step of the thread `i`, which is `t`.  For `thread_pool.hpp` 112-432. -/
def go (s : State) (i : Nat) (t : Thread) (b : Bool) (f : Option Fn) : Option State :=
  match t.todo with
  | [] => none
  | .act a :: k => act s i t k a
  | .skip :: k => some { s with threads := s.threads.set i { t with todo := k } }
  | .seq c d :: k => some { s with threads := s.threads.set i { t with todo := c :: d :: k } }
  | .choice c d :: k => some { s with threads := s.threads.set i { t with todo := (if b then c else d) :: k } }
  | .loop c :: k => some { s with threads := s.threads.set i { t with todo := if b then c :: .loop c :: k else k } }
  | .cond e c d :: k => some { s with threads := s.threads.set i { t with todo := (if holds s e then c else d) :: k } }
  | .call :: k =>
    match f with
    | some f => some { s with threads := s.threads.set i { t with todo := code f :: .ret :: .call :: k, inside := some f } }
    | none => some { s with threads := s.threads.set i { t with todo := k } }
  | .ret :: k => some { s with threads := s.threads.set i { t with todo := k, inside := none } }

/-- One step; `none` if the event cannot happen.  Nobody uses the pool before it is constructed, and it is destroyed when nobody but
its own threads uses it any more.  For `thread_pool.hpp` 112-432. -/
def step (s : State) (ev : Event) : Option State :=
  if s.crashed then none
  else match ev with
  | .go i b f =>
    match s.threads[i]? with
    | some t => go s i t b f
    | none => none
  | .user =>
    if finished s 0 ∧ s.destroying = false then some { s with threads := s.threads ++ [⟨.user, [.call], none, none⟩] } else none
  | .destroy =>
    if s.destroying = false ∧ s.threads.all (fun t => (t.kind ≠ .user ∧ t.kind ≠ .maker) || t.todo.isEmpty) then
      some { s with threads := s.threads ++ [⟨.destroyer, [destructor], none, none⟩], destroying := true }
    else none

/-- Some steps.  For `thread_pool.hpp` 112-432. -/
def run (s : State) : List Event → Option State
  | [] => some s
  | ev :: evs =>
    match step s ev with
    | some s' => run s' evs
    | none => none

/-- States that executions reach all of whose events `ok` allows.  For `thread_pool.hpp` 112-432. -/
inductive Reachable (ok : State → Event → Prop) : State → Prop where
  | init : Reachable ok {}
  | step {s s' : State} (ev : Event) : Reachable ok s → ok s ev → step s ev = some s' → Reachable ok s'

/-- The accesses to members of an action, with whether they write.  `thread_pool.hpp` 96-109. -/
def actAccesses : Act → List (Loc × Bool)
  | .lock | .unlock | .notify | .spawnScheduler => []
  | .read l => [(l, false)]
  | .write l => [(l, true)]
  | .setStopping => [(.stopping, true)]
  | .spawnWorker => [(.workers, true), (.handles, true)]
  | .eraseSelf => [(.workers, true), (.handles, true)]
  | .assignScheduler | .detachScheduler | .joinScheduler => [(.scheduler, true)]
  | .joinWorkers => [(.workers, false), (.handles, true)]

/-- The accesses of what a thread does next.  `thread_pool.hpp` 96-109. -/
def accesses (t : Thread) : List (Loc × Bool) :=
  match t.todo with
  | .act a :: _ => actAccesses a
  | .cond .stopping _ _ :: _ => [(.stopping, false)]
  | .cond .joinable _ _ :: _ => [(.scheduler, false)]
  | _ => []

end Pluto.PoolRace
