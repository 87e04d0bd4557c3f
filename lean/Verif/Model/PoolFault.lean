import Verif.Model.Pool

/-!
# Failing calls of `include/pluto/thread_pool.hpp`

What the functions of the interface do if a copy of the task, an allocation or the creation
of a thread throws.  Each definition is one call, executed to its end; what other threads
do meanwhile is in `Verif/Model/Pool.lean`, whose states these functions work on.  (Of
`run_at` the part after the mutex has been released is executed at once.)

Assumed of the standard library: `emplace` of a `std::multimap` or `std::map` and the
constructor of `std::thread` have no effect if they throw; destroying a joinable
`std::thread` ends the program.
-/

namespace Pluto.PoolFault
open Pluto.Pool

/-- What throws during a call: the `emplace` of a task (257, 302), the creation of the
`k`-th thread of the call (121, 230, 307), and the `emplace` of the `k`-th thread of the call
into the table of workers (122, 231). -/
structure Faults where
  task : Bool := false
  thread : Nat → Bool := fun _ => false
  table : Nat → Bool := fun _ => false

/-- How a call ends.  `thread_pool.hpp` 112-359. -/
inductive Out where
  | returned
  | threw
  /-- `std::terminate` was called -/
  | terminated
deriving DecidableEq, Repr

/-- `run_async`, lines 251-262, until the mutex is released.  `run_sync` (275-282) is the
same, its caller waits afterwards only if this returns. -/
def runAsync (f : Faults) (s : State) (prio : Int) : Out × State :=
  if f.task then (.threw, s)
  else
    let s := enqueue s prio s.nextTask false
    (.returned, { s with nextTask := s.nextTask + 1, pendingOne := s.pendingOne + 1 })

/-- `run_at`, lines 295-315.  A thread that was created is assigned at once. -/
def runAt (f : Faults) (s : State) (time prio : Int) : Out × State :=
  if f.task then (.threw, s)
  else
    let scheduled := insertTimed ⟨time, prio, s.nextTask⟩ s.scheduled
    let s := { s with scheduled := scheduled, nextTask := s.nextTask + 1 }
    if s.scheduler.isNone then
      if f.thread 0 then (.threw, s)
      else (.returned,
        { s with schedulers := s.schedulers ++ [.ready], scheduler := some s.schedulers.length })
    else if scheduled.head?.map (·.time) = some time then
      (.returned, { s with pendingSched := s.pendingSched + 1 })
    else (.returned, s)

/-- The loops of lines 119-123 and 228-232, of which `k` iterations have been executed and
`n` remain.  The local variable `worker` is joinable if `emplace` throws, so its destructor
ends the program. -/
def grow (f : Faults) : Nat → Nat → State → Out × State
  | 0, _, s => (.returned, s)
  | n + 1, k, s =>
    if f.thread k then (.threw, s)
    else if f.table k then (.terminated, s)
    else grow f n (k + 1) { s with workers := s.workers ++ [.ready] }

/-- `target_workers_size(n)`, lines 220-242, until the mutex is released. -/
def setTarget (f : Faults) (s : State) (n : Nat) : Out × State :=
  if s.stopping then (.returned, s)
  else
    match grow f (n - s.workers.length) 0
        { s with target := n, maxTarget := max s.maxTarget n } with
    | (.returned, s) =>
      (.returned, if s.target < s.workers.length then { s with pendingAll := s.pendingAll + 1 } else s)
    | r => r

/-- The constructor, lines 112-125.  If an exception leaves it, the members are destroyed,
which ends the program if there is a thread in the table: it is joinable. -/
def construct (f : Faults) (n : Nat) : Out × State :=
  match grow f n 0 { target := n, maxTarget := n } with
  | (.threw, s) => (if s.workers = [] then .threw else .terminated, s)
  | r => r

/-- What the scheduler thread `i` does when it holds the mutex, lines 366-382.  If the `emplace` of the task of line 371
throws, nothing catches the exception, which leaves the thread.  (Otherwise it is the step of `Pool`.) -/
def schedule (f : Faults) (s : State) (i : Nat) (woken : Option Nat) : Option (Out × State) :=
  match s.schedulers[i]? with
  | some (.timedOut _ _) =>
    if f.task then some (.terminated, s) else (step s (.scheduler i woken)).map fun s => (.returned, s)
  | _ => (step s (.scheduler i woken)).map fun s => (.returned, s)

end Pluto.PoolFault
