/-!
# Mutexes of pools, caches and loggers that are used together

Which mutexes the methods of `thread_pool`, `safe_lru_cache` and `logger` own while they call functions of the user: tasks and
writers are called without any; function objects of tasks, writers, keys and values are copied, compared and destroyed while
one is owned.  Such functions may use other pools, caches and loggers.

Not modelled: waiting for something else than a mutex (`run_sync`, `wait_until_...`, destructors; see C89 to C91), what is
returned, and exceptions.  A program here is what one thread does in one execution, so it has no branches.
-/

namespace Pluto.Together

/-- The mutexes of any number of objects.  `thread_pool.hpp` 96, `safe_lru_cache.hpp` 27, `logger.hpp` 356 and 371. -/
inductive Mutex where
  /-- `m_mutex`, `thread_pool.hpp` 96 -/
  | pool (n : Nat)
  /-- `m_mutex`, `safe_lru_cache.hpp` 27 -/
  | cache (n : Nat)
  /-- `m_loggingMutex`, `logger.hpp` 356 -/
  | logging (n : Nat)
  /-- `m_configMutex`, `logger.hpp` 371 -/
  | config (n : Nat)
deriving DecidableEq, Repr

/-- What a thread does with mutexes.
For the methods of `thread_pool.hpp` 112-432, `safe_lru_cache.hpp` 36-97 and `logger.hpp` 376-925. -/
inductive Code where
  | done
  /-- it owns `m`, shared or not, while it executes `inner`, and goes on with `rest` -/
  | own (m : Mutex) (shared : Bool) (inner rest : Code)
deriving DecidableEq, Repr

/-- One after the other.
For the methods of `thread_pool.hpp` 112-432, `safe_lru_cache.hpp` 36-97 and `logger.hpp` 376-925. -/
def Code.andThen : Code → Code → Code
  | .done, d => d
  | .own m sh inner rest, d => .own m sh inner (rest.andThen d)

/-- `capacity()`, `size()`, `empty()`, `contains(key)`, `safe_lru_cache.hpp` 39-61; `user` are comparisons of keys. -/
def cacheRead (n : Nat) (user : Code) : Code := .own (.cache n) true user .done

/-- The other methods of a cache, `safe_lru_cache.hpp` 63-97; `user` are comparisons, copies and destructors. -/
def cacheWrite (n : Nat) (user : Code) : Code := .own (.cache n) false user .done

/-- A logging call whose level is logged, `logger.hpp` 720-756: nothing of the user is called with the mutex. -/
def log (n : Nat) : Code := .own (.logging n) false .done .done

/-- `log_writer` and `header_writer`, `logger.hpp` 519-529 and 580-592; `user` are copies and destructors of writers. -/
def writer (n : Nat) (user : Code) : Code := .own (.config n) false user .done

/-- `run_async`, `run_at`, `run_after`, `thread_pool.hpp` 250-331; `user` are copies of the task. -/
def submit (n : Nat) (user : Code) : Code := .own (.pool n) false user .done

/-- The getters and setters of a pool, `thread_pool.hpp` 165-248. -/
def poolState (n : Nat) : Code := .own (.pool n) false .done .done

/-- A worker executes a task, `thread_pool.hpp` 401-419: it takes the task, calls it without the mutex, locks the mutex
again, and destroys the function object.  It keeps the mutex when it takes the next task; here it releases it before. -/
def work (n : Nat) (task destructor : Code) : Code :=
  .own (.pool n) false .done (task.andThen (.own (.pool n) false destructor .done))

/-- The logging thread writes a line, `logger.hpp` 862: it copies the writer with the mutex for settings, calls the copy and
destroys it without. -/
def line (n : Nat) (copy call destructor : Code) : Code :=
  .own (.config n) false copy (call.andThen destructor)

/-- The logging thread writes lines, `logger.hpp` 889-918: it unlocks the mutex before, and locks it again after that. -/
def flush (n : Nat) (lines : Code) : Code :=
  .own (.logging n) false .done (lines.andThen (.own (.logging n) false .done .done))

/-- A single action.  For the methods of `thread_pool.hpp` 112-432, `safe_lru_cache.hpp` 36-97 and `logger.hpp` 376-925. -/
inductive Act where
  | lock (m : Mutex) (shared : Bool)
  | unlock (m : Mutex)
deriving DecidableEq, Repr

/-- The actions of a program, in order: lock objects release in reverse order.
For the methods of `thread_pool.hpp` 112-432, `safe_lru_cache.hpp` 36-97 and `logger.hpp` 376-925. -/
def Code.acts : Code → List Act
  | .done => []
  | .own m sh inner rest => .lock m sh :: (inner.acts ++ .unlock m :: rest.acts)

/-- A thread: the mutexes it owns, the last one first, and what it has still to do.
For the methods of `thread_pool.hpp` 112-432, `safe_lru_cache.hpp` 36-97 and `logger.hpp` 376-925. -/
structure Thread where
  held : List (Mutex × Bool) := []
  todo : List Act
deriving DecidableEq, Repr

/-- What an action leads to.
For the methods of `thread_pool.hpp` 112-432, `safe_lru_cache.hpp` 36-97 and `logger.hpp` 376-925. -/
inductive Next where
  /-- the thread has to wait, or has nothing to do -/
  | blocked
  /-- undefined behaviour: a thread locks a mutex that it owns, or unlocks one that it does not own -/
  | undefined
  | state (s : List Thread)
deriving DecidableEq, Repr

/-- A thread owns `m` in a way that keeps others from it: not shared, or `m` is to be owned not shared.
For the methods of `thread_pool.hpp` 112-432, `safe_lru_cache.hpp` 36-97 and `logger.hpp` 376-925. -/
def excludes (m : Mutex) (shared : Bool) (t : Thread) : Bool :=
  t.held.any fun h => h.1 == m && (!shared || !h.2)

/-- A thread waits to own `m` alone.
For the methods of `thread_pool.hpp` 112-432, `safe_lru_cache.hpp` 36-97 and `logger.hpp` 376-925. -/
def wantsAlone (m : Mutex) (t : Thread) : Bool :=
  match t.todo with
  | .lock m' sh :: _ => m' == m && !sh
  | _ => false

/-- Whether `m` can be locked, [thread.sharedmutex.requirements].  A mutex that is to be shared is not given to a thread while
another waits to own it alone: implementations may give it or not, and this makes most threads wait.
For the methods of `thread_pool.hpp` 112-432, `safe_lru_cache.hpp` 36-97 and `logger.hpp` 376-925. -/
def free (s : List Thread) (m : Mutex) (shared : Bool) : Bool :=
  !s.any (excludes m shared) && (!shared || !s.any (wantsAlone m))

/-- The next action of thread `i`.
For the methods of `thread_pool.hpp` 112-432, `safe_lru_cache.hpp` 36-97 and `logger.hpp` 376-925. -/
def step (s : List Thread) (i : Nat) : Next :=
  match s[i]? with
  | none => .blocked
  | some t =>
    match t.todo with
    | [] => .blocked
    | .lock m sh :: rest =>
      if t.held.any (fun h => h.1 == m) then .undefined
      else if free s m sh then .state (s.set i { held := (m, sh) :: t.held, todo := rest })
      else .blocked
    | .unlock m :: rest =>
      match t.held with
      | [] => .undefined
      | h :: hs => if h.1 = m then .state (s.set i { held := hs, todo := rest }) else .undefined

/-- Several actions, of the threads given.
For the methods of `thread_pool.hpp` 112-432, `safe_lru_cache.hpp` 36-97 and `logger.hpp` 376-925. -/
def run (s : List Thread) : List Nat → Next
  | [] => .state s
  | i :: is =>
    match step s i with
    | .state s => run s is
    | r => r

/-- Threads that are about to execute programs.
For the methods of `thread_pool.hpp` 112-432, `safe_lru_cache.hpp` 36-97 and `logger.hpp` 376-925. -/
def start (cs : List Code) : List Thread := cs.map fun c => { todo := c.acts }

end Pluto.Together
