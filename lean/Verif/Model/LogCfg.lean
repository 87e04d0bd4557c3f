/-!
# Model of the writers of `include/pluto/logger.hpp` and of `m_configMutex`

In Model/Logger.lean reading and calling a writer is one step.  Here the logging thread (or
the destructor) copies `m_logWriter` while it owns `m_configMutex` (lines 519-523), calls the
copy without it (line 862) and destroys it; any number of other threads replace the writer
(lines 580-585) or copy it (519-523).  Writers are numbers.  The header writer (525-529,
587-592, 855) is used in the same way; there is one model for both.

Not modelled: what the writer does when it is called, and when a copy of it is destroyed; a
copy that throws.
-/

namespace Pluto.LogCfg

/-- What the logging thread is doing, line 862. -/
inductive Phase where
  /-- anything else -/
  | idle
  /-- it owns `m_configMutex` and is copying `m_logWriter`, line 522 -/
  | copying
  /-- it has a copy and has released the mutex -/
  | copied (w : Nat)
  /-- it is calling its copy, line 862 -/
  | calling (w : Nat)
deriving DecidableEq, Repr

/-- What a thread that calls `log_writer` is doing.  `logger.hpp` 519-529, 580-592 and 862. -/
inductive User where
  /-- it is about to acquire the mutex to replace the writer, line 582 -/
  | wantsSet (w : Nat)
  /-- it owns the mutex and is assigning, line 583 -/
  | setting (w : Nat)
  /-- it is about to acquire the mutex to copy the writer, line 521 -/
  | wantsGet
  /-- it owns the mutex and is copying, line 522 -/
  | getting
  /-- `log_writer(w)` has returned -/
  | hasSet (w : Nat)
  /-- `log_writer()` has returned a copy -/
  | hasGot (w : Nat)
deriving DecidableEq, Repr

/-- The writer and all threads that use it.  `logger.hpp` 371-373. -/
structure State where
  /-- `m_logWriter`, line 372 -/
  writer : Nat := 0
  /-- whether `m_configMutex` is owned by a thread, line 371 -/
  locked : Bool := false
  thread : Phase := .idle
  users : List User := []
  /-- history: the writers called, in order -/
  called : List Nat := []
  /-- history: the arguments of the setters, in the order of the assignments -/
  assigned : List Nat := []
deriving DecidableEq, Repr

/-- What can happen next.  `logger.hpp` 519-529, 580-592 and 862. -/
inductive Event where
  /-- the logging thread takes a step -/
  | thread
  /-- a call of `log_writer(w)` begins, line 580 -/
  | callSet (w : Nat)
  /-- a call of `log_writer()` begins, line 519 -/
  | callGet
  /-- the call of `log_writer` at position `i` takes a step -/
  | user (i : Nat)
deriving DecidableEq, Repr

/-- One step; `none` if the event cannot happen in this state.  `logger.hpp` 519-529, 580-592 and 862. -/
def step (s : State) : Event → Option State
  | .thread =>
    match s.thread with
    | .idle => if s.locked then none else some { s with locked := true, thread := .copying }
    | .copying => some { s with locked := false, thread := .copied s.writer }
    | .copied w => some { s with thread := .calling w, called := s.called ++ [w] }
    | .calling _ => some { s with thread := .idle }
  | .callSet w => some { s with users := s.users ++ [.wantsSet w] }
  | .callGet => some { s with users := s.users ++ [.wantsGet] }
  | .user i =>
    match s.users[i]? with
    | some (.wantsSet w) =>
      if s.locked then none else some { s with locked := true, users := s.users.set i (.setting w) }
    | some (.setting w) =>
      some { s with
        locked := false, writer := w, users := s.users.set i (.hasSet w)
        assigned := s.assigned ++ [w] }
    | some .wantsGet =>
      if s.locked then none else some { s with locked := true, users := s.users.set i .getting }
    | some .getting => some { s with locked := false, users := s.users.set i (.hasGot s.writer) }
    | _ => none

/-- A new logger, line 372: writer 0. -/
def init : State := {}

/-- Several steps.  `logger.hpp` 519-529, 580-592 and 862. -/
def run (s : State) : List Event → Option State
  | [] => some s
  | ev :: evs =>
    match step s ev with
    | some s => run s evs
    | none => none

/-- States that executions of a new logger reach.  `logger.hpp` 519-529, 580-592 and 862. -/
inductive Reachable : State → Prop where
  | init : Reachable init
  | step {s s' : State} (ev : Event) : Reachable s → step s ev = some s' → Reachable s'

end Pluto.LogCfg
