/-!
# Copies of the log writer of `include/pluto/logger.hpp`

As Model/LogCfg.lean, with the copies of `std::function` objects.  `log_writer()` makes one while it owns `m_configMutex`
(lines 519-523), the logging thread calls its copy and destroys it without the mutex (line 862).  `log_writer(w)` copies its
argument into a temporary object, swaps, and destroys the temporary object with the old writer, all while it owns the mutex
(lines 580-585, [func.wrap.func.con]).  A copy may throw.  The destructor of the logger destroys the writer (line 372).
The header writer (525-529, 587-592, 855) is used in the same way.

Writers are numbers; all copies of a writer have its number.  The objects of those who call `log_writer(w)` are not counted.
What a writer does when it is called is not modelled: it owns no mutex then, so its calls are like those of other threads.
A copy that throws in the logging thread ends the program and is not modelled.
-/

namespace Pluto.LogWriters

/-- Which writers call `log_writer` or `header_writer` of their logger when they are copied or destroyed.
`logger.hpp` 522 and 583. -/
structure Uses where
  copy : Nat → Bool
  dtor : Nat → Bool

/-- What the logging thread is doing, line 862. -/
inductive Phase where
  /-- anything else -/
  | idle
  /-- it owns `m_configMutex` and is copying `m_logWriter`, line 522 -/
  | copying
  /-- it has a copy and has released the mutex -/
  | copied (w : Nat)
  /-- it is calling its copy, line 862 -/
  | calling (w : Nat)
deriving DecidableEq, Repr

/-- What a thread that calls `log_writer` is doing.  `logger.hpp` 372, 519-529, 580-592 and 862. -/
inductive User where
  /-- it is about to acquire the mutex to replace the writer, line 582 -/
  | wantsSet (w : Nat)
  /-- it owns the mutex and is assigning, line 583 -/
  | setting (w : Nat)
  /-- it is about to acquire the mutex to copy the writer, line 521 -/
  | wantsGet
  /-- it owns the mutex and is copying, line 522 -/
  | getting
  /-- `log_writer(w)` has returned -/
  | hasSet (w : Nat)
  /-- `log_writer()` has returned a copy that still exists -/
  | hasGot (w : Nat)
  /-- the copy has been destroyed -/
  | gone
  /-- the call has thrown -/
  | failed
deriving DecidableEq, Repr

/-- The writer, all threads that use it, and all copies.  `logger.hpp` 371-373. -/
structure State where
  /-- `m_logWriter`, line 372; `none` after the destructor -/
  writer : Option Nat := some 0
  /-- whether `m_configMutex` is owned by a thread, line 371 -/
  locked : Bool := false
  thread : Phase := .idle
  users : List User := []
  /-- the copies that exist -/
  live : List Nat := [0]
  /-- history: the writers called, in order -/
  called : List Nat := []
deriving DecidableEq, Repr

/-- What can happen next.  `logger.hpp` 372, 519-529, 580-592 and 862. -/
inductive Event where
  /-- the logging thread takes a step -/
  | thread
  /-- a call of `log_writer(w)` begins, line 580 -/
  | callSet (w : Nat)
  /-- a call of `log_writer()` begins, line 519 -/
  | callGet
  /-- the call at position `i` takes a step -/
  | user (i : Nat)
  /-- the call at position `i` throws when it copies the writer, line 522 or 583 -/
  | throws (i : Nat)
  /-- the copy that the call at position `i` has returned is destroyed -/
  | drop (i : Nat)
  /-- the logger is destroyed, line 372 -/
  | destroy
deriving DecidableEq, Repr

/-- What an event leads to.  `logger.hpp` 372, 519-529, 580-592 and 862. -/
inductive Next where
  /-- the event cannot happen in this state -/
  | blocked
  /-- undefined behaviour: a thread locks a mutex that it owns, or uses a writer that is being destroyed -/
  | undefined
  | state (s : State)
deriving DecidableEq, Repr

/-- Whether a call of `log_writer` has not returned, lines 519-523 and 580-585. -/
def User.busy : User → Bool
  | .wantsSet _ => true
  | .setting _ => true
  | .wantsGet => true
  | .getting => true
  | _ => false

/-- One step of the logging thread, line 862. -/
def threadStep (u : Uses) (s : State) (w : Nat) : Next :=
  match s.thread with
  | .idle => if s.locked then .blocked else .state { s with locked := true, thread := .copying }
  | .copying =>
    if u.copy w then .undefined
    else .state { s with locked := false, thread := .copied w, live := s.live ++ [w] }
  | .copied v => .state { s with thread := .calling v, called := s.called ++ [v] }
  | .calling v => .state { s with thread := .idle, live := s.live.erase v }

/-- One step of a call of `log_writer`, lines 519-523 and 580-585. -/
def userStep (u : Uses) (s : State) (w : Nat) (i : Nat) : Next :=
  match s.users[i]? with
  | some (.wantsSet v) =>
    if s.locked then .blocked else .state { s with locked := true, users := s.users.set i (.setting v) }
  | some (.setting v) =>
    if u.copy v || u.dtor w then .undefined
    else .state { s with
      locked := false, writer := some v, users := s.users.set i (.hasSet v)
      live := (s.live ++ [v]).erase w }
  | some .wantsGet =>
    if s.locked then .blocked else .state { s with locked := true, users := s.users.set i .getting }
  | some .getting =>
    if u.copy w then .undefined
    else .state { s with locked := false, users := s.users.set i (.hasGot w), live := s.live ++ [w] }
  | _ => .blocked

/-- One step.  After the logger has been destroyed only copies can be destroyed.  It is not destroyed while its thread
runs (lines 381-405) or its methods are called, which the caller must ensure. -/
def step (u : Uses) (s : State) : Event → Next
  | .thread =>
    match s.writer with
    | none => .blocked
    | some w => threadStep u s w
  | .callSet v =>
    match s.writer with
    | none => .blocked
    | some _ => .state { s with users := s.users ++ [.wantsSet v] }
  | .callGet =>
    match s.writer with
    | none => .blocked
    | some _ => .state { s with users := s.users ++ [.wantsGet] }
  | .user i =>
    match s.writer with
    | none => .blocked
    | some w => userStep u s w i
  | .throws i =>
    match s.users[i]? with
    | some (.setting _) => .state { s with locked := false, users := s.users.set i .failed }
    | some .getting => .state { s with locked := false, users := s.users.set i .failed }
    | _ => .blocked
  | .drop i =>
    match s.users[i]? with
    | some (.hasGot v) =>
      .state { s with users := s.users.set i .gone, live := s.live.erase v }
    | _ => .blocked
  | .destroy =>
    match s.writer with
    | none => .blocked
    | some w =>
      if s.thread ≠ .idle ∨ s.users.any User.busy then .blocked
      else if u.dtor w then .undefined
      else .state { s with writer := none, live := s.live.erase w }

/-- A new logger, line 372: writer 0. -/
def init : State := {}

/-- Several steps.  `logger.hpp` 372, 519-529, 580-592 and 862. -/
def run (u : Uses) (s : State) : List Event → Next
  | [] => .state s
  | ev :: evs =>
    match step u s ev with
    | .state s => run u s evs
    | r => r

end Pluto.LogWriters
