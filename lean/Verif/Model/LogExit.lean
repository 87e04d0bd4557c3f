import Verif.Model.Logger

/-!
# Model of a writer that ends the program (`include/pluto/logger.hpp`)

In `Logger.lean` the destructor is called by a thread outside the logger.  Here a log writer or a
header writer, which runs in the logging thread (lines 857 and 862), may call it too: it calls
`std::exit`, which destroys `logger::instance()` (lines 415-419) in the thread that calls it.
The destructor then joins the thread in which it runs (line 388), which throws
`std::system_error` (`resource_deadlock_would_occur`), and an exception that leaves a destructor
ends the program with `std::terminate`.

Simplified: what the writer has put into the stream before it ends the program is not recorded.
-/

namespace Pluto.LogExit
open Pluto.Log (Path Settings Fs Phase)

/-- The logger and its destructor.  `logger.hpp` 356-373 and 381-405. -/
structure State where
  log : Log.State
  /-- a writer has called the destructor, in the logging thread -/
  byWriter : Bool := false
  /-- `std::terminate` has been called -/
  terminated : Bool := false

/-- What can happen next.  `logger.hpp` 381-405, 415-419, 857 and 862. -/
inductive Event where
  /-- a step as in `Logger.lean`; `.stop` is the call of the destructor by a thread outside -/
  | log (ev : Log.Event)
  /-- a writer, lines 857 and 862, calls the destructor, which executes line 383 -/
  | exit
  /-- the destructor, called by a writer, joins the logging thread, lines 386-389 -/
  | joinItself

/-- The logging thread is in an iteration of the loop of lines 841-864, in which it calls the
writers. -/
def inLoop : Phase → Bool
  | .writing _ _ _ (_ :: _) _ => true
  | _ => false

/-- Whether the step is one of the logging thread, or waits for its end (lines 386-389). -/
def needsThread : Log.Event → Bool
  | .thread _ => true
  | .join => true
  | _ => false

/-- One step; `none` if the event cannot happen in this state.  `logger.hpp` 381-405, 415-419, 857 and 862. -/
def step (paths : Nat → Path) (s : State) (ev : Event) : Option State :=
  if s.terminated then none
  else match ev with
  | .log ev =>
    if s.byWriter && needsThread ev then none
    else (Log.step paths s.log ev).map fun l => { s with log := l }
  | .exit =>
    if inLoop s.log.thread then
      (Log.step paths s.log .stop).map fun l => { s with log := l, byWriter := true }
    else none
  | .joinItself =>
    if s.byWriter ∧ s.log.stage = .joining ∧ s.log.crashed = false then
      some { s with terminated := true }
    else none

/-- A new logger, lines 376-379. -/
def init (σ : Settings) (fs : Fs) : State := { log := Log.init σ fs }

/-- Several steps.  `logger.hpp` 381-405, 415-419, 857 and 862. -/
def run (paths : Nat → Path) (s : State) : List Event → Option State
  | [] => some s
  | ev :: evs =>
    match step paths s ev with
    | some s => run paths s evs
    | none => none

/-- States that executions of a new logger reach, in which only steps happen that satisfy `ok`.
`logger.hpp` 381-405, 415-419, 857 and 862. -/
inductive ReachableBy (paths : Nat → Path) (ok : Log.State → Log.Event → Prop) (σ : Settings) (fs : Fs) :
    State → Prop where
  | init : ReachableBy paths ok σ fs (init σ fs)
  | step {s s' : State} (ev : Event) : ReachableBy paths ok σ fs s →
    (∀ e, ev = .log e → ok s.log e) → step paths s ev = some s' → ReachableBy paths ok σ fs s'

end Pluto.LogExit
