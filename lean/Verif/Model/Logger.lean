import Verif.Model.LogFs

/-!
# Model of the concurrency of `include/pluto/logger.hpp`

The logger is a transition system.  The threads that call the interface, the logging thread
and the destructor take steps in any order; `m_loggingMutex` has an owner.  The steps of the
logging thread are small: one look at the loop condition, one log file of the scan, one
iteration of the loop of `write_buffer_to_file`.  A thread that calls the interface checks
`should_log` and reads the clock in one step, puts the entry into the buffer in another one,
compares the size of the buffer with `buffer_flush_size` in the next, and notifies the
logging thread in the last.  The setters do not take the mutex.

Simplifications: the names of log files are numbers, in the order of the names; `absolute`
(line 824) is the function `paths`; reading a writer is
atomic (`m_configMutex` is in Model/LogCfg.lean); the discard counter does not overflow; the settings
that are read within one step (in `opening` `create_dirs`, `write_header` and the rotation size; in one iteration of the
loop the rotation limits and the writers) are read at once (Model/LogSteps.lean reads them one by one; C142 shows that this
makes no difference); memory is not exhausted.  Nobody calls the
interface once the destructor has begun, and no call is then in progress (also not by a
writer).  Fields marked "history" are not part of the code; they record what happened.
-/

namespace Pluto.Log

/-- A call that has passed `should_log` and has read the clock, lines 605-607 and 726-727. -/
structure Request where
  name : Nat
  entry : Entry
deriving DecidableEq, Repr

/-- Who owns `m_loggingMutex`.  `logger.hpp` 356, 729, 874. -/
inductive Owner where
  | free
  /-- the logging thread -/
  | logging
  /-- thread `tid`, which has put an entry into the buffer of `name` (742) -/
  | producer (tid name : Nat)
deriving DecidableEq, Repr

/-- What the logging thread is doing in `start_logging`, lines 871-925. -/
inductive Phase where
  /-- it is about to acquire the mutex, line 874 -/
  | starting
  /-- it is about to check the loop condition, line 876 -/
  | checking (shouldWait : Bool)
  /-- it is about to wait, line 880; it owns the mutex -/
  | drowsy
  /-- it sleeps, line 880 -/
  | asleep
  /-- it has been woken and is about to acquire the mutex, line 880 -/
  | woken
  /-- it is about to look at the first log file after `last`, line 887 -/
  | scanning (last : Option Nat) (shouldWait : Bool)
  /-- it has released the mutex and is about to execute lines 817-839 for the entries
  `todo`, oldest first -/
  | opening (name : Nat) (todo : List Entry)
  /-- it is in the loop of line 841; `done` entries have been passed by `itWritten` -/
  | writing (name : Nat) (p : Path) (l : Locals) (todo : List Entry) (done : Nat)
  /-- `write_buffer_to_file` has returned and it is about to acquire the mutex, line 917 -/
  | returning (name : Nat) (done : Nat)
  /-- it has ended -/
  | exited
deriving DecidableEq, Repr

/-- How far the destructor is, lines 381-405. -/
inductive Stage where
  | alive
  /-- `m_isLogging` is false, line 383 -/
  | flagged
  /-- the logging thread has been notified, line 384; it is being joined -/
  | joining
  /-- about to look at the first log file after `last`, line 392 -/
  | flushing (last : Option Nat)
  | destroyed
deriving DecidableEq, Repr

/-- State of the logger and of all threads that use it.  `logger.hpp` 356-373. -/
structure State where
  settings : Settings
  /-- `m_isLogging` -/
  isLogging : Bool := true
  /-- `m_logFiles`, ordered by name -/
  files : List (Nat × LogFile) := []
  /-- `m_numDiscardedLogs` -/
  discarded : Nat := 0
  fs : Fs
  owner : Owner := .free
  thread : Phase := .starting
  /-- calls about to acquire the mutex, line 729 -/
  calls : List Request := []
  /-- threads about to notify the logging thread, line 748 -/
  notifying : List Nat := []
  /-- calls of `buffer_flush_size` about to notify the logging thread, line 558 -/
  setters : Nat := 0
  stage : Stage := .alive
  /-- an exception that nothing catches has ended the program -/
  crashed : Bool := false
  /-- history: number of calls of the interface that passed `should_log` -/
  nextId : Nat := 0
  /-- history: the entries put into a buffer, in order -/
  accepted : List (Nat × Entry) := []
  /-- history: the entries passed by `itWritten`, in order, and whether they are in the file
  as a whole -/
  passed : List (Nat × Entry × Bool) := []
  /-- history: the entries discarded, in order -/
  dropped : List (Nat × Entry) := []
  /-- history: the number of entries that had been discarded at the last reset -/
  resetAt : Nat := 0

/-- `should_log`, lines 594-597. -/
def shouldLog (isLogging : Bool) (level : Int) (logLevel : Int) : Bool :=
  isLogging && decide (level ≤ logLevel)

/-- `m_logFiles.find`, line 731. -/
def find (files : List (Nat × LogFile)) (name : Nat) : Option LogFile :=
  (files.find? (·.1 = name)).map (·.2)

/-- `m_logFiles.emplace(logFile, log_file{})`, line 734, for a new name. -/
def emplace (name : Nat) (f : LogFile) : List (Nat × LogFile) → List (Nat × LogFile)
  | [] => [(name, f)]
  | x :: xs => if name < x.1 then (name, f) :: x :: xs else x :: emplace name f xs

/-- Changes a log file in place.  `logger.hpp` 893-895. -/
def update (files : List (Nat × LogFile)) (name : Nat) (g : LogFile → LogFile) :
    List (Nat × LogFile) := files.map fun x => if x.1 = name then (x.1, g x.2) else x

/-- The increment of the iterator of `m_logFiles`, lines 392 and 887: the first log file
after `last`. -/
def next (files : List (Nat × LogFile)) (last : Option Nat) : Option (Nat × LogFile) :=
  files.find? fun x =>
    match last with
    | none => true
    | some k => k < x.1

/-- One of the setters, lines 531-592. -/
inductive Setting where
  /-- 531-535 -/
  | level (x : Int)
  /-- 537-541 -/
  | createDirs (x : Bool)
  /-- 543-547 -/
  | writeHeader (x : Bool)
  /-- 549-553 -/
  | bufferMaxSize (x : Nat)
  /-- 555-557 -/
  | bufferFlushSize (x : Nat)
  /-- 562-566 -/
  | fileRotationSize (x : Nat)
  /-- 568-572 -/
  | fileRotationLimit (x : Nat)
  /-- 580-585 -/
  | logWriter (x : Entry → Written)
  /-- 587-592 -/
  | headerWriter (x : Written)

/-- The effect of a setter, lines 531-592. -/
def Settings.set (σ : Settings) : Setting → Settings
  | .level x => { σ with level := x }
  | .createDirs x => { σ with createDirs := x }
  | .writeHeader x => { σ with writeHeader := x }
  | .bufferMaxSize x => { σ with bufferMaxSize := x }
  | .bufferFlushSize x => { σ with bufferFlushSize := x }
  | .fileRotationSize x => { σ with fileRotationSize := x }
  | .fileRotationLimit x => { σ with fileRotationLimit := x }
  | .logWriter x => { σ with logWriter := x }
  | .headerWriter x => { σ with headerWriter := x }

/-- What can happen next.  `logger.hpp` 376-925. -/
inductive Event where
  /-- `write`, lines 599-609 (and likewise `writef`, `format`, `streamer::end`): the check of
  `should_log`, and lines 726-727 -/
  | call (tid name : Nat) (time level : Int) (message : List Char)
  /-- the call at position `i` executes lines 729-742 or 729-754 -/
  | enter (i : Nat)
  /-- the producer that owns the mutex executes lines 744-747 or 744-756 -/
  | leave
  /-- the thread at position `i` executes line 748 -/
  | notify (i : Nat)
  /-- a setter stores its argument, lines 531-592 -/
  | set (x : Setting)
  /-- `buffer_flush_size` notifies, line 558 -/
  | setNotify
  /-- `reset_num_discarded_logs`, lines 574-578 -/
  | reset
  /-- the logging thread takes a step -/
  | thread (io : Io)
  /-- the logging thread wakes up spuriously -/
  | spurious
  /-- the destructor executes line 383 -/
  | stop
  /-- the destructor executes line 384 -/
  | stopNotify
  /-- `join` returns, lines 386-389 -/
  | join
  /-- the destructor writes the next log file, lines 392-403; the list is for the iterations -/
  | flush (io : Io) (ios : List Io)
  /-- there is no other log file, the destructor returns, line 404 -/
  | finish

/-- `m_loggingCondition.notify_one()` and `notify_all()`: only the logging thread waits.  `logger.hpp` 384, 558, 748. -/
def wake : Phase → Phase
  | .asleep => .woken
  | x => x

/-- Whether thread `tid` owns the mutex.  `logger.hpp` 729. -/
def isProducer (tid : Nat) : Owner → Bool
  | .producer t _ => t == tid
  | _ => false

/-- Lines 729-754 for a request, except that the producer that has put its entry into the
buffer still owns the mutex. -/
def addLog (s : State) (r : Request) : State :=
  let files := if (find s.files r.name).isNone then emplace r.name {} s.files else s.files
  let buffer := ((find files r.name).getD {}).buffer
  if s.settings.bufferMaxSize = 0 ∨ buffer.length < s.settings.bufferMaxSize then
    { s with
      files := update files r.name fun f => { f with buffer := r.entry :: f.buffer }
      owner := .producer r.entry.tid r.name
      accepted := s.accepted ++ [(r.name, r.entry)] }
  else
    { s with
      files := files
      discarded := s.discarded + 1
      dropped := s.dropped ++ [(r.name, r.entry)] }

/-- The loop of `write_buffer_to_file`, lines 841-864, as it is executed by the destructor:
the new file system, the entries passed by `itWritten` with whether they are in the file as a
whole; `none` if an exception is not caught.  `ios` says what fails in each iteration. -/
def writeLoop (σ : Settings) (p : Path) (name : Nat) :
    Locals → List Entry → List Io → Fs → Option (Fs × List (Nat × Entry × Bool))
  | _, [], _, fs => some (fs, [])
  | l, e :: todo, ios, fs =>
    match turn σ (ios.headD {}) p l name e fs with
    | .next fs l whole =>
      match writeLoop σ p name l todo ios.tail fs with
      | some (fs, passed) => some (fs, (name, e, whole) :: passed)
      | none => none
    | .before fs => some (fs, [])
    | .after fs => some (fs, [(name, e, false)])
    | .crash => none

/-- A step of the logging thread.  `logger.hpp` 810-925. -/
def threadStep (paths : Nat → Path) (s : State) (io : Io) : Option State :=
  match s.thread with
  | .starting => if s.owner = .free then some { s with owner := .logging, thread := .checking false } else none
  | .checking shouldWait =>
    if s.isLogging then
      if shouldWait then some { s with thread := .drowsy }
      else some { s with thread := .scanning none true }
    else some { s with owner := .free, thread := .exited }
  | .drowsy => some { s with owner := .free, thread := .asleep }
  | .asleep => none
  | .woken => if s.owner = .free then some { s with owner := .logging, thread := .checking false } else none
  | .scanning last shouldWait =>
    match next s.files last with
    | none => some { s with thread := .checking shouldWait }
    | some (name, f) =>
      if f.buffer ≠ [] ∧ s.settings.bufferFlushSize ≤ f.buffer.length then
        some { s with owner := .free, thread := .opening name f.buffer.reverse }
      else some { s with thread := .scanning (some name) shouldWait }
  | .opening name todo =>
    match prepare s.settings io (paths name) ((find s.files name).getD {}) s.fs with
    | (f, fs, locals) =>
      let files := update s.files name fun g =>
        { g with filePath := f.filePath, dirsCreated := f.dirsCreated }
      match locals with
      | some l =>
        some { s with
          files := files, fs := fs
          thread := .writing name (f.filePath.getD (paths name)) l todo 0 }
      | none => some { s with files := files, fs := fs, thread := .returning name 0 }
  | .writing name p l todo done =>
    match todo with
    | [] => some { s with thread := .returning name done }
    | e :: todo =>
      match turn s.settings io p l name e s.fs with
      | .next fs l whole =>
        some { s with
          fs := fs, thread := .writing name p l todo (done + 1)
          passed := s.passed ++ [(name, e, whole)] }
      | .before fs => some { s with fs := fs, thread := .returning name done }
      | .after fs =>
        some { s with
          fs := fs, thread := .returning name (done + 1)
          passed := s.passed ++ [(name, e, false)] }
      | .crash => some { s with crashed := true }
  | .returning name done =>
    if s.owner = .free then
      some { s with
        owner := .logging
        files := update s.files name fun f =>
          { f with buffer := f.buffer.take (f.buffer.length - done) }
        thread := .scanning (some name) false }
    else none
  | .exited => none

/-- Lines 394-403 for a log file. (The code leaves the entries in the buffer, which is then
destroyed; here those that were passed by `itWritten` are removed.) -/
def flushFile (paths : Nat → Path) (s : State) (io : Io) (ios : List Io) (name : Nat) (f : LogFile) :
    State :=
  if f.buffer ≠ [] then
    match prepare s.settings io (paths name) f s.fs with
    | (f, fs, some l) =>
      match writeLoop s.settings (f.filePath.getD (paths name)) name l f.buffer.reverse ios fs with
      | some (fs, passed) =>
        { s with
          fs := fs, passed := s.passed ++ passed, stage := .flushing (some name)
          files := update s.files name fun _ =>
            { f with buffer := f.buffer.take (f.buffer.length - passed.length) } }
      | none => { s with crashed := true }
    | (f, fs, none) =>
      { s with
        fs := fs, stage := .flushing (some name)
        files := update s.files name fun _ => f }
  else { s with stage := .flushing (some name) }

/-- One step; `none` if the event cannot happen in this state.  `logger.hpp` 376-925. -/
def step (paths : Nat → Path) (s : State) (ev : Event) : Option State :=
  if s.crashed then none
  else match ev with
  | .call tid name time level message =>
    if s.stage = .alive ∧ tid ∉ s.calls.map (·.entry.tid) ∧ tid ∉ s.notifying ∧
        !isProducer tid s.owner then
      if shouldLog s.isLogging s.settings.level level then
        some { s with
          calls := s.calls ++ [⟨name, ⟨time, tid, level, message, s.nextId⟩⟩]
          nextId := s.nextId + 1 }
      else some s
    else none
  | .enter i =>
    match s.calls[i]? with
    | some r =>
      if s.owner = .free then some { addLog s r with calls := s.calls.eraseIdx i } else none
    | none => none
  | .leave =>
    match s.owner with
    | .producer tid name =>
      let buffer := ((find s.files name).getD {}).buffer
      if s.settings.bufferFlushSize ≤ buffer.length then
        some { s with owner := .free, notifying := s.notifying ++ [tid] }
      else some { s with owner := .free }
    | _ => none
  | .notify i =>
    if i < s.notifying.length then
      some { s with notifying := s.notifying.eraseIdx i, thread := wake s.thread }
    else none
  | .set x =>
    if s.stage = .alive then
      match x with
      | .bufferFlushSize _ => some { s with settings := s.settings.set x, setters := s.setters + 1 }
      | _ => some { s with settings := s.settings.set x }
    else none
  | .setNotify =>
    if 0 < s.setters then some { s with setters := s.setters - 1, thread := wake s.thread } else none
  | .reset =>
    if s.stage = .alive then some { s with discarded := 0, resetAt := s.dropped.length } else none
  | .thread io => threadStep paths s io
  | .spurious => if s.thread = .asleep then some { s with thread := .woken } else none
  | .stop =>
    if s.stage = .alive ∧ s.calls = [] ∧ s.notifying = [] ∧ s.setters = 0 ∧
        (s.owner = .free ∨ s.owner = .logging) then
      some { s with isLogging := false, stage := .flagged }
    else none
  | .stopNotify =>
    if s.stage = .flagged then some { s with stage := .joining, thread := wake s.thread } else none
  | .join =>
    if s.stage = .joining ∧ s.thread = .exited then some { s with stage := .flushing none } else none
  | .flush io ios =>
    match s.stage with
    | .flushing last =>
      match next s.files last with
      | some (name, f) => some (flushFile paths s io ios name f)
      | none => none
    | _ => none
  | .finish =>
    match s.stage with
    | .flushing last =>
      if (next s.files last).isNone then some { s with stage := .destroyed } else none
    | _ => none

/-- A new logger, lines 376-379, with the settings `σ`, on the file system `fs`. -/
def init (σ : Settings) (fs : Fs) : State := { settings := σ, fs := fs }

/-- Several steps.  `logger.hpp` 376-925. -/
def run (paths : Nat → Path) (s : State) : List Event → Option State
  | [] => some s
  | ev :: evs =>
    match step paths s ev with
    | some s => run paths s evs
    | none => none

/-- States that executions of a new logger reach.  `logger.hpp` 376-925. -/
inductive Reachable (paths : Nat → Path) (σ : Settings) (fs : Fs) : State → Prop where
  | init : Reachable paths σ fs (init σ fs)
  | step {s s' : State} (ev : Event) :
    Reachable paths σ fs s → step paths s ev = some s' → Reachable paths σ fs s'

end Pluto.Log
