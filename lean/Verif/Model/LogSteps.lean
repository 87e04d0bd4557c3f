import Verif.Model.Logger

/-!
# Model of the functions of `include/pluto/logger.hpp` statement by statement

In `Logger.lean` a call puts its entry into the buffer in one step, and the logging thread opens a file or writes an entry
in one step; the settings that are needed are read at once.  Here each of these steps is divided: every look at a setting
is a step of its own, and so is every operation on the table of log files, on the mutex and on files.  In between, all
other threads can take steps; in particular settings can be changed.

Simplifications beyond those of `Logger.lean` and `LogFs.lean` (without the one on settings that are read at once):
`rotate_file` is one step from line 776 on, that is, after it has read the limit; a call of a writer and the line break
that follows are one step; the files that the destructor writes are written at once (nobody can change a setting then).
What may fail is fixed when an operation begins.  What the logging thread has changed of `filePath`, `dirsCreated` and of
the files since it began to prepare a file, or to write an entry, is in `inside`; nobody else looks at these.
-/

namespace Pluto.LogSteps
open Pluto.Log

/-- Where a thread is in `add_log_to_buffer`, once it has acquired the mutex, line 729. -/
inductive Add where
  /-- line 731 -/
  | find
  /-- line 734 -/
  | insert
  /-- line 738 -/
  | readMax
  /-- line 740; the argument is `bufferMaxSize` -/
  | test (bufferMaxSize : Nat)
  /-- line 742 -/
  | push (bufferMaxSize : Nat)
  /-- line 754 -/
  | count (bufferMaxSize : Nat)
deriving DecidableEq, Repr

/-- The thread that has acquired the mutex at line 729. -/
inductive Producer where
  /-- there is none, or it is about to execute line 744 (then `owner` says so) -/
  | idle
  /-- the call at position `i` is executing lines 731-754 -/
  | adding (i : Nat) (pc : Add)
  /-- it is about to release the mutex, lines 747 or 756; `notify` tells whether it is going to execute line 748 -/
  | leaving (notify : Bool)
deriving DecidableEq, Repr

/-- Where the logging thread is in lines 821-839. -/
inductive PreparePc where
  /-- lines 822-825 -/
  | path
  /-- line 828 -/
  | readDirs
  /-- lines 830-831 -/
  | create
  /-- line 834 -/
  | readHeader
  /-- line 835 -/
  | readSize (writeHeader : Bool)
  /-- lines 837-839 -/
  | openFile (writeHeader : Bool) (fileRotationSize : Nat)
deriving DecidableEq, Repr

/-- The logging thread in lines 821-839. -/
structure Preparing where
  io : Io
  pc : PreparePc := .path
  filePath : Option Path
  dirsCreated : Bool
  fs : Fs

/-- Where the logging thread is in lines 843-863. -/
inductive TurnPc where
  /-- lines 843-846 -/
  | tell
  /-- lines 848 and 774 -/
  | readLimit
  /-- lines 776-807 -/
  | rotate (fileRotationLimit : Nat)
  /-- lines 850-851 -/
  | reopen
  /-- lines 855-857: the condition and the copy of the header writer -/
  | readHeaderWriter (fileSize : Nat)
  /-- lines 857-858: the call of the header writer -/
  | header (w : Written)
  /-- lines 861-862: the copy of the log writer -/
  | readLogWriter
  /-- lines 862-863: the call of the log writer -/
  | entry (w : Entry → Written)

/-- The logging thread in lines 843-863. -/
structure Turning where
  io : Io
  pc : TurnPc := .tell
  l : Locals
  fs : Fs

/-- What the logging thread is in the middle of.  `logger.hpp` 810-869. -/
inductive Inside where
  | out
  /-- lines 821-839 -/
  | preparing (x : Preparing)
  /-- lines 843-863 -/
  | turning (x : Turning)
  /-- line 920; it has acquired the mutex, line 917 -/
  | erasing

/-- State of the logger and of all threads that use it.  `logger.hpp` 356-373. -/
structure State where
  base : Log.State
  producer : Producer := .idle
  inside : Inside := .out

/-- Whether `m_loggingMutex` is free.  `logger.hpp` 356. -/
def mutexFree (f : State) : Bool :=
  decide (f.base.owner = .free) && decide (f.producer = .idle) &&
    match f.inside with
    | .erasing => false
    | _ => true

/-- What can happen next.  `logger.hpp` 720-925. -/
inductive Move where
  /-- the call at position `i` acquires the mutex, line 729 -/
  | lock (i : Nat)
  /-- the next statement of the call that has acquired the mutex, lines 731-756 -/
  | produce
  /-- the logging thread begins lines 821-839 or lines 843-863; `io` says what is going to fail -/
  | begin (io : Io)
  /-- the logging thread acquires the mutex again, line 917 -/
  | relock
  /-- the next statement of the logging thread in lines 821-839 or 843-863, or line 920 -/
  | inner
  /-- anything else, as in `Logger.lean` -/
  | other (ev : Event)

/-- Lines 821-839, statement by statement: the next state, or how it ends (`filePath`, `dirsCreated`, the files and the
local variables unless it threw). -/
def prepareStep (σ : Settings) (p : Path) (x : Preparing) :
    Preparing ⊕ (Option Path × Bool × Fs × Option Locals) :=
  match x.pc with
  | .path =>
    if x.filePath.isNone then
      if x.io.prepare then .inr (x.filePath, x.dirsCreated, x.fs, none)
      else .inl { x with filePath := some p, pc := .readDirs }
    else .inl { x with pc := .readDirs }
  | .readDirs =>
    if σ.createDirs = true ∧ x.dirsCreated = false then .inl { x with pc := .create }
    else .inl { x with pc := .readHeader }
  | .create =>
    if x.io.prepare then .inr (x.filePath, x.dirsCreated, x.fs, none)
    else
      .inl { x with
        fs := { x.fs with dirs := (x.filePath.getD p).dir :: x.fs.dirs }
        dirsCreated := true
        pc := .readHeader }
  | .readHeader => .inl { x with pc := .readSize σ.writeHeader }
  | .readSize h => .inl { x with pc := .openFile h σ.fileRotationSize }
  | .openFile h n =>
    match Log.openFile x.io.opening (x.filePath.getD p) x.fs with
    | (fs, true) => .inr (x.filePath, x.dirsCreated, fs, some ⟨h, n, true⟩)
    | (fs, false) => .inr (x.filePath, x.dirsCreated, fs, none)

/-- Lines 843-863, statement by statement: the next state, or how the iteration ends. -/
def turnStep (σ : Settings) (p : Path) (name : Nat) (e : Entry) (x : Turning) : Turning ⊕ Turn :=
  match x.pc with
  | .tell =>
    if x.l.fileRotationSize ≠ 0 ∧ x.l.fileRotationSize ≤ fileSize p x.l.good x.fs then .inl { x with pc := .readLimit }
    else .inl { x with pc := .readHeaderWriter (fileSize p x.l.good x.fs) }
  | .readLimit => .inl { x with pc := .rotate σ.fileRotationLimit }
  | .rotate limit =>
    match Log.rotate x.io.rotating p limit x.fs with
    | (fs, true) => .inl { x with fs := fs, pc := .reopen }
    | (fs, false) => .inr (.before fs)
  | .reopen =>
    match Log.openFile x.io.opening p x.fs with
    | (fs, true) => .inl { x with fs := fs, l := { x.l with good := true }, pc := .readHeaderWriter (fileSize p true fs) }
    | (fs, false) => .inr (.before fs)
  | .readHeaderWriter n =>
    if x.l.writeHeader = true ∧ n = 0 then .inl { x with pc := .header σ.headerWriter }
    else .inl { x with pc := .readLogWriter }
  | .header w =>
    match w with
    | .ok text =>
      match put p .header (text ++ ['\n']) x.io.header x.l.good x.fs with
      | (fs, good) => .inl { x with fs := fs, l := { x.l with good := good }, pc := .readLogWriter }
    | .fsError text =>
      match put p .torn text x.io.header x.l.good x.fs with
      | (fs, _) => .inr (.before fs)
    | .error => .inr .crash
  | .readLogWriter => .inl { x with pc := .entry σ.logWriter }
  | .entry w =>
    match w e with
    | .ok text =>
      match put p (.entry name e) (text ++ ['\n']) x.io.entry x.l.good x.fs with
      | (fs, good) => .inr (.next fs { x.l with good := good } good)
    | .fsError text =>
      match put p .torn text x.io.entry x.l.good x.fs with
      | (fs, _) => .inr (.after fs)
    | .error => .inr .crash

/-- The end of lines 821-839: what has been changed is written back (see above), and the loop begins, or the function
returns. -/
def finishPrepare (paths : Nat → Path) (s : Log.State) (name : Nat) (todo : List Entry) :
    Option Path × Bool × Fs × Option Locals → Log.State
  | (filePath, dirsCreated, fs, locals) =>
    let files := update s.files name fun g => { g with filePath := filePath, dirsCreated := dirsCreated }
    match locals with
    | some l => { s with files := files, fs := fs, thread := .writing name (filePath.getD (paths name)) l todo 0 }
    | none => { s with files := files, fs := fs, thread := .returning name 0 }

/-- The end of an iteration, line 864: the next one begins, or an exception has been thrown. -/
def finishTurn (s : Log.State) (name : Nat) (p : Path) (e : Entry) (todo : List Entry) (done : Nat) : Turn → Log.State
  | .next fs l whole =>
    { s with fs := fs, thread := .writing name p l todo (done + 1), passed := s.passed ++ [(name, e, whole)] }
  | .before fs => { s with fs := fs, thread := .returning name done }
  | .after fs =>
    { s with fs := fs, thread := .returning name (done + 1), passed := s.passed ++ [(name, e, false)] }
  | .crash => { s with crashed := true }

/-- A statement of the thread that owns the mutex since line 729, for the request `r`. -/
def addStep (s : Log.State) (i : Nat) (r : Request) : Add → Log.State × Producer
  | .find => (s, .adding i (if (Log.find s.files r.name).isNone then .insert else .readMax))
  | .insert => ({ s with files := emplace r.name {} s.files }, .adding i .readMax)
  | .readMax => (s, .adding i (.test s.settings.bufferMaxSize))
  | .test m =>
    (s, .adding i
      (if m = 0 ∨ ((Log.find s.files r.name).getD {}).buffer.length < m then .push m else .count m))
  | .push _ =>
    ({ s with
        files := update s.files r.name fun f => { f with buffer := r.entry :: f.buffer }
        owner := .producer r.entry.tid r.name
        accepted := s.accepted ++ [(r.name, r.entry)]
        calls := s.calls.eraseIdx i }, .idle)
  | .count _ =>
    ({ s with
        discarded := s.discarded + 1
        dropped := s.dropped ++ [(r.name, r.entry)]
        calls := s.calls.eraseIdx i }, .idle)

/-- Whether the logging thread executes what it does next in one step, as in `Logger.lean`.  `logger.hpp` 720-925. -/
def oneStep : Phase → Bool
  | .opening .. => false
  | .writing _ _ _ (_ :: _) _ => false
  | .returning .. => false
  | _ => true

/-- Whether what the logging thread does next is to acquire the mutex, lines 874 and 880. -/
def locks : Phase → Bool
  | .starting => true
  | .woken => true
  | _ => false

/-- Whether an event of `Logger.lean` is a step here, and possible as far as the mutex is concerned.
`logger.hpp` 720-925. -/
def allowed (f : State) : Event → Bool
  | .enter _ => false
  | .leave => false
  | .thread _ =>
    (match f.inside with
      | .out => true
      | _ => false) &&
    oneStep f.base.thread && (!locks f.base.thread || mutexFree f)
  | _ => true

/-- The next statement of the logging thread in lines 821-839 or 843-863, or line 920. -/
def innerStep (paths : Nat → Path) (f : State) : Option State :=
  match f.inside with
  | .out => none
  | .preparing x =>
    match f.base.thread with
    | .opening name todo =>
      match prepareStep f.base.settings (paths name) x with
      | .inl x => some { f with inside := .preparing x }
      | .inr res => some { f with base := finishPrepare paths f.base name todo res, inside := .out }
    | _ => none
  | .turning x =>
    match f.base.thread with
    | .writing name p _ (e :: todo) done =>
      match turnStep f.base.settings p name e x with
      | .inl x => some { f with inside := .turning x }
      | .inr t => some { f with base := finishTurn f.base name p e todo done t, inside := .out }
    | _ => none
  | .erasing =>
    match f.base.thread with
    | .returning name done =>
      some { f with
        base := { f.base with
          owner := .logging
          files := update f.base.files name fun f => { f with buffer := f.buffer.take (f.buffer.length - done) }
          thread := .scanning (some name) false }
        inside := .out }
    | _ => none

/-- The next statement of the call that has acquired the mutex, lines 731-756. -/
def produceStep (f : State) : Option State :=
  match f.producer with
  | .adding i pc =>
    match f.base.calls[i]? with
    | some r => some { f with base := (addStep f.base i r pc).1, producer := (addStep f.base i r pc).2 }
    | none => none
  | .idle =>
    match f.base.owner with
    | .producer _ name =>
      some { f with
        producer := .leaving
          (decide (f.base.settings.bufferFlushSize ≤ ((Log.find f.base.files name).getD {}).buffer.length)) }
    | _ => none
  | .leaving notify =>
    match f.base.owner with
    | .producer tid _ =>
      some { f with
        base := { f.base with
          owner := .free
          notifying := if notify then f.base.notifying ++ [tid] else f.base.notifying }
        producer := .idle }
    | _ => none

/-- One step; `none` if it cannot happen in this state.  `logger.hpp` 720-925. -/
def step (paths : Nat → Path) (f : State) (m : Move) : Option State :=
  if f.base.crashed then none
  else match m with
  | .lock i =>
    if mutexFree f = true ∧ i < f.base.calls.length then some { f with producer := .adding i .find } else none
  | .produce => produceStep f
  | .begin io =>
    match f.inside, f.base.thread with
    | .out, .opening name _ =>
      some { f with
        inside := .preparing
          { io := io
            filePath := ((Log.find f.base.files name).getD {}).filePath
            dirsCreated := ((Log.find f.base.files name).getD {}).dirsCreated
            fs := f.base.fs } }
    | .out, .writing _ _ l (_ :: _) _ => some { f with inside := .turning { io := io, l := l, fs := f.base.fs } }
    | _, _ => none
  | .relock =>
    match f.base.thread with
    | .returning .. => if mutexFree f then some { f with inside := .erasing } else none
    | _ => none
  | .inner => innerStep paths f
  | .other ev =>
    if allowed f ev then
      match Log.step paths f.base ev with
      | some s => some { f with base := s }
      | none => none
    else none

/-- A new logger, lines 376-379, with the settings `σ`, on the file system `fs`. -/
def init (σ : Settings) (fs : Fs) : State := { base := Log.init σ fs }

/-- Several steps.  `logger.hpp` 720-925. -/
def run (paths : Nat → Path) (f : State) : List Move → Option State
  | [] => some f
  | m :: ms =>
    match step paths f m with
    | some f => run paths f ms
    | none => none

end Pluto.LogSteps
