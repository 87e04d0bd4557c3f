import Verif.Model.Logger

/-!
# Model of `write_buffer_to_file` with a stream that has a buffer

`Model/LogFs.lean` says that what is put into a `std::ofstream` is in the file at once.  Here the stream has a buffer, as in
`include/pluto/logger.hpp` 837-865: what is put into it is appended to the buffer, of which a part of any size (`Flush`) is
then written to the file, from the front; closing (line 848) and destroying the stream (line 865) writes the rest.  The file
system is that of the disk: it has what has been written to the files.  Only the text of a piece of a file matters here, not its
kind.

Writing to the file does not fail here; opening (758-767) and rotating (769-808) files may.
-/

namespace Pluto.Log

/-- How many characters of the buffer are written to the file after a header (857-858) and after an entry (862-863). -/
structure Flush where
  header : Nat := 0
  entry : Nat := 0
deriving DecidableEq, Repr

/-- Characters are written to a file.  `logger.hpp` 838 and 857-863. -/
def append (p : Path) (text : List Char) (disk : Fs) : Fs := store disk p ((read disk p).getD [] ++ [⟨.torn, text⟩])

/-- What is put into the stream, lines 857-858 and 862-863: the new disk and the new buffer. -/
def putB (p : Path) (text : List Char) (n : Nat) (disk : Fs) (pending : List Char) : Fs × List Char :=
  (append p ((pending ++ text).take n) disk, (pending ++ text).drop n)

/-- `fileStream.close()`, line 848, and the destructor of the stream, line 865. -/
def closeB (p : Path) (disk : Fs) (pending : List Char) : Fs := append p pending disk

/-- `static_cast<std::size_t>(fileStream.tellp())`, lines 843 and 851, which counts what is in the buffer. -/
def tellB (p : Path) (disk : Fs) (pending : List Char) : Nat := size ((read disk p).getD []) + pending.length

/-- How an iteration of the loop of `write_buffer_to_file` ends.  `logger.hpp` 841-864. -/
inductive TurnB where
  | next (disk : Fs) (pending : List Char)
  /-- a `filesystem_error` is thrown before the entry is counted as written (861), and the stream is destroyed -/
  | before (disk : Fs)
  /-- likewise, afterwards -/
  | after (disk : Fs)
  /-- another exception ends the program; what is on disk then is not modelled -/
  | crash
deriving DecidableEq, Repr

/-- The end of an iteration, lines 861-863. -/
def turnEntryB (σ : Settings) (fl : Flush) (p : Path) (e : Entry) (disk : Fs) (pending : List Char) : TurnB :=
  match σ.logWriter e with
  | .ok text =>
    match putB p (text ++ ['\n']) fl.entry disk pending with
    | (disk, pending) => .next disk pending
  | .fsError text => .after (closeB p disk (pending ++ text))
  | .error => .crash

/-- The middle of an iteration, lines 854-859. -/
def turnHeaderB (σ : Settings) (fl : Flush) (p : Path) (l : Locals) (fileSize : Nat) (e : Entry) (disk : Fs)
    (pending : List Char) : TurnB :=
  if l.writeHeader = true ∧ fileSize = 0 then
    match σ.headerWriter with
    | .ok text =>
      match putB p (text ++ ['\n']) fl.header disk pending with
      | (disk, pending) => turnEntryB σ fl p e disk pending
    | .fsError text => .before (closeB p disk (pending ++ text))
    | .error => .crash
  else turnEntryB σ fl p e disk pending

/-- An iteration of the loop of `write_buffer_to_file`, lines 843-863. -/
def turnB (σ : Settings) (io : Io) (fl : Flush) (p : Path) (l : Locals) (e : Entry) (disk : Fs) (pending : List Char) :
    TurnB :=
  if l.fileRotationSize ≠ 0 ∧ l.fileRotationSize ≤ tellB p disk pending then
    match rotate io.rotating p σ.fileRotationLimit (closeB p disk pending) with
    | (disk, true) =>
      match openFile io.opening p disk with
      | (disk, true) => turnHeaderB σ fl p l (tellB p disk []) e disk []
      | (disk, false) => .before disk
    | (disk, false) => .before disk
  else turnHeaderB σ fl p l (tellB p disk pending) e disk pending

/-- What is on disk and in the buffer after some iterations, lines 841-864, none of which has thrown. `ios` and `fls` say what
fails and what is written to the file in each iteration. -/
def turnsB (σ : Settings) (p : Path) (l : Locals) :
    List Entry → List Io → List Flush → Fs → List Char → Option (Fs × List Char)
  | [], _, _, disk, pending => some (disk, pending)
  | e :: todo, ios, fls, disk, pending =>
    match turnB σ (ios.headD {}) (fls.headD {}) p l e disk pending with
    | .next disk pending => turnsB σ p l todo ios.tail fls.tail disk pending
    | _ => none

/-- The loop of `write_buffer_to_file` and the end of the stream, lines 841-865, as executed by the destructor; see
`writeLoop`. -/
def writeLoopB (σ : Settings) (p : Path) (name : Nat) (l : Locals) :
    List Entry → List Io → List Flush → Fs → List Char → Option (Fs × List (Nat × Entry × Bool))
  | [], _, _, disk, pending => some (closeB p disk pending, [])
  | e :: todo, ios, fls, disk, pending =>
    match turnB σ (ios.headD {}) (fls.headD {}) p l e disk pending with
    | .next disk pending =>
      match writeLoopB σ p name l todo ios.tail fls.tail disk pending with
      | some (disk, passed) => some (disk, (name, e, true) :: passed)
      | none => none
    | .before disk => some (disk, [])
    | .after disk => some (disk, [(name, e, false)])
    | .crash => none

/-- The logger (its `fs` is the disk), and the buffer of the stream of the logging thread.  `logger.hpp` 356-373 and 838. -/
structure StateB where
  s : State
  pending : List Char := []

/-- A step of the logging thread in the loop of `write_buffer_to_file`, lines 841-865. -/
def writeStepB (s : State) (io : Io) (fl : Flush) (pending : List Char) (name : Nat) (p : Path) (l : Locals)
    (todo : List Entry) (done : Nat) : StateB :=
  match todo with
  | [] => ⟨{ s with fs := closeB p s.fs pending, thread := .returning name done }, []⟩
  | e :: todo =>
    match turnB s.settings io fl p l e s.fs pending with
    | .next disk pending =>
      ⟨{ s with
        fs := disk, thread := .writing name p l todo (done + 1)
        passed := s.passed ++ [(name, e, true)] }, pending⟩
    | .before disk => ⟨{ s with fs := disk, thread := .returning name done }, []⟩
    | .after disk =>
      ⟨{ s with
        fs := disk, thread := .returning name (done + 1)
        passed := s.passed ++ [(name, e, false)] }, []⟩
    | .crash => ⟨{ s with crashed := true }, pending⟩

/-- Lines 394-403 for a log file; see `flushFile`. -/
def flushFileB (paths : Nat → Path) (s : State) (io : Io) (ios : List Io) (fls : List Flush) (name : Nat) (f : LogFile) :
    State :=
  if f.buffer ≠ [] then
    match prepare s.settings io (paths name) f s.fs with
    | (f, disk, some l) =>
      match writeLoopB s.settings (f.filePath.getD (paths name)) name l f.buffer.reverse ios fls disk [] with
      | some (disk, passed) =>
        { s with
          fs := disk, passed := s.passed ++ passed, stage := .flushing (some name)
          files := update s.files name fun _ =>
            { f with buffer := f.buffer.take (f.buffer.length - passed.length) } }
      | none => { s with crashed := true }
    | (f, disk, none) =>
      { s with
        fs := disk, stage := .flushing (some name)
        files := update s.files name fun _ => f }
  else { s with stage := .flushing (some name) }

/-- One step; whatever does not write to a file is as in `step`.  `logger.hpp` 810-925. -/
def stepB (paths : Nat → Path) (b : StateB) (ev : Event) (fls : List Flush) : Option StateB :=
  if b.s.crashed then none
  else match ev with
  | .thread io =>
    match b.s.thread with
    | .writing name p l todo done => some (writeStepB b.s io (fls.headD {}) b.pending name p l todo done)
    | _ => (threadStep paths b.s io).map (⟨·, b.pending⟩)
  | .flush io ios =>
    match b.s.stage with
    | .flushing last =>
      match next b.s.files last with
      | some (name, f) => some ⟨flushFileB paths b.s io ios fls name f, b.pending⟩
      | none => none
    | _ => none
  | ev => (step paths b.s ev).map (⟨·, b.pending⟩)

/-- Several steps.  `logger.hpp` 810-925. -/
def runB (paths : Nat → Path) (b : StateB) : List (Event × List Flush) → Option StateB
  | [] => some b
  | (ev, fls) :: evs =>
    match stepB paths b ev fls with
    | some b => runB paths b evs
    | none => none

end Pluto.Log
