import Verif.Model.LogShare

/-!
# Model of a logger whose files and directory are changed by others

A logger writes to one log file while other programs (or other parts of this one) rename, remove and create files, remove
and create the directory of the log file, and write to its files.  Line numbers are those of `include/pluto/logger.hpp`.

As in Verif/Model/LogShare.lean, a directory entry refers to a file, and a stream refers to the file it opened, also
when that has been renamed or removed since (this is so on POSIX systems); streams have buffers and are opened to append.

Simplifications: opening fails only if there is no directory, renaming only if there is nothing to be renamed; `exists` and
`remove` (782, 793) are one step, and likewise lines 821-839; the entries are given by their text; the settings do not
change, but for `create_dirs`; buffers have no maximal size.
-/

namespace Pluto.LogOutside
open Pluto.LogShare (Config Pc Stream set tell)

/-- Names of files.  `logger.hpp` 779-780 and 798-804. -/
inductive Name where
  /-- the log file (0), and those it is renamed to by rotation, lines 779-780; they are in the directory of the log -/
  | own (k : Nat)
  /-- other names, also in other directories -/
  | other (k : Nat)
deriving DecidableEq, Repr

/-- The file system.  As `logger.hpp` 758-869 use it. -/
structure Fs where
  /-- the directory of the log file exists -/
  there : Bool := false
  entry : Name → Option Nat := fun _ => none
  /-- what is in files; `true` marks what the logger wrote -/
  data : Nat → List (Bool × Char) := fun _ => []
  fresh : Nat := 0

/-- The logger, its log file (349-354) and the file system. -/
structure State where
  fs : Fs := {}
  /-- `create_dirs` -/
  createDirs : Bool := true
  /-- `log_file::dirsCreated` -/
  dirsCreated : Bool := false
  /-- the lines that are to be written, with their line breaks (862-863), oldest first -/
  queue : List (List Char) := []
  /-- how many of them, of the oldest, are in the range that is being written (`begin` and `itWritten`, 841) -/
  left : Nat := 0
  pc : Pc := .idle
  stream : Option Stream := none
  /-- history: what has been put into streams, in order: the file, whether it is a header, and the text -/
  put : List (Nat × Bool × List Char) := []
  /-- history: the lines of all entries that were logged -/
  logged : List (List Char) := []

/-- What can happen.  `logger.hpp` 720-756 and 810-925. -/
inductive Event where
  /-- an entry is logged, lines 720-756 -/
  | log (line : List Char)
  /-- `create_dirs`, lines 537-541 -/
  | createDirs (x : Bool)
  /-- the logging thread goes on -/
  | go
  /-- the stream writes out a part of its buffer -/
  | flush (n : Nat)
  /-- others rename a file, which replaces the file of the new name, if any -/
  | move (old new : Name)
  | remove (n : Name)
  /-- others create an empty file -/
  | create (n : Name)
  | append (n : Name) (text : List Char)
  /-- others remove the directory with all that is in it -/
  | removeDir
  | makeDir
deriving DecidableEq, Repr

/-- A directory entry is changed.  `logger.hpp` 793 and 806. -/
def link (fs : Fs) (n : Name) (d : Option Nat) : Fs := { fs with entry := fun m => if m = n then d else fs.entry m }

/-- Text is appended to a file.  `logger.hpp` 857-863. -/
def append (fs : Fs) (mine : Bool) (file : Nat) (text : List Char) : Fs :=
  { fs with data := set fs.data file (fs.data file ++ text.map fun c => (mine, c)) }

/-- A new empty file.  `logger.hpp` 760. -/
def create (fs : Fs) (n : Name) : Fs :=
  { link fs n (some fs.fresh) with data := set fs.data fs.fresh [], fresh := fs.fresh + 1 }

/-- `open_file_stream`, lines 758-767; `none` if it throws. -/
def openFile (fs : Fs) : Option (Fs × Stream) :=
  match fs.entry (.own 0) with
  | some d => some (fs, ⟨d, (fs.data d).length, []⟩)
  | none => if fs.there then some (create fs (.own 0), ⟨fs.fresh, 0, []⟩) else none

/-- A stream writes out the first `n` characters of its buffer.  `logger.hpp` 838. -/
def flush (fs : Fs) (n : Nat) (st : Stream) : Fs × Stream :=
  let fs' := append fs true st.file (st.pend.take n)
  (fs', ⟨st.file, (fs'.data st.file).length, st.pend.drop n⟩)

/-- The end of an iteration, lines 854-863: the header, if the file is empty, and a line. -/
def putLine (cfg : Config) (s : State) (st : Stream) (line : List Char) (rest : List (List Char)) : State :=
  match cfg.header with
  | some h =>
    if tell st = 0 then
      { s with
        queue := rest, left := s.left - 1, pc := .turn, stream := some { st with pend := st.pend ++ h ++ line }
        put := s.put ++ [(st.file, true, h), (st.file, false, line)] }
    else
      { s with
        queue := rest, left := s.left - 1, pc := .turn, stream := some { st with pend := st.pend ++ line }
        put := s.put ++ [(st.file, false, line)] }
  | none =>
    { s with
      queue := rest, left := s.left - 1, pc := .turn, stream := some { st with pend := st.pend ++ line }
      put := s.put ++ [(st.file, false, line)] }

/-- Lines 827-832. -/
def makeDirs (s : State) : State :=
  if s.createDirs = true ∧ s.dirsCreated = false then { s with fs := { s.fs with there := true }, dirsCreated := true } else s

/-- The logging thread goes on.  `logger.hpp` 810-925. -/
def go (cfg : Config) (s : State) : Option State :=
  match s.pc, s.stream, s.left, s.queue with
  -- 891-915, 821-839; 866 if the file cannot be opened
  | .idle, none, _, line :: rest =>
    match openFile (makeDirs s).fs with
    | some (fs, st) => some { makeDirs s with fs := fs, pc := .turn, stream := some st, left := (line :: rest).length }
    | none => some (makeDirs s)
  -- 841, and 865: the stream is destroyed
  | .turn, some st, 0, _ => some { s with fs := (flush s.fs st.pend.length st).1, pc := .idle, stream := none }
  -- 843-848
  | .turn, some st, _ + 1, line :: rest =>
    if cfg.rotationSize ≠ 0 ∧ cfg.rotationSize ≤ tell st then
      some { s with fs := (flush s.fs st.pend.length st).1, pc := .scan 0 0, stream := none }
    else some (putLine cfg s st line rest)
  -- 776-794
  | .scan k num, none, _, _ =>
    if s.fs.entry (.own k) = none then some { s with pc := .rename num }
    else if k < cfg.rotationLimit then some { s with pc := .scan (k + 1) (num + 1) }
    else some { s with fs := link s.fs (.own k) none, pc := .scan (k + 1) num }
  -- 796-807
  | .rename 0, none, _, _ => some { s with pc := .reopen }
  | .rename (k + 1), none, _, _ =>
    match s.fs.entry (.own k) with
    | some d => some { s with fs := link (link s.fs (.own k) none) (.own (k + 1)) (some d), pc := .rename k }
    -- 866: `filesystem_error`
    | none => some { s with pc := .idle }
  -- 850; 866 if the file cannot be opened
  | .reopen, none, _, _ =>
    match openFile s.fs with
    | some (fs, st) => some { s with fs := fs, pc := .after, stream := some st }
    | none => some { s with pc := .idle }
  -- 851-863
  | .after, some st, _, line :: rest => some (putLine cfg s st line rest)
  | _, _, _, _ => none

/-- There can be a file with this name.  `logger.hpp` 760. -/
def possible (fs : Fs) : Name → Bool
  | .own _ => fs.there
  | .other _ => true

/-- One step; `none` if the event cannot happen.  `logger.hpp` 720-925. -/
def step (cfg : Config) (s : State) : Event → Option State
  | .log line => some { s with queue := s.queue ++ [line], logged := s.logged ++ [line] }
  | .createDirs x => some { s with createDirs := x }
  | .go => go cfg s
  | .flush n =>
    match s.stream with
    | some st => some { s with fs := (flush s.fs n st).1, stream := some (flush s.fs n st).2 }
    | none => none
  | .move old new =>
    match s.fs.entry old with
    | some d =>
      if old ≠ new ∧ possible s.fs new = true then some { s with fs := link (link s.fs old none) new (some d) } else none
    | none => none
  | .remove n => if s.fs.entry n ≠ none then some { s with fs := link s.fs n none } else none
  | .create n =>
    if s.fs.entry n = none ∧ possible s.fs n = true then some { s with fs := create s.fs n } else none
  | .append n text =>
    match s.fs.entry n with
    | some d => some { s with fs := append s.fs false d text }
    | none => none
  | .removeDir =>
    some { s with fs := { s.fs with there := false, entry := fun | .own _ => none | .other k => s.fs.entry (.other k) } }
  | .makeDir => some { s with fs := { s.fs with there := true } }

/-- Some steps.  `logger.hpp` 720-925. -/
def run (cfg : Config) (s : State) : List Event → Option State
  | [] => some s
  | ev :: evs =>
    match step cfg s ev with
    | some s' => run cfg s' evs
    | none => none

end Pluto.LogOutside
