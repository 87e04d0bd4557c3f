/-!
# Model of several loggers that write to the same file

The loggers are in one program or in several; each one runs `write_buffer_to_file` for the same path.  Line numbers are those of
`include/pluto/logger.hpp`.

A directory entry refers to a file; a stream refers to the file it opened, also when that has been renamed or removed since.  Streams are
opened to append (line 760): what they write out is put at the end of the file at once.  A stream has a buffer, of which a part of any size
may be written out at any time, and the rest when it is closed; its position (`tellp`, 843 and 851) is the end of the file when it last opened
or wrote the file, and what is in the buffer.  (This is what POSIX and the usual libraries do.)

Simplifications: opening, renaming and removing do not fail but for a rename of a file that is not there (which throws); `exists` and `remove`
(782, 793) are one step; the entries are given by their text, of one log file; buffers have no maximal size.
-/

namespace Pluto.LogShare

/-- The settings, the same for all loggers: `file_rotation_size`, `file_rotation_limit`, and the header with its line break, if
`write_header` (834-835, 774, 857-858). -/
structure Config where
  rotationSize : Nat := 0
  rotationLimit : Nat := 0
  header : Option (List Char) := none

/-- The file system: the files with the numbers 0, 1, ... (779-780); what is in files, with a note of which logger wrote it. -/
structure Fs where
  dir : Nat → Option Nat := fun _ => none
  data : Nat → List (Nat × Char) := fun _ => []
  fresh : Nat := 0

/-- `std::ofstream`, line 838. -/
structure Stream where
  file : Nat
  /-- the end of the file, as the stream knows it -/
  pos : Nat
  /-- its buffer -/
  pend : List Char

/-- Where a logger is in `write_buffer_to_file`, lines 810-869. -/
inductive Pc where
  /-- not in it -/
  | idle
  /-- 841 -/
  | turn
  /-- 776: the first loop of `rotate_file`, with `i` and `numFiles` -/
  | scan (i num : Nat)
  /-- 796: the second loop, with `i` -/
  | rename (i : Nat)
  /-- 850 -/
  | reopen
  /-- 854 -/
  | after
deriving DecidableEq, Repr

/-- A logger.  `logger.hpp` 810-869. -/
structure Logger where
  /-- the lines that are to be written, with their line breaks (862-863), oldest first -/
  queue : List (List Char) := []
  pc : Pc := .idle
  stream : Option Stream := none
  /-- history: what has been put into streams, headers (`true`) and lines, oldest first -/
  put : List (Bool × List Char) := []
  /-- history: the lines of all entries that were logged -/
  logged : List (List Char) := []

/-- All of them.  `logger.hpp` 758-869. -/
structure State where
  fs : Fs := {}
  loggers : Nat → Logger := fun _ => {}

/-- What can happen.  `logger.hpp` 758-869. -/
inductive Event where
  /-- an entry is logged, lines 720-756 -/
  | log (i : Nat) (line : List Char)
  /-- a logger goes on -/
  | go (i : Nat)
  /-- the stream of a logger writes out a part of its buffer -/
  | flush (i n : Nat)
deriving DecidableEq, Repr

/-- A function gets another value in one place.  `logger.hpp` 758-869. -/
def set {α : Type} (g : Nat → α) (x : Nat) (v : α) : Nat → α := fun y => if y = x then v else g y

/-- Logger `i` appends to a file.  `logger.hpp` 857-863. -/
def append (fs : Fs) (i file : Nat) (text : List Char) : Fs := { fs with data := set fs.data file (fs.data file ++ text.map fun c => (i, c)) }

/-- `open_file_stream`, lines 758-767: opens the file with number 0, which is created if there is none. -/
def openFile (fs : Fs) : Fs × Stream :=
  match fs.dir 0 with
  | some d => (fs, ⟨d, (fs.data d).length, []⟩)
  | none => ({ fs with dir := set fs.dir 0 (some fs.fresh), data := set fs.data fs.fresh [], fresh := fs.fresh + 1 }, ⟨fs.fresh, 0, []⟩)

/-- A stream writes out the first `n` characters of its buffer.  `logger.hpp` 838. -/
def flush (fs : Fs) (i n : Nat) (st : Stream) : Fs × Stream :=
  let fs' := append fs i st.file (st.pend.take n)
  (fs', ⟨st.file, (fs'.data st.file).length, st.pend.drop n⟩)

/-- `tellp`, lines 843 and 851. -/
def tell (st : Stream) : Nat := st.pos + st.pend.length

/-- The end of an iteration, lines 854-863: the header, if the file is empty, and a line. -/
def putLine (cfg : Config) (l : Logger) (st : Stream) (line : List Char) (rest : List (List Char)) : Logger :=
  match cfg.header with
  | some h =>
    if tell st = 0 then { l with queue := rest, pc := .turn, stream := some { st with pend := st.pend ++ h ++ line }, put := l.put ++ [(true, h), (false, line)] }
    else { l with queue := rest, pc := .turn, stream := some { st with pend := st.pend ++ line }, put := l.put ++ [(false, line)] }
  | none => { l with queue := rest, pc := .turn, stream := some { st with pend := st.pend ++ line }, put := l.put ++ [(false, line)] }

/-- Logger `i` goes on.  `logger.hpp` 758-869. -/
def go (cfg : Config) (fs : Fs) (i : Nat) (l : Logger) : Option (Fs × Logger) :=
  match l.pc, l.stream, l.queue with
  -- 891-915, 839
  | .idle, none, _ :: _ => some ((openFile fs).1, { l with pc := .turn, stream := some (openFile fs).2 })
  -- 841, and 865: the stream is destroyed
  | .turn, some st, [] => some ((flush fs i st.pend.length st).1, { l with pc := .idle, stream := none })
  -- 843-848
  | .turn, some st, line :: rest =>
    if cfg.rotationSize ≠ 0 ∧ cfg.rotationSize ≤ tell st then
      some ((flush fs i st.pend.length st).1, { l with pc := .scan 0 0, stream := none })
    else some (fs, putLine cfg l st line rest)
  -- 776-794
  | .scan k num, none, _ =>
    if fs.dir k = none then some (fs, { l with pc := .rename num })
    else if k < cfg.rotationLimit then some (fs, { l with pc := .scan (k + 1) (num + 1) })
    else some ({ fs with dir := set fs.dir k none }, { l with pc := .scan (k + 1) num })
  -- 796-807
  | .rename 0, none, _ => some (fs, { l with pc := .reopen })
  | .rename (k + 1), none, _ =>
    match fs.dir k with
    | some d => some ({ fs with dir := set (set fs.dir k none) (k + 1) (some d) }, { l with pc := .rename k })
    -- 866: `filesystem_error`
    | none => some (fs, { l with pc := .idle })
  -- 850
  | .reopen, none, _ => some ((openFile fs).1, { l with pc := .after, stream := some (openFile fs).2 })
  -- 851-863
  | .after, some st, line :: rest => some (fs, putLine cfg l st line rest)
  | _, _, _ => none

/-- One step; `none` if the event cannot happen.  `logger.hpp` 758-869. -/
def step (cfg : Config) (s : State) : Event → Option State
  | .log i line =>
    let l := s.loggers i
    some { s with loggers := set s.loggers i { l with queue := l.queue ++ [line], logged := l.logged ++ [line] } }
  | .go i =>
    match go cfg s.fs i (s.loggers i) with
    | some (fs, l) => some { fs := fs, loggers := set s.loggers i l }
    | none => none
  | .flush i n =>
    match (s.loggers i).stream with
    | some st =>
      some { fs := (flush s.fs i n st).1, loggers := set s.loggers i { s.loggers i with stream := some (flush s.fs i n st).2 } }
    | none => none

/-- Some steps.  `logger.hpp` 758-869. -/
def run (cfg : Config) (s : State) : List Event → Option State
  | [] => some s
  | ev :: evs =>
    match step cfg s ev with
    | some s' => run cfg s' evs
    | none => none

/-- The contents of the file with number `n`.  As `logger.hpp` 760 opens it. -/
def contents (fs : Fs) (n : Nat) : List (Nat × Char) :=
  match fs.dir n with
  | some d => fs.data d
  | none => []

end Pluto.LogShare
