/-!
# Model of the file handling of `include/pluto/logger.hpp`

A path is a directory and a file name.  A file system is a finite map from paths to
contents.  The contents of a file are the pieces that were written to it, each with a note
of what it is; the bytes are the concatenation of their texts.

Simplifications: what is put into a stream is in the file at once (the code leaves it to
the buffer of the stream and to its destructor, lines 838 and 865; `LogStream.lean` has these
buffers); a path is taken as what it stands for (`./a`, or a link to a directory, is the
directory), so that two different paths are two different files; links to files are in `LogLink.lean`;
nobody else changes the files.  An operation of the file system fails when the argument for
failures says so.
-/

namespace Pluto.Log

/-- `log_entry`, lines 196-217; the source information is not modelled. -/
structure Entry where
  time : Int
  tid : Nat
  level : Int
  message : List Char
  /-- history: number of the call of the interface that made this entry -/
  id : Nat
deriving DecidableEq, Repr

/-- What a piece of a file is.  `logger.hpp` 857-863. -/
inductive Kind where
  /-- it was there before -/
  | old
  /-- the output of a header writer and a line break, lines 857-858 -/
  | header
  /-- the output of a log writer for an entry and a line break, lines 862-863; `name` is
  the log file it was meant for -/
  | entry (name : Nat) (e : Entry)
  /-- a part of one of these, after which writing failed -/
  | torn
deriving DecidableEq, Repr

/-- Piece of a file.  `logger.hpp` 857-863. -/
structure Chunk where
  kind : Kind
  text : List Char
deriving DecidableEq, Repr

/-- Number of bytes.  `logger.hpp` 843. -/
def size (c : List Chunk) : Nat := (c.map (·.text.length)).sum

/-- An absolute path: parent directory and file name.  `logger.hpp` 771-773, 824. -/
structure Path where
  dir : List Char
  name : List Char
deriving DecidableEq, Repr

/-- `std::filesystem::path::extension` of a file name: from the last dot on, if there is
one and it is not the first character; `.` and `..` have none.  `logger.hpp` 772. -/
def extension (name : List Char) : List Char :=
  if name = ['.', '.'] then []
  else
    let rest := name.reverse.takeWhile (· ≠ '.')
    if rest.length + 1 < name.length then name.drop (name.length - rest.length - 1) else []

/-- `std::filesystem::path::stem`: what precedes the extension.  `logger.hpp` 771. -/
def stem (name : List Char) : List Char := name.take (name.length - (extension name).length)

/-- The digits of `std::to_string`.  `logger.hpp` 779, 798, 803. -/
def toString (n : Nat) : List Char := Nat.toDigits 10 n

/-- The path of the file with number `i`, lines 779-780, 798-799 and 803-804. -/
def pathAt (p : Path) (i : Nat) : Path :=
  { dir := p.dir
    name := stem p.name ++ (if i = 0 then [] else '_' :: toString i) ++ extension p.name }

/-- The file system.  As `logger.hpp` 758-869 use it. -/
structure Fs where
  files : List (Path × List Chunk) := []
  dirs : List (List Char) := []
deriving DecidableEq, Repr

/-- The contents of a file.  As `logger.hpp` 843 and 851 depend on it. -/
def read (fs : Fs) (p : Path) : Option (List Chunk) := (fs.files.find? (·.1 = p)).map (·.2)

/-- `std::filesystem::exists`.  `logger.hpp` 782. -/
def exists' (fs : Fs) (p : Path) : Bool := (read fs p).isSome

/-- `std::filesystem::remove`.  `logger.hpp` 793. -/
def remove (fs : Fs) (p : Path) : Fs := { fs with files := fs.files.filter (·.1 ≠ p) }

/-- Gives a file new contents.  `logger.hpp` 760 and 857-863. -/
def store (fs : Fs) (p : Path) (c : List Chunk) : Fs :=
  { remove fs p with files := (p, c) :: (remove fs p).files }

/-- `std::filesystem::rename`, which replaces an existing file; it throws if there is no
file to rename.  `logger.hpp` 806. -/
def rename (fs : Fs) (old new : Path) : Fs × Bool :=
  match read fs old with
  | some c => (store (remove fs old) new c, true)
  | none => (fs, false)

/-- Which operation of `rotate_file` fails.  `logger.hpp` 769-808. -/
structure RotateFaults where
  /-- the first loop throws at this number (`exists`, line 782, or `remove`, line 793) -/
  scan : Option Nat := none
  /-- the renaming to this number throws, line 806 -/
  rename : Option Nat := none
deriving DecidableEq, Repr

/-- The first loop of `rotate_file`, lines 776-794; the number of files to rename, or `none`
if it threw.  It ends, because there are finitely many files; the result for `fuel = 0` is
never used, see `scanFiles_fuel`. -/
def scanFiles (f : RotateFaults) (p : Path) (limit : Nat) : Nat → Nat → Nat → Fs → Fs × Option Nat
  | 0, _, _, fs => (fs, none)
  | fuel + 1, i, numFiles, fs =>
    if f.scan = some i then (fs, none)
    else if !exists' fs (pathAt p i) then (fs, some numFiles)
    else if i < limit then scanFiles f p limit fuel (i + 1) (numFiles + 1) fs
    else scanFiles f p limit fuel (i + 1) numFiles (remove fs (pathAt p i))

/-- The second loop of `rotate_file`, lines 796-807. -/
def renameFiles (f : RotateFaults) (p : Path) : Nat → Fs → Fs × Bool
  | 0, fs => (fs, true)
  | i + 1, fs =>
    if f.rename = some (i + 1) then (fs, false)
    else
      match rename fs (pathAt p i) (pathAt p (i + 1)) with
      | (fs, true) => renameFiles f p i fs
      | (fs, false) => (fs, false)

/-- `rotate_file`, lines 769-808; the flag is `false` if it threw. -/
def rotate (f : RotateFaults) (p : Path) (limit : Nat) (fs : Fs) : Fs × Bool :=
  match scanFiles f p limit (fs.files.length + 1) 0 0 fs with
  | (fs, some numFiles) => renameFiles f p numFiles fs
  | (fs, none) => (fs, false)

/-- `open_file_stream`, lines 758-767: the file is created if necessary. It throws if the
directory does not exist or if it is to fail. -/
def openFile (fails : Bool) (p : Path) (fs : Fs) : Fs × Bool :=
  if fails = true ∨ p.dir ∉ fs.dirs then (fs, false)
  else
    match read fs p with
    | some _ => (fs, true)
    | none => (store fs p [], true)

/-- What a log writer or a header writer (lines 857, 862) does: it puts a text into the
stream, and may throw. -/
inductive Written where
  | ok (text : List Char)
  /-- it throws a `filesystem_error` -/
  | fsError (text : List Char)
  /-- it throws something else, or there is no writer -/
  | error
deriving DecidableEq, Repr

/-- What is put into the stream, lines 857-858 and 862-863: `good` tells whether the stream
is good; `bad = some k` means that writing fails after `k` characters, after which nothing
is written until the file is opened again.  Returns also whether the stream is good. -/
def put (p : Path) (k : Kind) (text : List Char) (bad : Option Nat) (good : Bool) (fs : Fs) :
    Fs × Bool :=
  if good then
    let c := (read fs p).getD []
    match bad with
    | none => (store fs p (c ++ [⟨k, text⟩]), true)
    | some n => (store fs p (c ++ [⟨.torn, text.take n⟩]), false)
  else (fs, false)

/-- The settings of the logger, lines 362-368 and 372-373. -/
structure Settings where
  level : Int := 0
  createDirs : Bool := true
  writeHeader : Bool := true
  bufferMaxSize : Nat := 0
  bufferFlushSize : Nat := 1
  fileRotationSize : Nat := 0
  fileRotationLimit : Nat := 0
  logWriter : Entry → Written
  headerWriter : Written

/-- Which operations fail in one iteration of the loop of `write_buffer_to_file`.  `logger.hpp` 841-864. -/
structure Io where
  /-- making the path absolute (824) or creating the directories (830) -/
  prepare : Bool := false
  /-- opening the file, lines 839 and 850 -/
  opening : Bool := false
  /-- `rotate_file`, line 849 -/
  rotating : RotateFaults := {}
  /-- writing the header fails after so many characters, lines 857-858 -/
  header : Option Nat := none
  /-- writing the entry fails after so many characters, lines 862-863 -/
  entry : Option Nat := none
deriving DecidableEq, Repr

/-- The local variables of `write_buffer_to_file`, lines 834-838. -/
structure Locals where
  writeHeader : Bool
  fileRotationSize : Nat
  /-- the stream is good -/
  good : Bool
deriving DecidableEq, Repr

/-- How an iteration of the loop of `write_buffer_to_file` ends.  `logger.hpp` 841-864. -/
inductive Turn where
  /-- normally; `whole` tells whether the entry is in the file as a whole -/
  | next (fs : Fs) (l : Locals) (whole : Bool)
  /-- a `filesystem_error` is thrown before the entry is counted as written (861) -/
  | before (fs : Fs)
  /-- a `filesystem_error` is thrown after the entry is counted as written -/
  | after (fs : Fs)
  /-- another exception is thrown, which nothing catches: the program ends -/
  | crash
deriving DecidableEq, Repr

/-- The end of an iteration, lines 861-863. -/
def turnEntry (σ : Settings) (io : Io) (p : Path) (l : Locals) (name : Nat) (e : Entry) (fs : Fs) : Turn :=
  match σ.logWriter e with
  | .ok text =>
    match put p (.entry name e) (text ++ ['\n']) io.entry l.good fs with
    | (fs, good) => .next fs { l with good := good } good
  | .fsError text =>
    match put p .torn text io.entry l.good fs with
    | (fs, _) => .after fs
  | .error => .crash

/-- The middle of an iteration, lines 854-859. -/
def turnHeader (σ : Settings) (io : Io) (p : Path) (l : Locals) (fileSize : Nat) (name : Nat) (e : Entry)
    (fs : Fs) : Turn :=
  if l.writeHeader = true ∧ fileSize = 0 then
    match σ.headerWriter with
    | .ok text =>
      match put p .header (text ++ ['\n']) io.header l.good fs with
      | (fs, good) => turnEntry σ io p { l with good := good } name e fs
    | .fsError text =>
      match put p .torn text io.header l.good fs with
      | (fs, _) => .before fs
    | .error => .crash
  else turnEntry σ io p l name e fs

/-- `static_cast<std::size_t>(fileStream.tellp())`, lines 843 and 851: if the stream is not
good, this is -1 as an unsigned number. -/
def fileSize (p : Path) (good : Bool) (fs : Fs) : Nat :=
  if good then size ((read fs p).getD []) else 2 ^ 64 - 1

/-- An iteration of the loop of `write_buffer_to_file`, lines 843-863. -/
def turn (σ : Settings) (io : Io) (p : Path) (l : Locals) (name : Nat) (e : Entry) (fs : Fs) : Turn :=
  if l.fileRotationSize ≠ 0 ∧ l.fileRotationSize ≤ fileSize p l.good fs then
    match rotate io.rotating p σ.fileRotationLimit fs with
    | (fs, true) =>
      match openFile io.opening p fs with
      | (fs, true) => turnHeader σ io p { l with good := true } (fileSize p true fs) name e fs
      | (fs, false) => .before fs
    | (fs, false) => .before fs
  else turnHeader σ io p l (fileSize p l.good fs) name e fs

/-- A log file, lines 349-354; the front of the buffer is the newest entry. -/
structure LogFile where
  buffer : List Entry := []
  filePath : Option Path := none
  dirsCreated : Bool := false
deriving DecidableEq, Repr

/-- The beginning of `write_buffer_to_file`, lines 821-839, for a name that stands for the
absolute path `p`: the new log file and file system, and the local variables unless it
threw. -/
def prepare (σ : Settings) (io : Io) (p : Path) (f : LogFile) (fs : Fs) : LogFile × Fs × Option Locals :=
  if f.filePath.isNone ∧ io.prepare = true then (f, fs, none)
  else
    let f := { f with filePath := some (f.filePath.getD p) }
    let p := f.filePath.getD p
    if σ.createDirs = true ∧ f.dirsCreated = false ∧ io.prepare = true then (f, fs, none)
    else
      let (f, fs) :=
        if σ.createDirs = true ∧ f.dirsCreated = false then
          ({ f with dirsCreated := true }, { fs with dirs := p.dir :: fs.dirs })
        else (f, fs)
      match openFile io.opening p fs with
      | (fs, true) => (f, fs, some ⟨σ.writeHeader, σ.fileRotationSize, true⟩)
      | (fs, false) => (f, fs, none)

end Pluto.Log
