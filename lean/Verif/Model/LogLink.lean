import Verif.Model.Logger

/-!
# Model of the file handling of `include/pluto/logger.hpp` on a file system with links

In `LogFs.lean` a path is a file.  Here a path is an entry of a directory, which is a file (with a number; several entries
may be the same file: hard links) or a symbolic link to a path.  The operations are those of POSIX, as `std::filesystem` and
`std::ofstream` use them: `exists` (line 782) and opening (line 760) follow symbolic links, up to 40 of them; `remove` (793)
and `rename` (806) act on the entry itself; `rename` does nothing if both entries are the same file.

Other simplifications as in `LogFs.lean`; in particular nobody else changes files, so that an open stream is the file its
path leads to.  What is different from `Logger.lean` is only the file system: the field `fs` of the logger is not used.
-/

namespace Pluto.LogLink
open Pluto.Log

/-- An entry of a directory.  As `logger.hpp` 760, 782, 793 and 806 use it. -/
inductive Node where
  | file (id : Nat)
  | link (to : Path)
deriving DecidableEq, Repr

/-- The file system: entries of directories, contents of files, directories.  As `logger.hpp` 758-869 use it. -/
structure Tree where
  entries : List (Path × Node) := []
  text : Nat → List Chunk := fun _ => []
  dirs : List (List Char) := []
  /-- the number of the next new file -/
  nextId : Nat := 0

/-- The entry with a path.  `logger.hpp` 793 and 806. -/
def lookup (t : Tree) (p : Path) : Option Node := (t.entries.find? (·.1 = p)).map (·.2)

/-- Following at most so many links: the path that is not a link; `none` if there are too many.  `logger.hpp` 760 and 782. -/
def follow (t : Tree) : Nat → Path → Option Path
  | 0, p =>
    match lookup t p with
    | some (.link _) => none
    | _ => some p
  | n + 1, p =>
    match lookup t p with
    | some (.link q) => follow t n q
    | _ => some p

/-- Where a path leads (40 links are the limit of Linux).  For `logger.hpp` 760 and 782. -/
def target (t : Tree) (p : Path) : Option Path := follow t 40 p

/-- The file a path leads to.  `logger.hpp` 760 and 782. -/
def fileAt (t : Tree) (p : Path) : Option Nat :=
  match target t p with
  | some q =>
    match lookup t q with
    | some (.file i) => some i
    | _ => none
  | none => none

/-- The contents of the file a path leads to.  `logger.hpp` 843. -/
def readTree (t : Tree) (p : Path) : Option (List Chunk) := (fileAt t p).map t.text

/-- `std::filesystem::exists`, line 782; `none` if it throws, because there are too many links. -/
def existsTree (t : Tree) (p : Path) : Option Bool := (target t p).map fun _ => (fileAt t p).isSome

/-- `std::filesystem::remove`, line 793, which removes the entry. -/
def removeTree (t : Tree) (p : Path) : Tree := { t with entries := t.entries.filter (·.1 ≠ p) }

/-- Whether an entry is a file.  `logger.hpp` 806. -/
def isFile : Node → Bool
  | .file _ => true
  | .link _ => false

/-- `std::filesystem::rename`, line 806, which renames the entry; the flag is `false` if it threw. -/
def renameTree (t : Tree) (old new : Path) : Tree × Bool :=
  match lookup t old with
  | none => (t, false)
  | some n =>
    if isFile n = true ∧ lookup t new = some n then (t, true)
    else ({ t with entries := (new, n) :: ((t.entries.filter (·.1 ≠ old)).filter (·.1 ≠ new)) }, true)

/-- The first loop of `rotate_file`, lines 776-794; see `scanFiles`. -/
def scanTree (f : RotateFaults) (p : Path) (limit : Nat) : Nat → Nat → Nat → Tree → Tree × Option Nat
  | 0, _, _, t => (t, none)
  | fuel + 1, i, numFiles, t =>
    if f.scan = some i then (t, none)
    else
      match existsTree t (pathAt p i) with
      | none => (t, none)
      | some false => (t, some numFiles)
      | some true =>
        if i < limit then scanTree f p limit fuel (i + 1) (numFiles + 1) t
        else scanTree f p limit fuel (i + 1) numFiles (removeTree t (pathAt p i))

/-- The second loop of `rotate_file`, lines 796-807. -/
def renamesTree (f : RotateFaults) (p : Path) : Nat → Tree → Tree × Bool
  | 0, t => (t, true)
  | i + 1, t =>
    if f.rename = some (i + 1) then (t, false)
    else
      match renameTree t (pathAt p i) (pathAt p (i + 1)) with
      | (t, true) => renamesTree f p i t
      | (t, false) => (t, false)

/-- `rotate_file`, lines 769-808; the flag is `false` if it threw.  The loop ends, because there are finitely many entries,
see `scanTree_fuel`. -/
def rotateTree (f : RotateFaults) (p : Path) (limit : Nat) (t : Tree) : Tree × Bool :=
  match scanTree f p limit (t.entries.length + 1) 0 0 t with
  | (t, some numFiles) => renamesTree f p numFiles t
  | (t, none) => (t, false)

/-- `open_file_stream`, lines 758-767: if the path leads to no file, a file is created where it leads. -/
def openTree (fails : Bool) (p : Path) (t : Tree) : Tree × Bool :=
  if fails = true ∨ p.dir ∉ t.dirs then (t, false)
  else
    match target t p with
    | none => (t, false)
    | some q =>
      if (fileAt t p).isSome then (t, true)
      else if q.dir ∈ t.dirs then
        ({ t with
            entries := (q, .file t.nextId) :: t.entries
            text := fun i => if i = t.nextId then [] else t.text i
            nextId := t.nextId + 1 }, true)
      else (t, false)

/-- Something is appended to the file a path leads to.  `logger.hpp` 857-863. -/
def appendTree (t : Tree) (p : Path) (c : Chunk) : Tree :=
  match fileAt t p with
  | some i => { t with text := fun j => if j = i then t.text i ++ [c] else t.text j }
  | none => t

/-- What is put into the stream, lines 857-858 and 862-863; see `put`. -/
def putTree (p : Path) (k : Kind) (text : List Char) (bad : Option Nat) (good : Bool) (t : Tree) : Tree × Bool :=
  if good then
    match bad with
    | none => (appendTree t p ⟨k, text⟩, true)
    | some n => (appendTree t p ⟨.torn, text.take n⟩, false)
  else (t, false)

/-- `static_cast<std::size_t>(fileStream.tellp())`, lines 843 and 851; see `fileSize`. -/
def sizeTree (p : Path) (good : Bool) (t : Tree) : Nat :=
  if good then size ((readTree t p).getD []) else 2 ^ 64 - 1

/-- How an iteration of the loop of `write_buffer_to_file` ends; see `Turn`.  `logger.hpp` 841-864. -/
inductive TurnT where
  | next (t : Tree) (l : Locals) (whole : Bool)
  | before (t : Tree)
  | after (t : Tree)
  | crash

/-- The end of an iteration, lines 861-863. -/
def turnEntryT (σ : Settings) (io : Io) (p : Path) (l : Locals) (name : Nat) (e : Entry) (t : Tree) : TurnT :=
  match σ.logWriter e with
  | .ok text =>
    match putTree p (.entry name e) (text ++ ['\n']) io.entry l.good t with
    | (t, good) => .next t { l with good := good } good
  | .fsError text =>
    match putTree p .torn text io.entry l.good t with
    | (t, _) => .after t
  | .error => .crash

/-- The middle of an iteration, lines 854-859. -/
def turnHeaderT (σ : Settings) (io : Io) (p : Path) (l : Locals) (fileSize : Nat) (name : Nat) (e : Entry)
    (t : Tree) : TurnT :=
  if l.writeHeader = true ∧ fileSize = 0 then
    match σ.headerWriter with
    | .ok text =>
      match putTree p .header (text ++ ['\n']) io.header l.good t with
      | (t, good) => turnEntryT σ io p { l with good := good } name e t
    | .fsError text =>
      match putTree p .torn text io.header l.good t with
      | (t, _) => .before t
    | .error => .crash
  else turnEntryT σ io p l name e t

/-- An iteration of the loop of `write_buffer_to_file`, lines 843-863. -/
def turnT (σ : Settings) (io : Io) (p : Path) (l : Locals) (name : Nat) (e : Entry) (t : Tree) : TurnT :=
  if l.fileRotationSize ≠ 0 ∧ l.fileRotationSize ≤ sizeTree p l.good t then
    match rotateTree io.rotating p σ.fileRotationLimit t with
    | (t, true) =>
      match openTree io.opening p t with
      | (t, true) => turnHeaderT σ io p { l with good := true } (sizeTree p true t) name e t
      | (t, false) => .before t
    | (t, false) => .before t
  else turnHeaderT σ io p l (sizeTree p l.good t) name e t

/-- The beginning of `write_buffer_to_file`, lines 821-839; see `prepare`. -/
def prepareT (σ : Settings) (io : Io) (p : Path) (f : LogFile) (t : Tree) : LogFile × Tree × Option Locals :=
  if f.filePath.isNone ∧ io.prepare = true then (f, t, none)
  else
    let f := { f with filePath := some (f.filePath.getD p) }
    let p := f.filePath.getD p
    if σ.createDirs = true ∧ f.dirsCreated = false ∧ io.prepare = true then (f, t, none)
    else
      let (f, t) :=
        if σ.createDirs = true ∧ f.dirsCreated = false then
          ({ f with dirsCreated := true }, { t with dirs := p.dir :: t.dirs })
        else (f, t)
      match openTree io.opening p t with
      | (t, true) => (f, t, some ⟨σ.writeHeader, σ.fileRotationSize, true⟩)
      | (t, false) => (f, t, none)

/-- The loop of `write_buffer_to_file`, lines 841-864, as it is executed by the destructor; see `writeLoop`. -/
def writeLoopT (σ : Settings) (p : Path) (name : Nat) :
    Locals → List Entry → List Io → Tree → Option (Tree × List (Nat × Entry × Bool))
  | _, [], _, t => some (t, [])
  | l, e :: todo, ios, t =>
    match turnT σ (ios.headD {}) p l name e t with
    | .next t l whole =>
      match writeLoopT σ p name l todo ios.tail t with
      | some (t, passed) => some (t, (name, e, whole) :: passed)
      | none => none
    | .before t => some (t, [])
    | .after t => some (t, [(name, e, false)])
    | .crash => none

/-- The logger (without its `fs`) and the file system.  `logger.hpp` 356-373. -/
structure State where
  s : Log.State
  tree : Tree

/-- Lines 821-839 executed by the logging thread; see `threadStep`. -/
def openStepT (paths : Nat → Path) (b : State) (io : Io) (name : Nat) (todo : List Entry) : State :=
  match prepareT b.s.settings io (paths name) ((find b.s.files name).getD {}) b.tree with
  | (f, t, locals) =>
    let files := update b.s.files name fun g => { g with filePath := f.filePath, dirsCreated := f.dirsCreated }
    match locals with
    | some l => ⟨{ b.s with files := files, thread := .writing name (f.filePath.getD (paths name)) l todo 0 }, t⟩
    | none => ⟨{ b.s with files := files, thread := .returning name 0 }, t⟩

/-- A step of the logging thread in the loop of `write_buffer_to_file`, lines 841-864; see `threadStep`. -/
def writeStepT (b : State) (io : Io) (name : Nat) (p : Path) (l : Locals) (todo : List Entry) (done : Nat) : State :=
  match todo with
  | [] => ⟨{ b.s with thread := .returning name done }, b.tree⟩
  | e :: todo =>
    match turnT b.s.settings io p l name e b.tree with
    | .next t l whole =>
      ⟨{ b.s with thread := .writing name p l todo (done + 1), passed := b.s.passed ++ [(name, e, whole)] }, t⟩
    | .before t => ⟨{ b.s with thread := .returning name done }, t⟩
    | .after t =>
      ⟨{ b.s with thread := .returning name (done + 1), passed := b.s.passed ++ [(name, e, false)] }, t⟩
    | .crash => ⟨{ b.s with crashed := true }, b.tree⟩

/-- Lines 394-403 for a log file; see `flushFile`. -/
def flushFileT (paths : Nat → Path) (b : State) (io : Io) (ios : List Io) (name : Nat) (f : LogFile) : State :=
  if f.buffer ≠ [] then
    match prepareT b.s.settings io (paths name) f b.tree with
    | (f, t, some l) =>
      match writeLoopT b.s.settings (f.filePath.getD (paths name)) name l f.buffer.reverse ios t with
      | some (t, passed) =>
        ⟨{ b.s with
          passed := b.s.passed ++ passed, stage := .flushing (some name)
          files := update b.s.files name fun _ =>
            { f with buffer := f.buffer.take (f.buffer.length - passed.length) } }, t⟩
      | none => ⟨{ b.s with crashed := true }, b.tree⟩
    | (f, t, none) =>
      ⟨{ b.s with stage := .flushing (some name), files := update b.s.files name fun _ => f }, t⟩
  else ⟨{ b.s with stage := .flushing (some name) }, b.tree⟩

/-- One step; whatever does not use files is as in `step`.  `logger.hpp` 356-925. -/
def step (paths : Nat → Path) (b : State) (ev : Event) : Option State :=
  if b.s.crashed then none
  else match ev with
  | .thread io =>
    match b.s.thread with
    | .opening name todo => some (openStepT paths b io name todo)
    | .writing name p l todo done => some (writeStepT b io name p l todo done)
    | _ => (threadStep paths b.s io).map (⟨·, b.tree⟩)
  | .flush io ios =>
    match b.s.stage with
    | .flushing last =>
      match next b.s.files last with
      | some (name, f) => some (flushFileT paths b io ios name f)
      | none => none
    | _ => none
  | ev => (Log.step paths b.s ev).map (⟨·, b.tree⟩)

/-- A new logger, lines 376-379, with the settings `σ`, on the file system `t`. -/
def init (σ : Settings) (t : Tree) : State := ⟨Log.init σ {}, t⟩

/-- Several steps.  `logger.hpp` 356-925. -/
def run (paths : Nat → Path) (b : State) : List Event → Option State
  | [] => some b
  | ev :: evs =>
    match step paths b ev with
    | some b => run paths b evs
    | none => none

end Pluto.LogLink
