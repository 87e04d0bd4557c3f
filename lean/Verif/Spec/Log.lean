import Verif.Model.Logger

/-! # Notions used in the properties of the logger -/

namespace Pluto.Spec.Log
open Pluto.Log

/-- The entries of the log file `name` in a piece of a file. -/
def entryOf (name : Nat) (c : Chunk) : Option Entry :=
  match c.kind with
  | .entry n e => if n = name then some e else none
  | _ => none

/-- The entries of the log file `name` in the contents of a file, which may not exist. -/
def own (name : Nat) (c : Option (List Chunk)) : List Entry := (c.getD []).filterMap (entryOf name)

/-- The entry a piece of a file contains, whatever the name it was logged for. -/
def anyEntry (c : Chunk) : Option Entry :=
  match c.kind with
  | .entry _ e => some e
  | _ => none

/-- All entries in the contents of a file, whatever the names they were logged for. -/
def entries (c : List Chunk) : List Entry := c.filterMap anyEntry

/-- The entries of the log file `name` in the files with the numbers `n`, ..., 1, 0, in this
order, that is, oldest first. -/
def chain (fs : Fs) (p : Path) (name : Nat) : Nat → List Entry
  | 0 => own name (read fs (pathAt p 0))
  | n + 1 => own name (read fs (pathAt p (n + 1))) ++ chain fs p name n

/-- What becomes of the files `c 0`, `c 1`, ... when they are rotated and `k` is the number
of the first one that does not exist. -/
def rotated (c : Nat → Option (List Chunk)) (k limit i : Nat) : Option (List Chunk) :=
  if i = 0 then none
  else if i ≤ k ∧ i ≤ limit then c (i - 1)
  else if i ≤ k then none
  else c i

/-- The entries accepted for a log file, in order. -/
def accepted (s : State) (name : Nat) : List Entry :=
  s.accepted.filterMap fun x => if x.1 = name then some x.2 else none

/-- The entries given to a log writer for a log file, in order. -/
def passed (s : State) (name : Nat) : List Entry :=
  s.passed.filterMap fun x => if x.1 = name then some x.2.1 else none

/-- The entries of a log file that were written to disk as a whole, in order. -/
def written (s : State) (name : Nat) : List Entry :=
  s.passed.filterMap fun x => if x.1 = name ∧ x.2.2 = true then some x.2.1 else none

/-- The entries in the buffer of a log file, oldest first. -/
def buffered (s : State) (name : Nat) : List Entry :=
  ((find s.files name).getD {}).buffer.reverse

/-- The number of entries that are still in the buffer of a log file although they have been
written. -/
def finished (s : State) (name : Nat) : Nat :=
  match s.thread with
  | .writing n _ _ _ done => if n = name then done else 0
  | .returning n done => if n = name then done else 0
  | _ => 0

/-- The entries accepted for a log file that have not been given to a log writer. -/
def pending (s : State) (name : Nat) : List Entry := (buffered s name).drop (finished s name)

/-- States that are reached by executions in which every event satisfies `ok`. -/
inductive ReachableBy (paths : Nat → Path) (ok : State → Event → Prop) (σ : Settings) (fs : Fs) :
    State → Prop where
  | init : ReachableBy paths ok σ fs (init σ fs)
  | step {s s' : State} (ev : Event) :
    ReachableBy paths ok σ fs s → ok s ev → step paths s ev = some s' → ReachableBy paths ok σ fs s'

/-- Settings are changed only to ones that satisfy `okσ`, and the outcomes of file system
operations satisfy `okIo`. -/
def Within (okσ : Settings → Prop) (okIo : Io → Prop) (s : State) : Event → Prop
  | .set x => okσ (s.settings.set x)
  | .thread io => okIo io
  | .flush io ios => okIo io ∧ ∀ io ∈ ios, okIo io
  | _ => True

/-- States that are reached by executions in which the settings always satisfy `okσ` and the
outcomes of file system operations satisfy `okIo`. -/
def Reaches (paths : Nat → Path) (okσ : Settings → Prop) (okIo : Io → Prop) (fs : Fs) (s : State) :
    Prop := ∃ σ, okσ σ ∧ ReachableBy paths (Within okσ okIo) σ fs s

/-- Whatever is put into an open file gets there. (Opening and rotating files may fail.) -/
def Writable (io : Io) : Prop := io.header = none ∧ io.entry = none

/-- Nothing fails. -/
def NoFault (io : Io) : Prop := io = {}

/-- The log writer does not throw. -/
def GoodWriter (σ : Settings) : Prop := ∀ e, ∃ text, σ.logWriter e = .ok text

/-- The writers throw nothing, or only a `filesystem_error`. -/
def Tame (σ : Settings) : Prop := (∀ e, σ.logWriter e ≠ .error) ∧ σ.headerWriter ≠ .error

/-- Something holds for every piece of a file and what precedes it. -/
def Along (P : List Chunk → Chunk → Prop) (c : List Chunk) : Prop := ∀ a x b, c = a ++ x :: b → P a x

/-- What precedes a piece in a file is shorter than `r`, or it is the header; this need not
hold for what was there before. -/
def Small (r : Nat) (a : List Chunk) (x : Chunk) : Prop :=
  x.kind = .old ∨ size a < r ∨ ∃ z h, a = z ++ [h] ∧ size z = 0 ∧ h.kind = .header

/-- The first text of a file is a header (or it was there before), and there is no header
elsewhere. -/
def Headed (a : List Chunk) (x : Chunk) : Prop :=
  (size a = 0 → x.kind = .header ∨ x.kind = .old) ∧ (x.kind = .header → size a = 0)

/-- The bytes of a file. -/
def bytes (c : List Chunk) : List Char := c.flatMap (·.text)

/-- A line of a file. -/
def line (text : List Char) : List Char := text ++ ['\n']

/-- The text of a piece is what it should be if the log writer puts `w e` for the entry `e` and
the header writer puts `header`: a line, or a beginning of one where writing has failed. -/
def Worded (w : Entry → List Char) (header : List Char) (x : Chunk) : Prop :=
  match x.kind with
  | .old => True
  | .header => x.text = line header
  | .entry _ e => x.text = line (w e)
  | .torn => x.text <+: line header ∨ ∃ e, x.text <+: line (w e)

/-- What was in a file before. -/
def former (c : List Chunk) : List Chunk := c.filter (·.kind = .old)

/-- Settings with these writers. -/
def Writers (w : Entry → List Char) (header : List Char) (σ : Settings) : Prop :=
  (∀ e, σ.logWriter e = .ok (w e)) ∧ σ.headerWriter = .ok header

/-- Rotated files have at least `r` bytes, except those that were there before. -/
def Filled (paths : Nat → Path) (r : Nat) (fs : Fs) : Prop :=
  ∀ n i c, read fs (pathAt (paths n) (i + 1)) = some c → r ≤ size c ∨ ∀ x ∈ c, x.kind = .old

/-- `P` holds for every piece of every file. -/
def Everywhere (P : List Chunk → Chunk → Prop) (fs : Fs) : Prop :=
  ∀ q c, read fs q = some c → Along P c

/-- The entries of a log file are only in its own files. -/
def Placed (paths : Nat → Path) (fs : Fs) : Prop :=
  ∀ q n, own n (read fs q) ≠ [] → ∃ i, q = pathAt (paths n) i

/-- The files with numbers after a change are files from before, in the same order: `source i`
is the former number of file `i`.  Those with `keep` are still there. -/
structure Carried (p : Path) (keep : Nat → Prop) (fs fs' : Fs) (source : Nat → Option Nat) : Prop where
  contents : ∀ i, read fs' (pathAt p i) = (source i).bind fun j => read fs (pathAt p j)
  order : ∀ i j i' j', source i = some j → source i' = some j' → i < i' → j < j'
  older : ∀ i j, source i = some j → j ≤ i
  kept : ∀ j, keep j → read fs (pathAt p j) ≠ none → ∃ i, source i = some j
  others : ∀ q, (∀ i, q ≠ pathAt p i) → read fs' q = read fs q

/-- There are no entries on disk yet. -/
def Fresh (fs : Fs) : Prop := ∀ q c, read fs q = some c → ∀ x ∈ c, x.kind = .old

/-- Different files, also the rotated ones, have different paths; several names may stand for the same file. -/
def Distinct (paths : Nat → Path) : Prop :=
  ∀ m n i j, pathAt (paths m) i = pathAt (paths n) j → paths m = paths n

/-- The files of different log files, also the rotated ones, have different paths. -/
def Separate (paths : Nat → Path) : Prop :=
  ∀ m n i j, pathAt (paths m) i = pathAt (paths n) j → m = n

/-- The calls of the interface that have passed the level filter, in no particular order:
those that have put an entry into a buffer, those whose entry was discarded, and those in
progress. -/
def requests (s : State) : List (Nat × Entry) :=
  s.accepted ++ s.dropped ++ s.calls.map fun r => (r.name, r.entry)

/-- The clock does not go back. -/
def SteadyClock (s : State) : Event → Prop
  | .call _ _ time _ _ => ∀ x ∈ requests s, x.2.time ≤ time
  | _ => True

/-- The writers do not throw, and missing directories are created. -/
def Usable (σ : Settings) : Prop :=
  GoodWriter σ ∧ (∃ text, σ.headerWriter = .ok text) ∧ σ.createDirs = true

/-- Executions in which the settings are usable, what is put into an open file gets there,
and nothing fails while the destructor writes. -/
def Orderly (s : State) : Event → Prop
  | .set x => Usable (s.settings.set x)
  | .thread io => Writable io
  | .flush io ios => NoFault io ∧ ∀ io ∈ ios, NoFault io
  | _ => True

/-- The flush size is not lowered while the logging thread owns the mutex, that is, while it
looks for buffers to write and until it waits. -/
def KeepFlush (s : State) : Event → Prop
  | .set (.bufferFlushSize n) => s.settings.bufferFlushSize ≤ n ∨ s.owner ≠ .logging
  | _ => True

/-- A buffer that is to be written. -/
def Full (s : State) (name : Nat) : Prop :=
  buffered s name ≠ [] ∧ s.settings.bufferFlushSize ≤ (buffered s name).length

/-- What happens without further calls of the interface when nothing fails: calls in
progress go on, notifications arrive, the logging thread runs. -/
def Own : Event → Prop
  | .enter _ => True
  | .leave => True
  | .notify _ => True
  | .setNotify => True
  | .thread io => NoFault io
  | _ => False

end Pluto.Spec.Log
