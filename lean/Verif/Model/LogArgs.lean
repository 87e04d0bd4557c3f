import Verif.Model.Res

/-!
# Model of how long the logger uses what it is given, `include/pluto/logger.hpp`

Strings of the callers are in memory, and the callers may change or destroy them. The logger copies some of them
and keeps pointers to others. Everything is logged (levels, full buffers: `Verif.Model.Logger`); the time, thread
id and level of an entry are values and left out. Entries of a log file are written oldest first (C23); when is
not determined.
-/

namespace Pluto.LogArgs

/-- The address of a string.  Parameters of `logger.hpp` 599-603. -/
abbrev Addr := Nat

/-- The strings that exist, by their addresses.  Parameters of `logger.hpp` 599-603. -/
abbrev Mem := Addr → Option (List Char)

/-- A string is read; the behaviour is undefined if it does not exist any more.  As in `logger.hpp` 862. -/
def load (m : Mem) (a : Addr) : Res (List Char) :=
  match m a with
  | some t => .ok t
  | none => .error .undefined

/-- `source_info`, lines 174-194: two pointers and a number, which are copied. -/
structure Source where
  file : Addr
  line : Int
  function : Addr
deriving DecidableEq, Repr

/-- `log_entry`, lines 196-217: the source as it is, and a copy of the message (line 216). -/
structure Entry where
  source : Source
  message : List Char
deriving DecidableEq, Repr

/-- `streamer`, lines 297-315: a copy of the name of the log file (300, 312), the source as it is (302, 314), and
the text that has been inserted. -/
structure Streamer where
  active : Bool
  name : List Char
  source : Source
  text : List Char
deriving DecidableEq, Repr

/-- What a writer finds in an entry, and the line that it writes.  `logger.hpp` 862-863. -/
structure Line where
  file : List Char
  line : Int
  function : List Char
  message : List Char
deriving DecidableEq, Repr

/-- The memory of the callers, the streamers that exist, and for each log file its buffer, oldest entry first, and
what has been written to it.  `logger.hpp` 299-303 and 347-359. -/
structure State where
  mem : Mem
  streamers : List Streamer := []
  buffers : List Char → List Entry := fun _ => []
  out : List Char → List Line := fun _ => []

/-- What can happen.  `logger.hpp` 306-345, 599-756, 862. -/
inductive Event where
  /-- `write`, `writef` or `format`, lines 599-705, with the name of the log file at `name` and the message (after
  formatting) at `message` -/
  | write (name message : Addr) (source : Source)
  /-- `stream`, lines 707-717 -/
  | stream (name : Addr) (source : Source)
  /-- insertion of the string at `text` into streamer `i`, lines 339-344 -/
  | insert (i : Nat) (text : Addr)
  /-- `end` or the destructor of streamer `i`, lines 317-337 -/
  | finish (i : Nat)
  /-- the caller changes or destroys the string at `a`, or creates one -/
  | put (a : Addr) (t : Option (List Char))
  /-- the logging thread, or the destructor, calls the log writer for the oldest entry of a log file, lines
  861-863; the default writer and every other reads the source through the pointers (436-440) -/
  | output (name : List Char)

/-- The value of a function is replaced.  See `logger.hpp` 306-345, 720-756 and 862. -/
def set {α : Type} (f : List Char → α) (x : List Char) (v : α) : List Char → α := fun y => if y = x then v else f y

/-- `add_log_to_buffer`, lines 720-756, with copies of the name (734) and of the message (742, 216). -/
def add (s : State) (name : List Char) (source : Source) (message : List Char) : State :=
  { s with buffers := set s.buffers name (s.buffers name ++ [⟨source, message⟩]) }

/-- A step; an event that cannot happen has no effect.  See `logger.hpp` 306-345, 720-756 and 862. -/
def step (s : State) : Event → Res State
  | .write name message source => do
    let n ← load s.mem name
    let t ← load s.mem message
    .ok (add s n source t)
  | .stream name source => do
    let n ← load s.mem name
    .ok { s with streamers := s.streamers ++ [⟨true, n, source, []⟩] }
  | .insert i text => do
    let t ← load s.mem text
    match s.streamers[i]? with
    | some r => .ok { s with streamers := s.streamers.set i { r with text := r.text ++ t } }
    | none => .ok s
  | .finish i =>
    match s.streamers[i]? with
    | some r =>
      if r.active then .ok (add { s with streamers := s.streamers.set i { r with active := false } } r.name r.source r.text)
      else .ok s
    | none => .ok s
  | .put a t => .ok { s with mem := fun b => if b = a then t else s.mem b }
  | .output name =>
    match s.buffers name with
    | e :: rest => do
      let file ← load s.mem e.source.file
      let function ← load s.mem e.source.function
      .ok { s with
        buffers := set s.buffers name rest
        out := set s.out name (s.out name ++ [⟨file, e.source.line, function, e.message⟩]) }
    | [] => .ok s

/-- Several steps.  See `logger.hpp` 306-345, 720-756 and 862. -/
def run (s : State) : List Event → Res State
  | [] => .ok s
  | ev :: evs => do
    let s ← step s ev
    run s evs

end Pluto.LogArgs
