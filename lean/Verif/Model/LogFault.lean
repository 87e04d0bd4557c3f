/-!
# Model of logging calls when memory runs out, `include/pluto/logger.hpp`

The buffers of the logger, calls that add to them, and streamers; any allocation may fail, which throws
`std::bad_alloc`. Nothing is written meanwhile (writing only takes entries away, `Verif.Model.Logger`).
-/

namespace Pluto.LogFault

/-- A message or the name of a log file, `logger.hpp` 720-724. -/
abbrev Text := List Char

/-- `m_logFiles`, line 359, with the messages of each buffer, oldest first, and `m_numDiscardedLogs`, line 369. -/
structure State where
  files : List (Text × List Text) := []
  discarded : Nat := 0
deriving DecidableEq, Repr

/-- Which allocation fails.  `logger.hpp` 303, 312, 334, 342, 734, 742. -/
inductive Fault where
  | none
  /-- a node or the name of a new log file, line 734 -/
  | file
  /-- a node of the buffer or the copy of the message, line 742 -/
  | entry
deriving DecidableEq, Repr

/-- The buffer of a log file is replaced.  `logger.hpp` 737. -/
def update (name : Text) (buffer : List Text) : List (Text × List Text) → List (Text × List Text)
  | [] => []
  | f :: fs => if f.1 = name then (name, buffer) :: fs else f :: update name buffer fs

/-- The buffer of a log file, if there is one.  `logger.hpp` 731. -/
def lookup (name : Text) : List (Text × List Text) → Option (List Text)
  | [] => .none
  | f :: fs => if f.1 = name then some f.2 else lookup name fs

/-- Lines 737-755: the buffer is found; `max` is `buffer_max_size()`. The result tells whether it throws. -/
def addTo (max : Nat) (fault : Fault) (s : State) (name message : Text) (buffer : List Text) : State × Bool :=
  if max = 0 ∨ buffer.length < max then
    if fault = .entry then (s, true)
    else ({ s with files := update name (buffer ++ [message]) s.files }, false)
  else ({ s with discarded := s.discarded + 1 }, false)

/-- `add_log_to_buffer`, lines 720-756. (The map is ordered by name; the model keeps it in the order of creation.) -/
def add (max : Nat) (fault : Fault) (s : State) (name message : Text) : State × Bool :=
  match lookup name s.files with
  | some buffer => addTo max fault s name message buffer
  | .none =>
    if fault = .file then (s, true)
    else addTo max fault { s with files := s.files ++ [(name, [])] } name message []

/-- `write`, `writef` and `format`, lines 599-705, when `should_log` is `accepts` and the message, if any, has been
made; `made` is false if making it throws (line 659 or 689). -/
def write (max : Nat) (accepts made : Bool) (fault : Fault) (s : State) (name message : Text) : State × Bool :=
  if accepts then
    if made then add max fault s name message else (s, true)
  else (s, false)

/-- A `streamer`, lines 297-303: `m_logger` is not null, and the text in `m_stream`. -/
structure Streamer where
  active : Bool := true
  text : Text := []
deriving DecidableEq, Repr

/-- `end()`, lines 330-337, when `should_log` is `accepts`; `copied` is false if `m_stream.str()` throws. -/
def finish (max : Nat) (accepts copied : Bool) (fault : Fault) (name : Text) (s : State) (r : Streamer) :
    State × Streamer × Bool :=
  if r.active && accepts then
    if copied then
      match add max fault s name r.text with
      | (s, true) => (s, r, true)
      | (s, false) => (s, { r with active := false }, false)
    else (s, r, true)
  else (s, r, false)

/-- What the user does with a streamer.  `logger.hpp` 306-344. -/
inductive Op where
  /-- `operator<<`, lines 339-344, which appends -/
  | put (text : Text)
  /-- an operand throws, or its insertion does -/
  | throws
  /-- `end()` -/
  | finish (accepts copied : Bool) (fault : Fault)
deriving DecidableEq, Repr

/-- The operations up to the first that throws.  `logger.hpp` 306-344. -/
def operate (max : Nat) (name : Text) (s : State) (r : Streamer) : List Op → State × Streamer × Bool
  | [] => (s, r, false)
  | .put text :: ops => operate max name s { r with text := r.text ++ text } ops
  | .throws :: _ => (s, r, true)
  | .finish accepts copied fault :: ops =>
    match finish max accepts copied fault name s r with
    | (s, r, true) => (s, r, true)
    | (s, r, false) => operate max name s r ops

/-- How the use of a streamer ends.  `logger.hpp` 306-344. -/
inductive Outcome where
  | normal
  /-- the exception goes on -/
  | threw
  /-- `std::terminate`: an exception leaves a destructor, which is `noexcept` -/
  | terminated
deriving DecidableEq, Repr

/-- The life of a streamer, lines 297-344: it is used, and destroyed (317-320), also if something has thrown. -/
def life (max : Nat) (name : Text) (s : State) (ops : List Op) (accepts copied : Bool) (fault : Fault) :
    State × Outcome :=
  match operate max name s {} ops with
  | (s, r, threw) =>
    match finish max accepts copied fault name s r with
    | (s, _, true) => (s, .terminated)
    | (s, _, false) => (s, if threw then .threw else .normal)

end Pluto.LogFault
