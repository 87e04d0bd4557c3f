import Verif.Model.LogArgs

/-!
# What callers of a logger expect

Of the model only the events and the types of memory and lines are used. Everything a call is given is read during
the call, and at no other time.
-/

namespace Pluto.LogArgsSpec
open LogArgs (Addr Mem Source Line Event)

/-- A stream: whether it has not ended, the log file, and the line so far. -/
structure Open where
  active : Bool
  name : List Char
  line : Line

/-- The memory of the callers, the streams, and what has been logged to each log file. -/
structure Expected where
  mem : Mem
  streams : List Open := []
  logged : List Char → List Line := fun _ => []

/-- A line is logged. -/
def log (s : Expected) (name : List Char) (l : Line) : Expected :=
  { s with logged := fun n => if n = name then s.logged n ++ [l] else s.logged n }

/-- What an event should do; `none` if a call is given something that does not exist. -/
def step (s : Expected) : Event → Option Expected
  | .write name message source =>
    match s.mem name, s.mem message, s.mem source.file, s.mem source.function with
    | some n, some t, some f, some g => some (log s n ⟨f, source.line, g, t⟩)
    | _, _, _, _ => none
  | .stream name source =>
    match s.mem name, s.mem source.file, s.mem source.function with
    | some n, some f, some g => some { s with streams := s.streams ++ [⟨true, n, ⟨f, source.line, g, []⟩⟩] }
    | _, _, _ => none
  | .insert i text =>
    match s.mem text, s.streams[i]? with
    | some t, some r => some { s with
        streams := s.streams.set i ⟨r.active, r.name, { r.line with message := r.line.message ++ t }⟩ }
    | some _, none => some s
    | none, _ => none
  | .finish i =>
    match s.streams[i]? with
    | some r => if r.active then some (log { s with streams := s.streams.set i { r with active := false } } r.name r.line)
      else some s
    | none => some s
  | .put a t => some { s with mem := fun b => if b = a then t else s.mem b }
  | .output _ => some s

/-- Several steps. -/
def run (s : Expected) : List Event → Option Expected
  | [] => some s
  | ev :: evs =>
    match step s ev with
    | some s => run s evs
    | none => none

/-- The strings of the sources are in a part of memory that is never changed, like string literals, `__FILE__` and
`__func__`. -/
def Static (lit : Addr → Prop) : Event → Prop
  | .write _ _ source => lit source.file ∧ lit source.function
  | .stream _ source => lit source.file ∧ lit source.function
  | .put a _ => ¬ lit a
  | _ => True

end Pluto.LogArgsSpec
