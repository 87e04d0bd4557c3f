import Verif.Model.LogShare

/-! # What a file should be that several loggers write to -/

namespace Pluto.LogShare

/-- The loggers have just been constructed; there may be files, and in them what other programs wrote. -/
def Start (s : State) : Prop := (∀ n d, s.fs.dir n = some d → d < s.fs.fresh) ∧ ∀ i, s.loggers i = {}

/-- States that executions from `s₀` reach all of whose events `ok` allows. -/
inductive Reachable (cfg : Config) (ok : State → Event → Prop) (s₀ : State) : State → Prop where
  | init : Reachable cfg ok s₀ s₀
  | step {s s' : State} (ev : Event) : Reachable cfg ok s₀ s → ok s ev → step cfg s ev = some s' → Reachable cfg ok s₀ s'

/-- What logger `i` wrote, of the contents of a file. -/
def by' (i : Nat) (c : List (Nat × Char)) : List Char := (c.filter fun x => x.1 = i).map (·.2)

/-- The buffer of the stream of logger `i`. -/
def pending (s : State) (i : Nat) : List Char :=
  match (s.loggers i).stream with
  | some st => st.pend
  | none => []

/-- What logger `i` has put into streams, headers included. -/
def texts (s : State) (i : Nat) : List (List Char) := (s.loggers i).put.map (·.2)

/-- The same without headers. -/
def lines (s : State) (i : Nat) : List (List Char) := ((s.loggers i).put.filter fun x => !x.1).map (·.2)

/-- No logger has anything left to write. -/
def Quiet (s : State) : Prop := ∀ i, (s.loggers i).queue = [] ∧ (s.loggers i).stream = none

/-- The contents are whole pieces: `ls` has the pieces with the loggers that wrote them. -/
def Whole (c : List (Nat × Char)) (ls : List (Nat × List Char)) : Prop := c = ls.flatMap fun x => x.2.map fun a => (x.1, a)

/-- The pieces of logger `i`. -/
def pieces (i : Nat) (ls : List (Nat × List Char)) : List (List Char) := (ls.filter fun x => x.1 = i).map (·.2)

/-- Streams write out all of their buffer, if they do before they are closed. -/
def FlushAll (s : State) (ev : Event) : Prop := ∀ i n, ev = .flush i n → (pending s i).length ≤ n

/-- All events. -/
def anything (_ : State) (_ : Event) : Prop := True

end Pluto.LogShare
