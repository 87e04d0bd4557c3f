import Verif.Model.LogOutside

/-! # What is expected of a logger whose files and directory are changed by others (C134) -/

namespace Pluto.LogOutside
open Pluto.LogShare (Config Stream)

/-- The logger has just been constructed; there may be files, and in them what others wrote. -/
structure Start (s : State) : Prop where
  names : ∀ n d, s.fs.entry n = some d → d < s.fs.fresh
  free : ∀ d, s.fs.fresh ≤ d → s.fs.data d = []
  theirs : ∀ d, ∀ x ∈ s.fs.data d, x.1 = false
  dir : ∀ k, s.fs.entry (.own k) ≠ none → s.fs.there = true
  finite : ∃ n, ∀ k, n ≤ k → s.fs.entry (.own k) = none
  logger : s.dirsCreated = false ∧ s.queue = [] ∧ s.left = 0 ∧ s.pc = .idle ∧ s.stream = none ∧ s.put = [] ∧ s.logged = []

/-- States that executions from `s₀` reach all of whose events `ok` allows. -/
inductive Reachable (cfg : Config) (ok : State → Event → Prop) (s₀ : State) : State → Prop where
  | init : Reachable cfg ok s₀ s₀
  | step {s s' : State} (ev : Event) : Reachable cfg ok s₀ s → ok s ev → step cfg s ev = some s' → Reachable cfg ok s₀ s'

/-- All events. -/
def anything (_ : State) (_ : Event) : Prop := True

/-- What the logger wrote, of the contents of a file. -/
def mine (c : List (Bool × Char)) : List Char := (c.filter (·.1)).map (·.2)

/-- The buffer of the stream, if it is one of this file. -/
def pending (s : State) (file : Nat) : List Char :=
  match s.stream with
  | some st => if st.file = file then st.pend else []
  | none => []

/-- What has been put into streams of a file: headers (`true`) and lines, in order. -/
def pieces (s : State) (file : Nat) : List (Bool × List Char) := (s.put.filter (·.1 = file)).map (·.2)

/-- The lines that have been put into streams, in order. -/
def lines (s : State) : List (List Char) := (s.put.filter fun x => !x.2.1).map (·.2.2)

/-- Others write nothing to files. -/
def NoAppend (_ : State) (ev : Event) : Prop := ∀ n text, ev ≠ .append n text

/-- Others remove no file: they give files names that are free, and do not remove the directory. -/
def NoRemove (s : State) : Event → Prop
  | .move _ new => s.fs.entry new = none
  | .remove _ => False
  | .removeDir => False
  | _ => True

/-- Nobody makes the directory again. -/
def NoMakeDir (_ : State) (ev : Event) : Prop := ev ≠ .makeDir

/-- The directory exists, or the logger is going to create it. -/
def Usable (s : State) : Prop := s.fs.there = true ∨ (s.createDirs = true ∧ s.dirsCreated = false)

/-- The text of the file of this name. -/
def text (s : State) (n : Name) : Option String := (s.fs.entry n).map fun d => String.ofList ((s.fs.data d).map (·.2))

end Pluto.LogOutside
