import Verif.Model.LogText

/-!
# Model of the macros of `include/pluto/logger.hpp`, lines 92-140

A statement that uses a macro evaluates expressions of the user.  An expression is its value, or
`none` if its evaluation throws.  `should_log` may give another answer every time it is asked,
because the level can be changed at any time.  From C++17 on the operands of `<<` are evaluated
from left to right.
-/

namespace Pluto.LogMacro
open Pluto.LogText

/-- What a statement has done.  `logger.hpp` 92-140. -/
structure Effect where
  /-- how often the expression for the logger has been evaluated -/
  loggers : Nat := 1
  /-- how many of the other expressions of the user have been evaluated, at least in part -/
  evaluated : Nat := 0
  /-- the messages given to `add_log_to_buffer` -/
  entries : List (List Char) := []
  /-- it throws -/
  threw : Bool := false
deriving DecidableEq, Repr

/-- Evaluates expressions one after the other: how many of them, and the values unless one throws.
The operands in `logger.hpp` 97, 109, 122 and 135. -/
def evaluate {α : Type} : List (Option α) → Nat × Option (List α)
  | [] => (0, some [])
  | none :: _ => (1, none)
  | some x :: xs =>
    match evaluate xs with
    | (n, some vs) => (n + 1, some (x :: vs))
    | (n, none) => (n + 1, none)

/-- `PLUTO_LOG_WRITE_WITH`, `PLUTO_LOG_WRITEF_WITH` and `PLUTO_LOG_FORMAT_WITH`, lines 92-127: the
first check is in the macro, line 95, 107 and 120, the second one in `write`, `writef` and
`format`, lines 605, 628 and 687.  `args` are the file and what follows the level; `message`
makes the message of the values (`none` if that throws). -/
def call {α : Type} (check₁ check₂ : Bool) (args : List (Option α)) (message : List α → Option (List Char)) : Effect :=
  if check₁ then
    match evaluate args with
    | (n, none) => { loggers := 2, evaluated := n, threw := true }
    | (n, some vs) =>
      if check₂ then
        match message vs with
        | some m => { loggers := 2, evaluated := n, entries := [m] }
        | none => { loggers := 2, evaluated := n, threw := true }
      else { loggers := 2, evaluated := n }
  else {}

/-- The operands of `<<` after the streamer has been created, line 135: how many are evaluated,
the streamer then, and whether one of them has thrown. -/
def insertAll (s : Streamer) : List (Option (List Char)) → Nat × Streamer × Bool
  | [] => (0, s, false)
  | none :: _ => (1, s, true)
  | some t :: ts =>
    match insertAll (s.step (.put t true)) ts with
    | (n, s, threw) => (n + 1, s, threw)

/-- `PLUTO_LOG_STREAM_WITH`, lines 130-140: the first check is in the macro, line 133, the others in
`end()`, line 332, which the macro calls, and which the destructor of the temporary calls (319),
also if an operand has thrown.  `file` is the expression for the file, evaluated before the
streamer is created. -/
def stream (check₁ check₂ check₃ : Bool) (file : Option Unit) (operands : List (Option (List Char))) : Effect :=
  if check₁ then
    match file with
    | none => { loggers := 2, evaluated := 1, threw := true }
    | some () =>
      match insertAll {} operands with
      | (n, s, true) =>
        { loggers := 2, evaluated := n + 1, entries := (s.step (.finish check₃)).entries, threw := true }
      | (n, s, false) =>
        { loggers := 2, evaluated := n + 1,
          entries := ((s.step (.finish check₂)).step (.finish check₃)).entries }
  else {}

end Pluto.LogMacro
