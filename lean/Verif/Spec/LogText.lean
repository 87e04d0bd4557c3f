import Verif.Model.LogText

/-!
# What the text of log entries should look like

Of the model only the types of operations and entries and the numerals are used.
-/

namespace Pluto.LogTextSpec
open LogText

/-- What insertions leave in a stream: everything up to the first failure. -/
def streamed : List Op → List Char
  | [] => []
  | .put text true :: ops => text ++ streamed ops
  | .put text false :: _ => text
  | .finish _ :: ops => streamed ops

/-- Text in a column, at its right end. -/
def flushRight (n : Nat) (t : List Char) : List Char := List.replicate (n - t.length) ' ' ++ t

/-- Text in a column, at its left end. -/
def flushLeft (n : Nat) (t : List Char) : List Char := t ++ List.replicate (n - t.length) ' '

/-- The fields fit their columns: the year has four digits, the time is not before the epoch, the
thread id has at most seven digits and the line number five. -/
structure Fits (log : Record) : Prop where
  year : 1000 ≤ log.localTime.year ∧ log.localTime.year < 10000
  month : log.localTime.month < 100
  day : log.localTime.day < 100
  hour : log.localTime.hour < 100
  minute : log.localTime.minute < 100
  second : log.localTime.second < 100
  micros : 0 ≤ log.micros
  threadId : log.threadId < 10 ^ 7
  line : 0 ≤ log.line ∧ log.line < 10 ^ 5
  file : '\x00' ∉ log.file

/-- Positions of the separators. -/
def bars (hide : Bool) : List Nat := if hide then [26, 34, 43] else [26, 34, 43, 64, 70, 91]

/-- The time column: date, time, and microseconds with six digits. -/
def timeColumn (log : Record) : List Char :=
  timeText log.localTime ++
    (List.replicate (6 - (decimal (log.micros.tmod 1000000).natAbs).length) '0' ++
      decimal (log.micros.tmod 1000000).natAbs)

/-- The last part of a path. -/
def LastPart (path name : List Char) : Prop :=
  ∃ dir, path = dir ++ name ∧ (∀ c ∈ name, c ≠ '/' ∧ c ≠ '\\') ∧
    (dir = [] ∨ ∃ d sep, dir = d ++ [sep] ∧ (sep = '/' ∨ sep = '\\'))

/-- The enumerators of `log_level` that stand for levels of entries (lines 145-172): value, name, short
name. -/
def levels : List (Int × String × String) :=
  [(8, "fatal", "ftl"), (7, "critical", "crt"), (6, "error", "err"), (5, "warning", "wrn"), (4, "notice", "ntc"),
    (3, "info", "inf"), (2, "debug", "dbg"), (1, "trace", "trc"), (0, "verbose", "vrb")]

end Pluto.LogTextSpec
