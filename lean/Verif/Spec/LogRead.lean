import Verif.Model.LogText
import Verif.Spec.Num

/-!
# Reading a log file

How somebody who knows the columns of the default log reads it, and what they should find; of the
model only the type of entries is used.
-/

namespace Pluto.LogReadSpec
open NumSpec

/-- What a line of a log tells. -/
structure Fields where
  year : Nat
  month : Nat
  day : Nat
  hour : Nat
  minute : Nat
  second : Nat
  micros : Nat
  threadId : Nat
  level : Option Int
  file : List Char
  line : Nat
  function : List Char
  message : List Char
deriving DecidableEq, Repr

/-- The lines of a text; each ends with a line break. -/
def lines : List Char → List (List Char)
  | [] => []
  | c :: s =>
    if c = '\n' then [] :: lines s
    else
      match lines s with
      | [] => [[c]]
      | l :: ls => (c :: l) :: ls

/-- The text before the first bar. -/
def column (s : List Char) : List Char := s.takeWhile (· ≠ '|')

/-- The text after the first bar. -/
def rest (s : List Char) : List Char := (s.dropWhile (· ≠ '|')).drop 1

/-- A number with blanks before it. -/
def number (s : List Char) : Nat := value 10 (s.dropWhile (· = ' '))

/-- Text without the blanks at its end. -/
def trimEnd (s : List Char) : List Char := (s.reverse.dropWhile (· = ' ')).reverse

/-- The titles of the levels. -/
def titles : List (String × Int) :=
  [("Fatal", 8), ("Critical", 7), ("Error", 6), ("Warning", 5), ("Notice", 4), ("Info", 3), ("Debug", 2), ("Trace", 1),
    ("Verbose", 0)]

/-- The level with a title. -/
def levelOf (s : List Char) : Option Int := (titles.find? fun t => t.1.toList = s).map (·.2)

/-- A line of a log. The date and time have fixed positions, "2024-05-17 09:03:59.000042|"; the thread id,
the level and the line number end at a bar; the names of file and function have twenty characters. -/
def readLine (hide : Bool) (s : List Char) : Fields :=
  let s₁ := s.drop 27
  let s₂ := rest s₁
  let s₃ := rest s₂
  let s₄ := s₃.drop 21
  let s₅ := rest s₄
  { year := number (s.take 4)
    month := number ((s.drop 5).take 2)
    day := number ((s.drop 8).take 2)
    hour := number ((s.drop 11).take 2)
    minute := number ((s.drop 14).take 2)
    second := number ((s.drop 17).take 2)
    micros := number ((s.drop 20).take 6)
    threadId := number (column s₁)
    level := levelOf (trimEnd (column s₂))
    file := if hide then [] else trimEnd (s₃.take 20)
    line := if hide then 0 else number (column s₄)
    function := if hide then [] else trimEnd (s₅.take 20)
    message := if hide then s₃ else s₅.drop 21 }

/-- A log; if there is a header, its two lines are skipped. -/
def readLog (hide header : Bool) (text : List Char) : List Fields :=
  ((lines text).drop (if header then 2 else 0)).map (readLine hide)

/-- The last part of a path. -/
def lastPart (path : List Char) : List Char :=
  (path.reverse.takeWhile fun c => c ≠ '/' ∧ c ≠ '\\').reverse

/-- The time of an entry has the usual ranges. -/
structure TimeFits (log : LogText.Record) : Prop where
  year : 1000 ≤ log.localTime.year ∧ log.localTime.year < 10000
  month : log.localTime.month < 100
  day : log.localTime.day < 100
  hour : log.localTime.hour < 100
  minute : log.localTime.minute < 100
  second : log.localTime.second < 100
  micros : 0 ≤ log.micros

/-- What a reader can see of an entry: the time in microseconds, the thread, the level, the line, the message, and
the first twenty characters of the names, where blanks at the end cannot be seen. -/
def shown (hide : Bool) (log : LogText.Record) : Fields :=
  { year := log.localTime.year, month := log.localTime.month, day := log.localTime.day, hour := log.localTime.hour
    minute := log.localTime.minute, second := log.localTime.second, micros := (log.micros % 1000000).toNat
    threadId := log.threadId, level := some log.level
    file := if hide then [] else trimEnd ((lastPart log.file).take 20)
    line := if hide then 0 else log.line.toNat
    function := if hide then [] else trimEnd (log.function.take 20)
    message := log.message }

/-- An entry that can be read: its time and level have the usual ranges, its line number is not negative, and
there is no line break in it. Thread id, line number, message and names may be as long as they like and may
contain bars. -/
structure Readable (log : LogText.Record) : Prop where
  time : TimeFits log
  level : 0 ≤ log.level ∧ log.level ≤ 8
  line : 0 ≤ log.line
  null : '\x00' ∉ log.file
  file : '\n' ∉ log.file
  function : '\n' ∉ log.function
  message : '\n' ∉ log.message

end Pluto.LogReadSpec
