import Verif.Model.Value

/-!
# Model of the text of log entries, `include/pluto/logger.hpp`

Output streams keep a fill character, an adjustment and a width; the base in which numbers are
written is always decimal here (a user's writer could change it). Characters are bytes in the
code, the model does not depend on what they are.
-/

namespace Pluto.LogText

/-! ## Streamer -/

/-- What is done with a `streamer`.  `logger.hpp` 306-344. -/
inductive Op where
  /-- `operator<<`, lines 339-344, with what the insertion appends; `ok` is false if it puts the
  stream into a failed state -/
  | put (text : List Char) (ok : Bool)
  /-- `end()`, lines 330-337, when `should_log` is `accepts`; the destructor does the same -/
  | finish (accepts : Bool)
deriving DecidableEq, Repr

/-- A `streamer`, lines 297-303: `m_logger` is null or not, `m_stream`; `entries` are the
messages it has given to `add_log_to_buffer`. -/
structure Streamer where
  active : Bool := true
  text : List Char := []
  good : Bool := true
  entries : List (List Char) := []
deriving DecidableEq, Repr

/-- Lines 330-344. -/
def Streamer.step (s : Streamer) : Op → Streamer
  | .put text ok => if s.good then { s with text := s.text ++ text, good := ok } else s
  | .finish accepts =>
    if s.active && accepts then { s with active := false, entries := s.entries ++ [s.text] } else s

/-- The whole life of a streamer, lines 306-344: it is created, used, and destroyed when
`should_log` is `accepts` (317-320). -/
def Streamer.life (ops : List Op) (accepts : Bool) : Streamer :=
  (ops.foldl Streamer.step {}).step (.finish accepts)

/-! ## writef -/

/-- `INT_MAX`.  Limit of what `std::vsnprintf` returns in `logger.hpp` 640. -/
def intMax : Nat := 2 ^ 31 - 1

/-- The message of `writef`, lines 630-660, where `first` and `second` are the texts which the two
calls of `vsnprintf` produce (`none`: it returns a negative number, which it also does if the
text is longer than `INT_MAX`), and `alloc` tells whether `resize` succeeds. The result is
`none` if the behaviour is undefined (`messageLength + 1` overflows, line 643). -/
def writef (scheme : List Char) (first second : Option (List Char)) (alloc : Bool) : Option (List Char) :=
  match first with
  | some text =>
    if text.length > intMax then some scheme
    else if 0 < text.length then
      if text.length = intMax then none
      else if alloc then
        match second with
        | some text' => if text'.length = text.length then some text' else some scheme
        | none => some scheme
      else some scheme
    else some scheme
  | none => some scheme

/-! ## Default writers -/

/-- Where padding goes.  `logger.hpp` 428, 433, 437, 439, 447-457. -/
inductive Adjust where
  | left
  | right
  | internal
deriving DecidableEq, Repr

/-- A `std::ostream` and what has been written to it.  `logger.hpp` 421 and 445. -/
structure Out where
  text : List Char := []
  fill : Char := ' '
  adjust : Adjust := .right
  width : Nat := 0
deriving DecidableEq, Repr

/-- `std::setfill`.  `logger.hpp` 428, 431, 447, 461, 471. -/
def Out.setfill (o : Out) (c : Char) : Out := { o with fill := c }

/-- `std::left`.  `logger.hpp` 433, 439, 447, 451, 457. -/
def Out.left (o : Out) : Out := { o with adjust := .left }

/-- `std::right`.  `logger.hpp` 428, 437, 449, 455. -/
def Out.right (o : Out) : Out := { o with adjust := .right }

/-- `std::setw`.  `logger.hpp` 430-440 and 448-470. -/
def Out.setw (o : Out) (n : Nat) : Out := { o with width := n }

/-- `operator<<` for text, characters and numbers: pads to the width, which is then 0. (With
`internal`, a sign would go before the padding; the writers never use it.)  `logger.hpp` 428-442 and 447-471. -/
def Out.put (o : Out) (t : List Char) : Out :=
  let padding := List.replicate (o.width - t.length) o.fill
  { o with
    text := o.text ++ (if o.adjust = .left then t ++ padding else padding ++ t)
    width := 0 }

/-- `operator<<` for what `std::put_time` returns; it writes past the width.  `logger.hpp` 429. -/
def Out.putTime (o : Out) (t : List Char) : Out := { o with text := o.text ++ t }

/-- A number in decimal.  `logger.hpp` 432 and 438. -/
def decimal (n : Nat) : List Char := Nat.toDigits 10 n

/-- A signed number in decimal.  `logger.hpp` 430. -/
def signed (n : Int) : List Char := if n < 0 then '-' :: decimal n.natAbs else decimal n.natAbs

/-- A number with at least two digits.  `logger.hpp` 429. -/
def two (n : Nat) : List Char := if n < 10 then '0' :: decimal n else decimal n

/-- `std::tm`, the members that are used.  `logger.hpp` 423 and 429. -/
structure Tm where
  year : Nat
  month : Nat
  day : Nat
  hour : Nat
  minute : Nat
  second : Nat
deriving DecidableEq, Repr

/-- `std::put_time` with the format of line 429. -/
def timeText (t : Tm) : List Char :=
  decimal t.year ++ '-' :: two t.month ++ '-' :: two t.day ++ ' ' :: two t.hour ++ ':' :: two t.minute ++
    ':' :: two t.second ++ ['.']

/-- `log_level_to_c_str`, lines 219-235. -/
def levelName (level : Int) : List Char :=
  if level = -1 then "level".toList
  else if level = 0 then "verbose".toList
  else if level = 1 then "trace".toList
  else if level = 2 then "debug".toList
  else if level = 3 then "info".toList
  else if level = 4 then "notice".toList
  else if level = 5 then "warning".toList
  else if level = 6 then "error".toList
  else if level = 7 then "critical".toList
  else if level = 8 then "fatal".toList
  else "unknown".toList

/-- `log_level_to_title`, lines 237-253. -/
def title (level : Int) : List Char :=
  if level = -1 then "Level".toList
  else if level = 0 then "Verbose".toList
  else if level = 1 then "Trace".toList
  else if level = 2 then "Debug".toList
  else if level = 3 then "Info".toList
  else if level = 4 then "Notice".toList
  else if level = 5 then "Warning".toList
  else if level = 6 then "Error".toList
  else if level = 7 then "Critical".toList
  else if level = 8 then "Fatal".toList
  else "Unknown".toList

/-- `log_level_to_shortened`, lines 255-271. -/
def shortened (level : Int) : List Char :=
  if level = -1 then "LVL".toList
  else if level = 0 then "VRB".toList
  else if level = 1 then "TRC".toList
  else if level = 2 then "DBG".toList
  else if level = 3 then "INF".toList
  else if level = 4 then "NTC".toList
  else if level = 5 then "WRN".toList
  else if level = 6 then "ERR".toList
  else if level = 7 then "CRT".toList
  else if level = 8 then "FTL".toList
  else "UNK".toList

/-- `log_level_to_char`, lines 273-289. -/
def levelChar (level : Int) : Char :=
  if level = -1 then 'L'
  else if level = 0 then 'V'
  else if level = 1 then 'T'
  else if level = 2 then 'D'
  else if level = 3 then 'I'
  else if level = 4 then 'N'
  else if level = 5 then 'W'
  else if level = 6 then 'E'
  else if level = 7 then 'C'
  else if level = 8 then 'F'
  else '?'

/-- A `log_entry`, lines 196-204; `localTime` is the result of line 423, `micros` the time since
the epoch in microseconds. -/
structure Record where
  localTime : Tm
  micros : Int
  threadId : Nat
  level : Int
  file : List Char
  line : Int
  function : List Char
  message : List Char
deriving DecidableEq, Repr

/-- `default_log_writer`, lines 421-443; `hide` is `PLUTO_LOGGER_HIDE_SOURCE_INFO`. The file
is a C string, without the null at its end. -/
def logWriter (hide : Bool) (o : Out) (log : Record) : Res Out :=
  let o := (o.right.setfill '0').putTime (timeText log.localTime)
  let o := ((o.setw 6).put (signed (log.micros.tmod 1000000))).put ['|']
  let o := o.setfill ' '
  let o := ((o.setw 7).put (decimal log.threadId)).put ['|']
  let o := o.left
  let o := ((o.setw 8).put (title log.level)).put ['|']
  if hide then .ok (o.put log.message)
  else
    match Value.fileName (log.file ++ ['\x00']) with
    | .error e => .error e
    | .ok k =>
      let o := ((o.setw 20).put ((log.file.drop k).take 20)).put ['|']
      let o := o.right
      let o := ((o.setw 5).put (signed log.line)).put ['|']
      let o := o.left
      let o := ((o.setw 20).put (log.function.take 20)).put ['|']
      .ok (o.put log.message)

/-- `default_header_writer`, lines 445-472. -/
def headerWriter (hide : Bool) (o : Out) : Out :=
  let o := o.left.setfill ' '
  let o := ((o.setw 26).put "Timestamp".toList).put ['|']
  let o := o.right
  let o := ((o.setw 7).put "TID".toList).put ['|']
  let o := o.left
  let o := ((o.setw 8).put (title (-1))).put ['|']
  let o :=
    if hide then o
    else
      let o := ((o.setw 20).put "File Name".toList).put ['|']
      let o := o.right
      let o := ((o.setw 5).put "Line".toList).put ['|']
      let o := o.left
      ((o.setw 20).put "Function".toList).put ['|']
  let o := (o.put "Message".toList).put ['\n']
  let o := o.setfill '-'
  let o := ((o.setw 26).put []).put ['+']
  let o := ((o.setw 7).put []).put ['+']
  let o := ((o.setw 8).put []).put ['+']
  let o :=
    if hide then o
    else
      let o := ((o.setw 20).put []).put ['+']
      let o := ((o.setw 5).put []).put ['+']
      ((o.setw 20).put []).put ['+']
  ((o.setw 7).put []).setfill ' '

end Pluto.LogText
