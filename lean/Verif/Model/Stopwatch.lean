/-!
# Model of `include/pluto/stopwatch.hpp`

Clock readings and durations are integers: numbers of ticks of the clock.  That they
overflow 64 bits (after 292 years with a tick of a nanosecond) is in Model/StopwatchBits.lean.  Each
function that reads the clock takes the reading as an argument.
-/

namespace Pluto.Stopwatch

/-- The members of `stopwatch`, lines 28-30, with their initial values. -/
structure State where
  time : Int := 0
  start : Int := 0
  running : Bool := false
deriving DecidableEq, Repr

/-- `start`, lines 137-144. -/
def start (s : State) (now : Int) : State :=
  if !s.running then { s with start := now, running := true } else s

/-- The constructor, lines 33-39. -/
def create (startNow : Bool) (now : Int) : State :=
  if startNow then start {} now else {}

/-- `time`, lines 41-44. -/
def timeAt (s : State) (now : Int) : Int :=
  if s.running then s.time + (now - s.start) else s.time

/-- `is_running`, lines 118-121. -/
def isRunning (s : State) : Bool := s.running

/-- `reset`, lines 123-128. -/
def reset (_ : State) : State := { time := 0, start := 0, running := false }

/-- `restart`, lines 130-135. -/
def restart (_ : State) (now : Int) : State := { time := 0, start := now, running := true }

/-- `stop`, lines 146-153. -/
def stop (s : State) (now : Int) : State :=
  if s.running then { s with time := s.time + (now - s.start), running := false } else s

/-- `stop_and_time`, lines 155-159. -/
def stopAndTime (s : State) (now : Int) : State × Int :=
  let s := stop s now
  (s, s.time)

/-! ## Units -/

/-- `std::chrono::duration_cast` from ticks of `tick` nanoseconds to units of `unit`
nanoseconds, [time.duration.cast]: the quotient rounded towards zero.  `stopwatch.hpp` 49. -/
def durationCast (tick unit : Nat) (d : Int) : Int := (d * tick).tdiv unit

/-- `count`, lines 46-50. -/
def count (tick unit : Nat) (s : State) (now : Int) : Int := durationCast tick unit (timeAt s now)

/-- `count` with `rollover`, lines 52-56; `%` of C++ rounds towards zero. -/
def countRollover (tick unit : Nat) (rollover : Int) (s : State) (now : Int) : Int :=
  (count tick unit s now).tmod rollover

/-- `in_nanoseconds`, lines 58-61. -/
def inNanoseconds (tick : Nat) (s : State) (now : Int) : Int := count tick 1 s now

/-- `in_microseconds`, lines 63-66. -/
def inMicroseconds (tick : Nat) (s : State) (now : Int) : Int := count tick 1000 s now

/-- `in_milliseconds`, lines 68-71. -/
def inMilliseconds (tick : Nat) (s : State) (now : Int) : Int := count tick 1000000 s now

/-- `in_seconds`, lines 73-76. -/
def inSeconds (tick : Nat) (s : State) (now : Int) : Int := count tick 1000000000 s now

/-- `in_minutes`, lines 78-81. -/
def inMinutes (tick : Nat) (s : State) (now : Int) : Int := count tick 60000000000 s now

/-- `in_hours`, lines 83-86. -/
def inHours (tick : Nat) (s : State) (now : Int) : Int := count tick 3600000000000 s now

/-- `nanoseconds_part`, lines 88-91. -/
def nanosecondsPart (tick : Nat) (s : State) (now : Int) : Int := countRollover tick 1 1000 s now

/-- `microseconds_part`, lines 93-96. -/
def microsecondsPart (tick : Nat) (s : State) (now : Int) : Int :=
  countRollover tick 1000 1000 s now

/-- `milliseconds_part`, lines 98-101. -/
def millisecondsPart (tick : Nat) (s : State) (now : Int) : Int :=
  countRollover tick 1000000 1000 s now

/-- `seconds_part`, lines 103-106. -/
def secondsPart (tick : Nat) (s : State) (now : Int) : Int :=
  countRollover tick 1000000000 60 s now

/-- `minutes_part`, lines 108-111. -/
def minutesPart (tick : Nat) (s : State) (now : Int) : Int :=
  countRollover tick 60000000000 60 s now

/-- `hours_part`, lines 113-116. -/
def hoursPart (tick : Nat) (s : State) (now : Int) : Int := count tick 3600000000000 s now

/-! ## Histories -/

/-- The calls that change a stopwatch.  `stopwatch.hpp` 33-39 and 123-159. -/
inductive Call where
  | start
  | stop
  | stopAndTime
  | reset
  | restart
deriving DecidableEq, Repr

/-- A call at the clock reading `now`.  `stopwatch.hpp` 33-39 and 123-159. -/
def call (s : State) : Call → Int → State
  | .start, now => start s now
  | .stop, now => stop s now
  | .stopAndTime, now => (stopAndTime s now).1
  | .reset, _ => reset s
  | .restart, now => restart s now

/-- A history of calls, each with its clock reading.  `stopwatch.hpp` 33-39 and 123-159. -/
def run (s : State) (history : List (Int × Call)) : State :=
  history.foldl (fun s e => call s e.2 e.1) s

end Pluto.Stopwatch
