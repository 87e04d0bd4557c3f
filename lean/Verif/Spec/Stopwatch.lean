import Verif.Model.Stopwatch

/-!
# What a stopwatch measures

Stated without the state of the model: whether the stopwatch is on at a tick of the clock
is decided by the last call up to that tick.
-/

namespace Pluto.StopwatchSpec

open Stopwatch (Call)

/-- The calls that turn a stopwatch on. -/
def turnsOn : Call → Bool
  | .start | .restart => true
  | .stop | .stopAndTime | .reset => false

/-- Whether the stopwatch is on at tick `k`: the last call at or before `k` exists and
turned it on. -/
def onAt (history : List (Int × Call)) (k : Int) : Bool :=
  match (history.filter fun e => decide (e.1 ≤ k)).getLast? with
  | none => false
  | some e => turnsOn e.2

/-- The number of ticks from `first` until `now` at which the stopwatch is on. -/
def ticksOn (history : List (Int × Call)) (first now : Int) : Nat :=
  (List.range (now - first).toNat).countP fun i : Nat => onAt history (first + (i : Int))

/-- The clock never runs backwards. -/
def MonotoneClock (history : List (Int × Call)) : Prop := history.Pairwise fun e f => e.1 ≤ f.1

end Pluto.StopwatchSpec
