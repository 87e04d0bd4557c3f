import Verif.Spec.Log

/-! # What is expected of a logger from its construction to its destruction (C130, C136) -/

namespace Pluto.Spec.Log
open Pluto.Log

/-- The calls that thread `tid` makes for the log file `name` with a level of at least `l`, in order: time, level and
message. -/
def said (l : Int) (name tid : Nat) : List Event → List (Int × Int × List Char)
  | [] => []
  | .call t n time level message :: evs =>
    if t = tid ∧ n = name ∧ l ≤ level then (time, level, message) :: said l name tid evs else said l name tid evs
  | _ :: evs => said l name tid evs

/-- What of an entry comes from the call. -/
def saidBy (tid : Nat) (es : List Entry) : List (Int × Int × List Char) :=
  (es.filter (·.tid = tid)).map fun e => (e.time, e.level, e.message)

/-- No setting is changed, what is put into an open file gets there, and nothing fails while the destructor writes.
(Preparing, opening and rotating may fail before.) -/
def Calm : Event → Prop
  | .set _ => False
  | .thread io => Writable io
  | .flush io ios => NoFault io ∧ ∀ io ∈ ios, NoFault io
  | _ => True

/-- The bytes of a file; none if it does not exist. -/
def bytesOf (fs : Fs) (q : Path) : List Char := bytes ((read fs q).getD [])

/-- The parts `n`, ..., 1, 0 of something, one after another. -/
def oldestFirst {α : Type} (part : Nat → List α) : Nat → List α
  | 0 => part 0
  | n + 1 => part (n + 1) ++ oldestFirst part n

/-- As `Calm`, and no rotation fails. (Preparing and opening may fail before the destructor is called.) -/
def Smooth (ev : Event) : Prop := Calm ev ∧ ∀ io, ev = .thread io → io.rotating = {}

end Pluto.Spec.Log
