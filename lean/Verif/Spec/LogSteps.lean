import Verif.Model.LogSteps
import Verif.Spec.LogWhole

/-! # What is expected of the functions of a logger statement by statement (C142) -/

namespace Pluto.Spec.LogSteps
open Pluto.Log Pluto.LogSteps

/-- No call is in lines 731-756, except that it may be about to execute line 744, and the logging thread is not in the
middle of preparing a file, of writing an entry or of line 920. -/
def Still (f : LogSteps.State) : Prop := f.producer = .idle ∧ f.inside = .out

/-- The calls of the interface. -/
def isCall : Event → Bool
  | .call .. => true
  | _ => false

/-- The calls of the interface, in order. -/
def calls (ms : List Move) : List Event :=
  ms.filterMap fun m =>
    match m with
    | .other (.call tid name time level message) => some (.call tid name time level message)
    | _ => none

/-- The logger was constructed with this setting, or it was set. -/
def Given (σ : Settings) (ms : List Move) (x : Setting) : Prop := σ.set x = σ ∨ .other (.set x) ∈ ms

/-- No setting is changed. -/
def Unset (ms : List Move) : Prop := ∀ x, .other (.set x) ∉ ms

/-- What may fail, fails in both. -/
def Fails (ms : List Move) : Event → Prop
  | .thread io => io = {} ∨ .begin io ∈ ms ∨ .other (.thread io) ∈ ms
  | .flush io ios => .other (.flush io ios) ∈ ms
  | _ => True

/-- The execution `evs`, in which each entry is added at once, each file is prepared at once and each entry is written at
once, corresponds to `ms`: there are the same calls, settings are set only to what they were set to, not at all if no
setting was set, and operations fail only if they failed. -/
structure AtOnce (σ : Settings) (ms : List Move) (evs : List Event) : Prop where
  calls : evs.filter isCall = calls ms
  given : ∀ x, .set x ∈ evs → Given σ ms x
  unset : Unset ms → ∀ x, .set x ∉ evs
  fails : ∀ ev ∈ evs, Fails ms ev

/-- A condition on each of the settings. -/
def Each (ok : Setting → Prop) (σ : Settings) : Prop := ∀ x, σ.set x = σ → ok x

/-- No setting is changed, what is put into an open file gets there, and nothing fails while the destructor writes
(as `Calm`). -/
def CalmMove : Move → Prop
  | .begin io => Log.Writable io
  | .other ev => Log.Calm ev
  | _ => True

end Pluto.Spec.LogSteps
