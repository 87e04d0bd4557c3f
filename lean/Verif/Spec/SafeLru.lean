import Verif.Model.SafeLru

/-!
# Specification of the concurrent cache: linearizability

A linearization of an execution is a list of the calls that have taken effect, each once, with their outcomes, such
that every call that returned is in it with the outcome it returned, a call that returned before another one was
invoked comes first, and executing the calls one after the other gives exactly these outcomes.
-/

namespace Pluto.SafeLru
open Pluto.Spec.Lru
open Pluto.Lru (State Faults)
variable {K V : Type} [DecidableEq K] [DecidableEq V]

/-- A call that has taken effect: its number, which allocations and copies in it failed, the call, and the outcome. -/
structure Op (K V : Type) where
  id : Nat
  f : Faults
  c : Call K V
  o : Out (Ret V)

/-- `lin` contains each call of the execution `tr` at most once, contains every call that returned, with the outcome it
returned, and respects real time: if `i` returned before `j` was invoked then `i` comes before `j`. -/
structure Linearization (tr : List (Event K V)) (lin : List (Op K V)) : Prop where
  once : (lin.map (·.id)).Nodup
  invoked : ∀ op ∈ lin, Event.invoke op.id op.f op.c ∈ tr
  returned : ∀ i o, Event.ret i o ∈ tr → ∃ op ∈ lin, op.id = i ∧ op.o = o
  realTime : ∀ i j o f c, [Event.ret i o, Event.invoke j f c].Sublist tr → j ∈ lin.map (·.id) →
    [i, j].Sublist (lin.map (·.id))

end Pluto.SafeLru
