import Verif.Model.Statics

/-! # Orderly use of shared objects -/

namespace Pluto.StaticsSpec
open Pluto.Statics

/-- The construction of `o` was complete before that of `a`. -/
def Before (evs : List Event) (o a : Obj) : Prop := ∃ x y z, evs = x ++ .finish o :: (y ++ .finish a :: z)

/-- No construction is completed once the program ends. -/
def Settled (evs : List Event) : Prop := ∀ x y, evs = x ++ .exit :: y → ∀ o, .finish o ∉ y

/-- Once the program ends, objects use, apart from themselves, only older ones, and other code uses none. -/
def Orderly (evs : List Event) : Prop :=
  ∀ x y a o, evs = x ++ .use a o :: y → .exit ∈ x → ∃ b, a = some b ∧ (b = o ∨ Before x o b)

/-- Once the program ends, objects use, apart from themselves, only those which their constructors have used, and other code
uses none. -/
def Foreseen (evs : List Event) : Prop :=
  ∀ x y a o, evs = x ++ .use a o :: y → .exit ∈ x →
    ∃ b, a = some b ∧ (b = o ∨ ∃ u v w, x = u ++ .use (some b) o :: (v ++ .finish b :: w))

/-- The end of the program, up to where `n` objects have been destroyed. -/
def ending : Nat → List Event
  | 0 => []
  | n + 1 => .destroy :: .destroyed :: ending n

end Pluto.StaticsSpec
