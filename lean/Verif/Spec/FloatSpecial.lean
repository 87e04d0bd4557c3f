import Verif.Model.FloatSpecial
import Mathlib.Order.WithBot
import Mathlib.Data.Int.Order.Basic

/-! # The numbers that floating-point values denote -/

namespace Pluto.FloatSpecial

/-- Numbers and the infinities, in their usual order; the unit is the smallest positive number of the type. -/
abbrev Ext := WithBot (WithTop ℤ)

/-- The number a value denotes, if it is not a NaN. -/
def number : Fl → Option Ext
  | .nan => none
  | .inf true => some ⊥
  | .inf false => some (⊤ : WithTop ℤ)
  | .fin true m => some (((-(m : ℤ) : ℤ) : WithTop ℤ) : Ext)
  | .fin false m => some (((m : ℤ) : WithTop ℤ) : Ext)

/-- The absolute value of a number. -/
def absolute : Ext → Ext
  | none => (⊤ : WithTop ℤ)
  | some none => (⊤ : WithTop ℤ)
  | some (some v) => (((|v| : ℤ) : WithTop ℤ) : Ext)

/-- What `std::sort` requires of the elements of a container (otherwise its behaviour is undefined): that the comparison
is a strict weak order on them. -/
structure Sortable {α : Type} (less : α → α → Bool) (xs : List α) : Prop where
  irrefl : ∀ a ∈ xs, less a a = false
  trans : ∀ a ∈ xs, ∀ b ∈ xs, ∀ c ∈ xs, less a b = true → less b c = true → less a c = true
  incomp : ∀ a ∈ xs, ∀ b ∈ xs, ∀ c ∈ xs, less a b = false → less b a = false → less b c = false → less c b = false →
    less a c = false ∧ less c a = false

end Pluto.FloatSpecial
