import Batteries.Data.List.Basic

/-!
# What searching, comparing and slicing mean

Independent of the model.
-/

namespace Pluto.SeqSpec

variable {α β : Type}

/-- The right range matches the left one at position `i`: `left = a ++ m ++ b`, where `a`
has length `i`, and the elements of `m` are related to those of `right` one by one, the
left one first. -/
def MatchesAt (p : α → β → Bool) (left : List α) (right : List β) (i : Nat) : Prop :=
  ∃ a m b, left = a ++ m ++ b ∧ a.length = i ∧ List.Forall₂ (fun l r => p l r = true) m right

/-- `i` is the first position with `P`, or `last` if there is no such position. -/
def FirstOr (P : Nat → Prop) (last i : Nat) : Prop :=
  (P i ∧ ∀ j, j < i → ¬ P j) ∨ (i = last ∧ ∀ j, ¬ P j)

/-- `i` is the last position with `P`, or `last` if there is no such position. -/
def LastOr (P : Nat → Prop) (last i : Nat) : Prop :=
  (P i ∧ ∀ j, i < j → ¬ P j) ∨ (i = last ∧ ∀ j, ¬ P j)

/-- The element at position `i` exists and has `p`. -/
def ElemAt (p : α → Bool) (xs : List α) (i : Nat) : Prop :=
  ∃ x, xs[i]? = some x ∧ p x = true

/-- A strict weak order, as the standard library requires of a comparison: irreflexive,
transitive, and being equivalent (neither less) is transitive. -/
structure StrictWeakOrder (less : α → α → Bool) : Prop where
  irrefl : ∀ a, less a a = false
  trans : ∀ a b c, less a b = true → less b c = true → less a c = true
  incomp : ∀ a b c, less a b = false → less b a = false → less b c = false → less c b = false →
    less a c = false ∧ less c a = false

/-- Neither of two elements is less than the other one. -/
def Equivalent (less : α → α → Bool) (a b : α) : Prop := less a b = false ∧ less b a = false

/-- `e` occurs in `xs`, and no equivalent element occurs before its first occurrence. -/
def IsFirst (less : α → α → Bool) (xs : List α) (e : α) : Prop :=
  ∃ before after, xs = before ++ e :: after ∧ ∀ x ∈ before, ¬ Equivalent less x e

/-- A bound of a Python slice for a sequence of length `n`: negative bounds count from the
end, and bounds out of range are moved to the nearest end. -/
def pyBound (n : Nat) (i : Int) : Int :=
  if i < 0 then max 0 (i + n) else min i n

/-- The Python slice `xs[start:stop]`: the elements whose index is at least the lower
bound and less than the upper one, in order. -/
def pySlice (xs : List α) (start stop : Int) : List α :=
  (xs.zipIdx.filter fun (_, i) =>
    decide (pyBound xs.length start ≤ (i : Int) ∧ (i : Int) < pyBound xs.length stop)).map (·.1)

end Pluto.SeqSpec
