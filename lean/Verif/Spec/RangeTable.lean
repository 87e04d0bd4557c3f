import Verif.Model.Value
import Mathlib.Order.Basic

/-! # What a table of ranges promises -/

namespace Pluto.RangeTable

open Value

variable {α : Type} [LinearOrder α]

/-- The range does not end before it begins. -/
def WellFormed (r : Range α) : Prop := r.first ≤ r.last

/-- The value lies in the range. -/
def Holds (r : Range α) (x : α) : Prop := r.first ≤ x ∧ x < r.last

/-- "Ranges are said to overlap if they either begin at the same point, or if they both begin before the other ends."
(`docs/range.md`) -/
def Overlap (r s : Range α) : Prop := r.first = s.first ∨ (r.first < s.last ∧ s.first < r.last)

end Pluto.RangeTable
