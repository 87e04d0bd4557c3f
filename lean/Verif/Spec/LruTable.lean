import Verif.Spec.Lru

/-! # A cache used as a table of results (C156) -/

namespace Pluto.Spec.Lru
variable {K V : Type} [DecidableEq K]

/-- The calls of a program that only adds to a cache and reads from it. -/
def Adds : Call K V → Prop
  | .insert _ _ | .get _ | .contains _ | .size | .empty | .capacity => True
  | .insertOrAssign _ _ | .remove _ | .clear | .setCapacity _ => False

/-- The value of the first `insert` of `k`. -/
def first (k : K) : List (Call K V) → Option V
  | [] => none
  | .insert k' v :: cs => if k' = k then some v else first k cs
  | _ :: cs => first k cs

end Pluto.Spec.Lru
