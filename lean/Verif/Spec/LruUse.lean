import Verif.Spec.Lru

/-! # A program that uses a cache (C154) -/

namespace Pluto.Spec.Lru

/-- What a program does with a cache. -/
inductive Use (K V : Type)
  /-- `get`: a hit if it returns true -/
  | get (k : K)
  /-- `get`, and if it returns false, `insert`: a hit if `get` returns true -/
  | fetch (k : K) (v : V)
  /-- `insert_or_assign`: a hit if it returns false -/
  | assign (k : K) (v : V)
  /-- `contains`: a hit if it returns true -/
  | contains (k : K)
  /-- `remove`: a hit if it returns true -/
  | remove (k : K)
  /-- `clear` -/
  | clear
  deriving DecidableEq, Repr

/-- Wherever the first list has a hit, the second has one. -/
def HitsToo (a b : List Bool) : Prop := a.length = b.length ∧ ∀ i : Nat, a[i]? = some true → b[i]? = some true

end Pluto.Spec.Lru
