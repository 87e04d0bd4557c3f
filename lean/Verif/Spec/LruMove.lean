import Verif.Spec.Lru

/-!
# Specification of several caches that can be moved

A move transfers the contents and the capacity; the source is an empty cache of the same capacity afterwards.
Nothing here refers to the model of the C++ code.
-/

namespace Pluto.Spec.Lru
variable {K V : Type} [DecidableEq K]

/-- What a program can do with several caches. -/
inductive Op (K V : Type)
  /-- the constructor; the new cache is the last one -/
  | create (capacity : Nat)
  /-- a call of cache `i` -/
  | call (i : Nat) (c : Call K V)
  /-- `lru_cache b{ std::move(a) }`, where `a` is cache `i` and `b` the new last one -/
  | moveNew (i : Nat)
  /-- `b = std::move(a)`, where `a` is cache `i` and `b` is cache `j`; not defined here if they are the same -/
  | moveTo (i j : Nat)
  /-- `std::swap(a, b)` of different caches: `auto t{ std::move(a) }; a = std::move(b); b = std::move(t);` -/
  | swap (i j : Nat)
  deriving DecidableEq, Repr

/-- One operation on abstract caches; `none` if a cache does not exist, or is moved to itself. -/
def opStep (cs : List (Cache K V)) : Op K V → Option (List (Cache K V) × Ret V)
  | .create n => some (cs ++ [⟨n, []⟩], .unit)
  | .call i c => (cs[i]?).map fun x => (cs.set i (x.step c).1, (x.step c).2)
  | .moveNew i => (cs[i]?).map fun x => (cs.set i ⟨x.capacity, []⟩ ++ [x], .unit)
  | .moveTo i j =>
    match cs[i]?, cs[j]? with
    | some x, some _ => if i = j then none else some ((cs.set i ⟨x.capacity, []⟩).set j x, .unit)
    | _, _ => none
  | .swap i j =>
    match cs[i]?, cs[j]? with
    | some x, some y => if i = j then none else some ((cs.set i y).set j x, .unit)
    | _, _ => none

/-- Several operations, with all results. -/
def ops : List (Op K V) → List (Cache K V) → Option (List (Cache K V) × List (Ret V))
  | [], cs => some (cs, [])
  | o :: os, cs => (opStep cs o).bind fun x => (ops os x.1).map fun y => (y.1, x.2 :: y.2)

end Pluto.Spec.Lru
