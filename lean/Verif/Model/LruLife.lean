import Verif.Model.Lru

/-!
# When `include/pluto/lru_cache.hpp` destroys values, and what their destructors may do

The values the cache holds are those of `m_map`.  A value is destroyed in the atomic step in which the entry of its key
leaves the map or gets another value.  Values are compared, so an assignment of an equal value does not count: that the
objects are different is expressed by different values.
-/

namespace Pluto.Lru
open Pluto.Spec.Lru (Call Ret)
variable {K V : Type} [DecidableEq K] [DecidableEq V]

/-- The values destroyed when `m_map` (lru_cache.hpp L30) changes from `m` to `m'`: those of `m_map.clear()` L58,
`m_map.erase(itMap)` L111, `itMap->second.first = value` L140, `m_map.erase(*itList)` L164. -/
def lost (m m' : List (K × (V × Nat))) : List V :=
  (m.filter (fun e => !(m'.any (fun x => decide (x.1 = e.1 ∧ x.2.1 = e.2.1))))).map (·.2.1)

/-- The values destroyed by the steps of a method of the cache (L36-166), in order. -/
def destroyed {ρ : Type} : Prog (State K V) ρ → State K V → List V
  | .ret _, _ => []
  | .throw, _ => []
  | .ub, _ => []
  | .step u n, s => lost s.map (u s).map ++ destroyed (n s) (u s)

/-- The values destroyed by a sequence of calls in which nothing throws.  `lru_cache.hpp` 56-145. -/
def destroyedAll : List (Call K V) → State K V → List V
  | [], _ => []
  | c :: cs, s =>
    destroyed (body noFaults c) s ++
      match call c s with
      | none => []
      | some (s', _) => destroyedAll cs s'

/-- What `value = itMap->second.first` (L98) overwrites: the content `old` of the variable given to `get`, if the key was
found. -/
def overwritten (old : V) : Call K V → State K V → List V
  | .get k, s => if (mapFind s.map k).isSome then [old] else []
  | _, _ => []

/-- A call on a `safe_lru_cache` (safe_lru_cache.hpp L63-97) by a thread that has nothing else under way.  The whole method,
with the destructors of the values it destroys, runs while the thread owns `m_mutex`.  `uses v` tells whether the
destructor of `v` makes a call on the same cache: it would lock a mutex its thread owns, which is undefined behaviour
(`none`).  `old` is the content of the variable given to `get`. -/
def callWith (uses : V → Bool) (old : V) (c : Call K V) (s : State K V) : Option (State K V × Ret V) :=
  if (overwritten old c s ++ destroyed (body noFaults c) s).any uses then none else call c s

end Pluto.Lru
