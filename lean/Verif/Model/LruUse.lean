import Verif.Model.Lru
import Verif.Spec.LruUse

/-!
# Programs that use an `lru_cache` (`include/pluto/lru_cache.hpp`)

A program that does the same with caches of different capacities; what it calls depends on what the calls return.
-/

namespace Pluto.Lru
open Pluto.Spec.Lru
variable {K V : Type} [DecidableEq K]

/-- One use, by the calls of lines 51-114, and whether it was a hit. -/
def use (s : State K V) : Use K V → Option (State K V × Bool)
  | .get k =>
    match call (.get k) s with
    | some (s', .value v) => some (s', v.isSome)
    | _ => none
  | .fetch k v =>
    match call (.get k) s with
    | some (s', .value (some _)) => some (s', true)
    | some (s', .value none) =>
      match call (.insert k v) s' with
      | some (s'', _) => some (s'', false)
      | none => none
    | _ => none
  | .assign k v =>
    match call (.insertOrAssign k v) s with
    | some (s', .bool b) => some (s', !b)
    | _ => none
  | .contains k =>
    match call (.contains k) s with
    | some (s', .bool b) => some (s', b)
    | _ => none
  | .remove k =>
    match call (.remove k) s with
    | some (s', .bool b) => some (s', b)
    | _ => none
  | .clear =>
    match call .clear s with
    | some (s', _) => some (s', false)
    | none => none

/-- Several uses (lines 51-114), and which were hits. -/
def uses (s : State K V) : List (Use K V) → Option (State K V × List Bool)
  | [] => some (s, [])
  | u :: us =>
    match use s u with
    | none => none
    | some (s', b) =>
      match uses s' us with
      | none => none
      | some (s'', bs) => some (s'', b :: bs)

end Pluto.Lru
