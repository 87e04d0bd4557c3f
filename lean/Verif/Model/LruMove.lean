import Verif.Model.Lru
import Verif.Spec.LruMove

/-!
# Moving a `lru_cache` (include/pluto/lru_cache.hpp, L18-167)

The class declares neither copy nor move operations, so the compiler's are used, which move every member.  Several
caches are a list of states; a node identity is only ever looked up in the list of its own cache, and a list that is
moved takes its nodes along, so identities need only be unique in each cache.
-/

namespace Pluto.Lru
variable {K V : Type} [DecidableEq K]

/-- What a move makes of the source `s`: the destination and the source afterwards.  `m_capacity` (L28) is a number and
keeps its value in the source.  `m_list` (L29) and `m_map` (L30) hand over their nodes and are empty then; iterators
stored in the map refer to the same nodes as before, which are now those of the destination.  (The standard requires
that list and map are moved in constant time and that iterators stay valid.) -/
def moved (s : State K V) : State K V × State K V := (s, { s with list := [], map := [] })

open Pluto.Spec.Lru (Op Ret)

/-- One operation: the caches afterwards and what a call returned; `none` if it is undefined.  `lru_cache.hpp` 18-167. -/
def opStep (ss : List (State K V)) : Op K V → Option (List (State K V) × Ret V)
  | .create n => some (ss ++ [init n], .unit)
  | .call i c =>
    match ss[i]? with
    | none => none
    | some s => (call c s).map fun r => (ss.set i r.1, r.2)
  | .moveNew i =>
    match ss[i]? with
    | none => none
    | some s => some (ss.set i (moved s).2 ++ [(moved s).1], .unit)
  | .moveTo i j =>
    if i = j then none
    else match ss[i]?, ss[j]? with
    | some s, some _ => some ((ss.set j (moved s).1).set i (moved s).2, .unit)
    | _, _ => none
  | .swap i j =>
    if i = j then none
    else match ss[i]?, ss[j]? with
    | some a, some b =>
      let t := (moved a).1
      let a := (moved b).1
      some ((ss.set i a).set j (moved t).1, .unit)
    | _, _ => none

/-- Several operations, with all results.  `lru_cache.hpp` 18-167. -/
def ops : List (Op K V) → List (State K V) → Option (List (State K V) × List (Ret V))
  | [], ss => some (ss, [])
  | o :: os, ss =>
    match opStep ss o with
    | none => none
    | some (ss, r) => (ops os ss).map fun x => (x.1, r :: x.2)

end Pluto.Lru
