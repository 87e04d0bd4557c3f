import Verif.Model.Lru

/-!
# Model of `include/pluto/lru_cache.hpp` for keys of any order

`Verif/Model/Lru.lean` takes keys that are equivalent to be equal.  Here the keys have an operator `<`, called `less`, of which
nothing is assumed, and `std::map` is a list in the order of the tree.  It searches as [associative.reqmts] has it: `find` is
`lower_bound` followed by one comparison; a search in the tree visits other elements than one from the front, but ends at the
same one if `less` is a strict weak order, or if there is only one element.  A map iterator is a position in the list.  The
methods are executed alone, and nothing throws.  `none` is undefined behaviour.
-/

namespace Pluto.LruOrder

open Pluto.Lru (State)
open Pluto.Spec.Lru (Call Ret)

variable {K V : Type} (less : K → K → Bool)

/-- `m_map.lower_bound(key)`: the first element that is not less than the key.  For `lru_cache.hpp` 53, 92, 105, 120. -/
def lowerBound (m : List (K × (V × Nat))) (k : K) : Nat := (m.takeWhile (fun e => less e.1 k)).length

/-- `m_map.find(key)`; `none` is `m_map.end()`.  `lru_cache.hpp` 53, 92, 105, 120. -/
def mapFind (m : List (K × (V × Nat))) (k : K) : Option Nat :=
  match m[lowerBound less m k]? with
  | none => none
  | some e => if less k e.1 then none else some (lowerBound less m k)

/-- `m_map.erase(key)`: every element that is equivalent to the key.  `lru_cache.hpp` 164. -/
def mapErase (m : List (K × (V × Nat))) (k : K) : List (K × (V × Nat)) :=
  m.take (lowerBound less m k) ++ (m.drop (lowerBound less m k)).dropWhile (fun e => !less k e.1)

/-- `m_map.emplace(key, x)`: no effect if an equivalent key is present.  `lru_cache.hpp` 132. -/
def mapEmplace (m : List (K × (V × Nat))) (k : K) (x : V × Nat) : List (K × (V × Nat)) :=
  match mapFind less m k with
  | some _ => m
  | none => m.take (lowerBound less m k) ++ (k, x) :: m.drop (lowerBound less m k)

/-- `m_list.erase(it)`; erasing a node that is not in the list is undefined behaviour.  `lru_cache.hpp` 111, 153, 165. -/
def listErase (s : State K V) (id : Nat) : Option (State K V) :=
  if s.list.any (fun n => decide (n.1 = id)) then
    some { s with list := s.list.filter (fun n => decide (n.1 ≠ id)) }
  else none

/-- `m_list.push_front(key)`: allocates a node.  `lru_cache.hpp` 131, 154. -/
def listPushFront (s : State K V) (k : K) : State K V :=
  { s with list := (s.next, k) :: s.list, next := s.next + 1 }

/-- `contains(key)`, L51-54. -/
def contains (s : State K V) (k : K) : Bool := (mapFind less s.map k).isSome

/-- `clear()`, L56-60. -/
def clear (s : State K V) : State K V := { s with map := [], list := [] }

/-- `evict_lru()`, L160-166: `--m_list.end()` on an empty list is undefined behaviour. -/
def evictLru (s : State K V) : Option (State K V) :=
  match s.list.getLast? with
  | none => none
  | some node => listErase { s with map := mapErase less s.map node.2 } node.1

/-- The loop `while (m_capacity < size()) { evict_lru(); }`, L73-76.  Every iteration shortens the list, and `evict_lru` on an
empty list is undefined behaviour, so `fuel` = number of list nodes is enough. -/
def shrink : Nat → State K V → Option (State K V)
  | 0, s => if s.capacity < s.map.length then none else some s
  | fuel + 1, s =>
    if s.capacity < s.map.length then
      match evictLru less s with
      | none => none
      | some s => shrink fuel s
    else some s

/-- `capacity(newCapacity)`, L62-78. -/
def setCapacity (s : State K V) (n : Nat) : Option (State K V) :=
  let s := { s with capacity := n }
  if n = 0 then some (clear s) else shrink less s.list.length s

/-- `move_to_front(itMap)`, L147-158. -/
def moveToFront (s : State K V) (itMap : Nat) : Option (State K V) :=
  match s.map[itMap]? with
  | none => none
  | some (k, (_, itList)) =>
    if s.list.head?.map (·.1) = some itList then some s
    else
      match listErase s itList with
      | none => none
      | some s =>
        let s := listPushFront s k
        match s.list.head? with
        | none => none
        | some front => some { s with map := s.map.modify itMap (fun e => (e.1, (e.2.1, front.1))) }

/-- private `insert(key, value, orAssign)`, L117-145. -/
def insertImpl (s : State K V) (k : K) (v : V) (orAssign : Bool) : Option (State K V × Bool) :=
  match mapFind less s.map k with
  | none =>
    if s.capacity ≠ 0 then
      match (if s.capacity ≤ s.map.length then evictLru less s else some s) with
      | none => none
      | some s =>
        let s := listPushFront s k
        match s.list.head? with
        | none => none
        | some front => some ({ s with map := mapEmplace less s.map k (v, front.1) }, true)
    else some (s, true)
  | some itMap =>
    if orAssign then
      match moveToFront { s with map := s.map.modify itMap (fun e => (e.1, (v, e.2.2))) } itMap with
      | none => none
      | some s => some (s, false)
    else some (s, false)

/-- `get(key, value)`, L90-101: `none` = returned false and left `value` alone. -/
def get (s : State K V) (k : K) : Option (State K V × Option V) :=
  match mapFind less s.map k with
  | none => some (s, none)
  | some itMap =>
    match s.map[itMap]? with
    | none => none
    | some e =>
      match moveToFront s itMap with
      | none => none
      | some s => some (s, some e.2.1)

/-- `remove(key)`, L103-114. -/
def remove (s : State K V) (k : K) : Option (State K V × Bool) :=
  match mapFind less s.map k with
  | none => some (s, false)
  | some itMap =>
    match s.map[itMap]? with
    | none => none
    | some e =>
      match listErase s e.2.2 with
      | none => none
      | some s => some ({ s with map := s.map.eraseIdx itMap }, true)

/-- One call, L36-114; the types of calls and results are those of the specification. -/
def call (c : Call K V) (s : State K V) : Option (State K V × Ret V) :=
  match c with
  | .size => some (s, .nat s.map.length)
  | .capacity => some (s, .nat s.capacity)
  | .empty => some (s, .bool s.map.isEmpty)
  | .contains k => some (s, .bool (contains less s k))
  | .clear => some (clear s, .unit)
  | .setCapacity n => (setCapacity less s n).map (·, .unit)
  | .insert k v => (insertImpl less s k v false).map (fun r => (r.1, .bool r.2))
  | .insertOrAssign k v => (insertImpl less s k v true).map (fun r => (r.1, .bool r.2))
  | .get k => (get less s k).map (fun r => (r.1, .value r.2))
  | .remove k => (remove less s k).map (fun r => (r.1, .bool r.2))

/-- A sequence of calls, with all results.  `lru_cache.hpp` 36-114. -/
def calls : List (Call K V) → State K V → Option (State K V × List (Ret V))
  | [], s => some (s, [])
  | c :: cs, s =>
    match call less c s with
    | none => none
    | some (s', r) =>
      match calls cs s' with
      | none => none
      | some (s'', rs) => some (s'', r :: rs)

end Pluto.LruOrder
