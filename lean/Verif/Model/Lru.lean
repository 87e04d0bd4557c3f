import Verif.Model.Prog
import Verif.Spec.Lru

/-!
# Model of `include/pluto/lru_cache.hpp`

`std::list<Key>` is a list of nodes; a node has an identity, which plays the role of its iterator, and a key.
Identities are never reused, so a dangling iterator is always recognised.
`std::map<Key, std::pair<Value, iterator>>` is an association list; its order is irrelevant.
Key equivalence (`!(a < b) && !(b < a)`) is equality of keys.
Every access to `m_list`, `m_map`, `m_capacity` is one atomic step.  Using a list iterator that does not belong to the
list, and `--m_list.end()` on an empty list, is undefined behaviour (`Prog.ub`).
-/

namespace Pluto.Lru

variable {K V : Type} [DecidableEq K]

/-- The data members (lru_cache.hpp L28-30); `next` is the next unused node identity (memory allocator). -/
structure State (K V : Type) where
  capacity : Nat
  list : List (Nat × K)
  map : List (K × (V × Nat))
  next : Nat
  deriving DecidableEq, Repr

/-- The places at which memory allocation, copying a key or value, or comparing keys may throw.
`lru_cache.hpp` 53, 92-98, 105, 120, 131-132, 140, 154. -/
inductive Fault
  /-- the comparisons of `m_map.find(key)`, L53, L92, L105 and L120 -/
  | find
  /-- the comparisons of `m_map.erase(*itList)`, L164, when the map has `size` entries -/
  | erase (size : Nat)
  /-- `m_list.push_front(key)`, L131 and L154 -/
  | pushFront
  /-- `m_map.emplace(key, std::make_pair(value, m_list.begin()))`, L132, including its comparisons -/
  | emplace
  /-- `value = itMap->second.first`, L98 -/
  | copyOut
  /-- `itMap->second.first = value`, L140 (assumed to leave the old value in place when it throws) -/
  | assign
  deriving DecidableEq, Repr

/-- Which of the places throw.  `lru_cache.hpp` 33-166. -/
abbrev Faults := Fault → Bool

/-- Nothing throws.  `lru_cache.hpp` 33-166. -/
def noFaults : Faults := fun _ => false

/-- `explicit lru_cache(capacity)`, L33-34. -/
def init (capacity : Nat) : State K V := { capacity := capacity, list := [], map := [], next := 0 }

/-- `m_map.find(key)`.  `lru_cache.hpp` 53, 92, 105, 120. -/
def mapFind (m : List (K × (V × Nat))) (k : K) : Option (V × Nat) :=
  (m.find? (fun e => decide (e.1 = k))).map (·.2)

/-- `m_map.erase(key)` / `m_map.erase(itMap)`.  `lru_cache.hpp` 112, 164. -/
def mapErase (m : List (K × (V × Nat))) (k : K) : List (K × (V × Nat)) := m.filter (fun e => decide (e.1 ≠ k))

/-- `m_map.emplace(key, x)`: no effect if the key is present.  `lru_cache.hpp` 132. -/
def mapEmplace (m : List (K × (V × Nat))) (k : K) (x : V × Nat) : List (K × (V × Nat)) :=
  if (mapFind m k).isSome then m else (k, x) :: m

/-- Assignment through a map iterator, `itMap->second.first = value` and `itMap->second.second = it`.
`lru_cache.hpp` 140, 156. -/
def mapUpdate (m : List (K × (V × Nat))) (k : K) (f : V × Nat → V × Nat) : List (K × (V × Nat)) :=
  m.map (fun e => if e.1 = k then (e.1, f e.2) else e)

/-- `m_list.erase(it)`; erasing a node that is not in the list is undefined behaviour.  `lru_cache.hpp` 111, 153, 165. -/
def listErase (id : Nat) : Prog (State K V) Unit :=
  Prog.guarded (fun s => s.list.any (fun n => decide (n.1 = id)))
    (fun s => { s with list := s.list.filter (fun n => decide (n.1 ≠ id)) })

/-- `m_list.push_front(key)`: allocates a node.  `lru_cache.hpp` 131, 154. -/
def listPushFront (k : K) : Prog (State K V) Unit :=
  Prog.modify (fun s => { s with list := (s.next, k) :: s.list, next := s.next + 1 })

/-- `m_list.begin()` as node identity (`none` = `end()`).  `lru_cache.hpp` 132, 151, 156. -/
def listBegin : Prog (State K V) (Option Nat) := Prog.read (fun s => s.list.head?.map (·.1))

/-- `size()`, L36-39. -/
def size : Prog (State K V) Nat := Prog.read (fun s => s.map.length)

/-- `capacity()`, L41-44. -/
def capacity : Prog (State K V) Nat := Prog.read (fun s => s.capacity)

/-- `empty()`, L46-49. -/
def empty : Prog (State K V) Bool := Prog.read (fun s => s.map.isEmpty)

/-- `contains(key)`, L51-54. -/
def contains (f : Faults) (k : K) : Prog (State K V) Bool :=
  Prog.orThrow (f .find) (Prog.read (fun s => (mapFind s.map k).isSome))

/-- `clear()`, L56-60. -/
def clear : Prog (State K V) Unit := do
  Prog.modify (fun s => { s with map := [] })
  Prog.modify (fun s => { s with list := [] })

/-- `evict_lru()`, L160-166: `--m_list.end()` on an empty list is undefined behaviour. -/
def evictLru (f : Faults) : Prog (State K V) Unit := do
  let (last, n) ← Prog.read (fun s => (s.list.getLast?, s.map.length))
  match last with
  | none => .ub
  | some node =>
    Prog.orThrow (f (.erase n)) (Prog.modify (fun s => { s with map := mapErase s.map node.2 }))
    listErase node.1

/-- The loop `while (m_capacity < size()) { evict_lru(); }`, L73-76.  Every iteration shortens the list by one node, and
`evict_lru` on an empty list is undefined behaviour, so `fuel` = number of list nodes iterations are enough: with no
fuel left the list is empty and one more iteration is undefined behaviour. -/
def shrink (f : Faults) : Nat → Prog (State K V) Unit
  | 0 => do
    let c ← Prog.read (fun s => s.capacity)
    let n ← size
    if c < n then .ub else pure ()
  | fuel + 1 => do
    let c ← Prog.read (fun s => s.capacity)
    let n ← size
    if c < n then do
      evictLru f
      shrink f fuel
    else pure ()

/-- `capacity(newCapacity)`, L62-78. -/
def setCapacity (f : Faults) (n : Nat) : Prog (State K V) Unit := do
  Prog.modify (fun s => { s with capacity := n })
  let c ← Prog.read (fun s => s.capacity)
  if c = 0 then clear
  else do
    let fuel ← Prog.read (fun s => s.list.length)
    shrink f fuel

/-- `move_to_front(itMap)`, L147-158, for the map entry of key `k`. -/
def moveToFront (f : Faults) (k : K) : Prog (State K V) Unit := do
  let entry ← Prog.read (fun s => mapFind s.map k)
  match entry with
  | none => .ub
  | some (_, itList) =>
    let begin' ← listBegin
    if begin' = some itList then pure ()
    else do
      listErase itList
      Prog.orThrow (f .pushFront) (listPushFront k)
      let front ← listBegin
      match front with
      | none => .ub
      | some front => Prog.modify (fun s => { s with map := mapUpdate s.map k (fun e => (e.1, front)) })

/-- private `insert(key, value, orAssign)`, L117-145. -/
def insertImpl (f : Faults) (k : K) (v : V) (orAssign : Bool) : Prog (State K V) Bool := do
  let itMap ← Prog.orThrow (f .find) (Prog.read (fun s => mapFind s.map k))
  match itMap with
  | none =>
    let c ← Prog.read (fun s => s.capacity)
    if c ≠ 0 then do
      let n ← size
      if c ≤ n then evictLru f else pure ()
      Prog.orThrow (f .pushFront) (listPushFront k)
      let front ← listBegin
      match front with
      | none => .ub
      | some front =>
        Prog.orThrow (f .emplace) (Prog.modify (fun s => { s with map := mapEmplace s.map k (v, front) }))
        pure true
    else pure true
  | some _ =>
    if orAssign then do
      Prog.orThrow (f .assign) (Prog.modify (fun s => { s with map := mapUpdate s.map k (fun e => (v, e.2)) }))
      moveToFront f k
      pure false
    else pure false

/-- `insert(key, value)`, L80-83. -/
def insert (f : Faults) (k : K) (v : V) : Prog (State K V) Bool := insertImpl f k v false

/-- `insert_or_assign(key, value)`, L85-88. -/
def insertOrAssign (f : Faults) (k : K) (v : V) : Prog (State K V) Bool := insertImpl f k v true

/-- `get(key, value)`, L90-101: `none` = returned false and left `value` alone. -/
def get (f : Faults) (k : K) : Prog (State K V) (Option V) := do
  let itMap ← Prog.orThrow (f .find) (Prog.read (fun s => mapFind s.map k))
  match itMap with
  | none => pure none
  | some (v, _) => do
    Prog.orThrow (f .copyOut) (pure ())
    moveToFront f k
    pure (some v)

/-- `remove(key)`, L103-114. -/
def remove (f : Faults) (k : K) : Prog (State K V) Bool := do
  let itMap ← Prog.orThrow (f .find) (Prog.read (fun s => mapFind s.map k))
  match itMap with
  | none => pure false
  | some (_, itList) => do
    listErase itList
    Prog.modify (fun s => { s with map := mapErase s.map k })
    pure true

open Pluto.Spec.Lru (Call Ret)

/-- The body executed for each public call (lru_cache.hpp L36-114); the types of calls and results are those of the
specification. -/
def body (f : Faults) : Call K V → Prog (State K V) (Ret V)
  | .size => do let n ← size; pure (.nat n)
  | .capacity => do let n ← capacity; pure (.nat n)
  | .empty => do let b ← empty; pure (.bool b)
  | .contains k => do let b ← contains f k; pure (.bool b)
  | .clear => do clear; pure .unit
  | .setCapacity n => do setCapacity f n; pure .unit
  | .insert k v => do let b ← insert f k v; pure (.bool b)
  | .insertOrAssign k v => do let b ← insertOrAssign f k v; pure (.bool b)
  | .get k => do let v ← get f k; pure (.value v)
  | .remove k => do let b ← remove f k; pure (.bool b)

/-- One call, executed alone, in which nothing throws: `none` is undefined behaviour (or an exception).
The methods are `lru_cache.hpp` 36-114. -/
def call (c : Call K V) (s : State K V) : Option (State K V × Ret V) :=
  match (body noFaults c).run s with
  | (.ok r, s') => some (s', r)
  | _ => none

/-- A sequence of calls, executed by one thread, with all results.  The methods are `lru_cache.hpp` 36-114. -/
def calls : List (Call K V) → State K V → Option (State K V × List (Ret V))
  | [], s => some (s, [])
  | c :: cs, s =>
    match call c s with
    | none => none
    | some (s', r) =>
      match calls cs s' with
      | none => none
      | some (s'', rs) => some (s'', r :: rs)

/-- One call in which the places in `f` throw: `none` is undefined behaviour, otherwise the state afterwards and the
outcome (a result or an exception).  The methods are `lru_cache.hpp` 36-114. -/
def faultyCall (f : Faults) (c : Call K V) (s : State K V) : Option (State K V × Out (Ret V)) :=
  match (body f c).run s with
  | (.ub, _) => none
  | (o, s') => some (s', o)

/-- A sequence of calls, each with its own failures.  The methods are `lru_cache.hpp` 36-114. -/
def faultyCalls : List (Faults × Call K V) → State K V → Option (State K V × List (Out (Ret V)))
  | [], s => some (s, [])
  | (f, c) :: cs, s =>
    match faultyCall f c s with
    | none => none
    | some (s', r) =>
      match faultyCalls cs s' with
      | none => none
      | some (s'', rs) => some (s'', r :: rs)

/-- The contents of the cache in order of use, most recent first (the order of `m_list`, the values of `m_map`).
`lru_cache.hpp` 29-30. -/
def contents (s : State K V) : List (K × Option V) := s.list.map (fun n => (n.2, (mapFind s.map n.2).map (·.1)))

/-- The failures after which the cache is still consistent: reading out or assigning a value may throw, and so may
the allocation of a list node for a new key in `insert`, the search for a key and the eviction by `insert` and
`insert_or_assign`.  `lru_cache.hpp` 98, 140. -/
def Benign (f : Faults) : Call K V → Prop
  | .insert _ _ => f .emplace = false
  | .insertOrAssign _ _ => f .emplace = false ∧ f .pushFront = false
  | .get _ => f .pushFront = false
  | .setCapacity _ => ∀ size, f (.erase size) = false
  | _ => True

end Pluto.Lru
