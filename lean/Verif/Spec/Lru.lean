/-!
# Specification of a least-recently-used cache

A cache is a capacity and a list of (key, value) pairs, the most recently used first.
Nothing here refers to the model of the C++ code.
-/

namespace Pluto.Spec.Lru

variable {K V : Type} [DecidableEq K]

/-- The public calls. -/
inductive Call (K V : Type)
  | size
  | capacity
  | empty
  | contains (k : K)
  | clear
  | setCapacity (n : Nat)
  | insert (k : K) (v : V)
  | insertOrAssign (k : K) (v : V)
  | get (k : K)
  | remove (k : K)
  deriving DecidableEq, Repr

/-- What a call returns; `value none` is a `get` that returned false. -/
inductive Ret (V : Type)
  | unit
  | nat (n : Nat)
  | bool (b : Bool)
  | value (v : Option V)
  deriving DecidableEq, Repr

/-- The abstract cache. -/
structure Cache (K V : Type) where
  capacity : Nat
  items : List (K × V)
  deriving DecidableEq, Repr

/-- The value stored for a key. -/
def Cache.lookup (c : Cache K V) (k : K) : Option V := (c.items.find? (fun e => decide (e.1 = k))).map (·.2)

/-- All pairs except that of key `k`. -/
def Cache.without (c : Cache K V) (k : K) : List (K × V) := c.items.filter (fun e => decide (e.1 ≠ k))

/-- The effect and the result of each call. -/
def Cache.step (c : Cache K V) : Call K V → Cache K V × Ret V
  | .size => (c, .nat c.items.length)
  | .capacity => (c, .nat c.capacity)
  | .empty => (c, .bool (c.items.length = 0))
  | .contains k => (c, .bool (c.lookup k).isSome)
  | .clear => ({ c with items := [] }, .unit)
  | .setCapacity n => ({ capacity := n, items := c.items.take n }, .unit)
  | .insert k v =>
    if (c.lookup k).isSome then (c, .bool false)
    else if c.items.length < c.capacity then ({ c with items := (k, v) :: c.items }, .bool true)
    else if c.capacity = 0 then (c, .bool true)
    else ({ c with items := (k, v) :: c.items.dropLast }, .bool true)
  | .insertOrAssign k v =>
    if (c.lookup k).isSome then ({ c with items := (k, v) :: c.without k }, .bool false)
    else if c.items.length < c.capacity then ({ c with items := (k, v) :: c.items }, .bool true)
    else if c.capacity = 0 then (c, .bool true)
    else ({ c with items := (k, v) :: c.items.dropLast }, .bool true)
  | .get k =>
    match c.lookup k with
    | none => (c, .value none)
    | some v => ({ c with items := (k, v) :: c.without k }, .value (some v))
  | .remove k =>
    if (c.lookup k).isSome then ({ c with items := c.without k }, .bool true) else (c, .bool false)

/-- A sequence of calls on the abstract cache, with all results. -/
def Cache.steps (c : Cache K V) : List (Call K V) → Cache K V × List (Ret V)
  | [] => (c, [])
  | call :: calls =>
    let r := c.step call
    let rs := r.1.steps calls
    (rs.1, r.2 :: rs.2)

/-- The distinct elements of a list, in order of first occurrence. -/
def distinct : List K → List K
  | [] => []
  | k :: ks => k :: (distinct ks).filter (fun x => decide (x ≠ k))

/-- The `n` most recently used distinct keys of a history (oldest first), most recent first. -/
def mostRecent (n : Nat) (history : List K) : List K := (distinct history.reverse).take n

/-- The value stored for `k` by the last call of a history (oldest first) that stored one: an `insert` that returned
true or any `insert_or_assign`. -/
def lastStored (k : K) : List (Call K V × Ret V) → Option V
  | [] => none
  | (c, r) :: h =>
    match lastStored k h with
    | some v => some v
    | none =>
      match c, r with
      | .insert k' v, .bool true => if k' = k then some v else none
      | .insertOrAssign k' v, _ => if k' = k then some v else none
      | _, _ => none

/-- Calls that only observe, and calls that were refused. -/
def Refused : Call K V → Ret V → Prop
  | .size, _ => True
  | .capacity, _ => True
  | .empty, _ => True
  | .contains _, _ => True
  | .get _, .value none => True
  | .remove _, .bool false => True
  | .insert _ _, .bool false => True
  | _, _ => False

end Pluto.Spec.Lru
