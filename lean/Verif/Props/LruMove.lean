import Verif.Proofs.LruMove

/-!
# Moving a `lru_cache` (C98)

`ops os []` executes the operations `os` on caches that are created, called, moved and swapped; `Spec.Lru.ops os []`
is what abstract caches do, where a move transfers the contents.
-/

namespace Pluto.Props
open Pluto.Lru
open Pluto.Spec.Lru (Op)
variable {K V : Type} [DecidableEq K]

/-- C98: whatever is done to any number of caches that are created, called, moved and swapped, all calls return what
abstract caches return: a cache that was moved or swapped has the contents, order and capacity of its source, and the
source is an empty cache of its old capacity that can be used like any other.  No call is undefined (the only undefined
operations are those of caches that do not exist, and of moving a cache to itself). -/
theorem C98_moves (os : List (Op K V)) : (ops os []).map (·.2) = (Spec.Lru.ops os []).map (·.2) := ops_sim .nil os

/-- A full cache is moved, the source is used again, both are swapped, and one is moved over the other. -/
example : (ops [.create 2, .call 0 (.insert 1 10), .call 0 (.insert 2 20), .call 0 (.get 1), .moveNew 0,
      .call 0 .size, .call 0 (.insert 7 70), .call 1 (.insert 3 30), .call 1 (.get 2), .call 1 (.get 1), .swap 0 1,
      .call 0 (.get 3), .call 1 (.get 7), .moveTo 0 1, .call 1 (.get 3), .call 0 (.contains 3), .call 0 .capacity]
      ([] : List (State Nat Nat))).map (·.2) =
    some [.unit, .bool true, .bool true, .value (some 10), .unit, .nat 0, .bool true, .bool true, .value none,
      .value (some 10), .unit, .value (some 30), .value (some 70), .unit, .value (some 30), .bool false, .nat 2] := by
  decide

end Pluto.Props
