import Verif.Spec.Lru

/-!
# Which values a cache has taken and given up

Nothing here refers to the model of the C++ code.
-/

namespace Pluto.Spec.Lru
variable {K V : Type} [DecidableEq K] [DecidableEq V]

/-- The values of the pairs of `xs` that are not in `ys`. -/
def gone (xs ys : List (K × V)) : List V := (xs.filter (fun e => !ys.contains e)).map (·.2)

/-- The values a call puts into the cache. -/
def taken (c : Cache K V) : Call K V → List V
  | .insert k v => if (c.lookup k).isSome ∨ c.capacity = 0 then [] else [v]
  | .insertOrAssign k v => if (c.lookup k).isSome then [v] else if c.capacity = 0 then [] else [v]
  | _ => []

/-- The values a sequence of calls puts into the cache. -/
def takenAll (c : Cache K V) : List (Call K V) → List V
  | [] => []
  | call :: calls => taken c call ++ takenAll (c.step call).1 calls

/-- The value a call offers to the cache. -/
def offered : Call K V → List V
  | .insert _ v => [v]
  | .insertOrAssign _ v => [v]
  | _ => []

/-- What a call with this result overwrites in the variable given to `get`; `old` is the content of that variable. -/
def replaced (old : V) : Ret V → List V
  | .value (some _) => [old]
  | _ => []

/-- The values that the cache or the variable given to `get` loses in a call; `old` is the content of that variable. -/
def loses (old : V) (c : Cache K V) (call : Call K V) : List V :=
  gone c.items (c.step call).1.items ++ replaced old (c.step call).2

end Pluto.Spec.Lru
