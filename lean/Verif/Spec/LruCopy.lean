import Verif.Spec.Lru

/-!
# Specification of a copied cache

An ideal copy is the abstract cache itself.  The copy the code makes is usable only as long as no call uses one of the
keys that came with the copy and have been in the cache ever since.
-/

namespace Pluto.Spec.Lru
variable {K V : Type} [DecidableEq K]

/-- The key a call moves or takes out, if it is in the cache. -/
def Call.uses : Call K V → Option K
  | .get k => some k
  | .remove k => some k
  | .insertOrAssign k _ => some k
  | _ => none

/-- The keys of a cache. -/
def Cache.keys (c : Cache K V) : List K := c.items.map (·.1)

/-- Whether some call uses one of the keys `old`, keys that leave the cache being dropped from `old`. -/
def usesOld (c : Cache K V) (old : List K) : List (Call K V) → Prop
  | [] => False
  | a :: as =>
    (∃ k ∈ old, a.uses = some k) ∨
      usesOld (c.step a).1 (old.filter fun k => decide (k ∈ (c.step a).1.keys)) as

end Pluto.Spec.Lru
