import Verif.Spec.Lru

/-!
# Specification: keys that are only compared

Nothing here refers to the model of the C++ code.
-/

namespace Pluto.Spec.Lru

/-- A strict weak order, as [alg.sorting] asks of `<`. -/
structure StrictWeak {K : Type} (less : K → K → Bool) : Prop where
  irrefl : ∀ a, less a a = false
  trans : ∀ a b c, less a b = true → less b c = true → less a c = true
  /-- to be incomparable is transitive -/
  incomparable : ∀ a b c, less a b = false → less b a = false → less b c = false → less c b = false →
    less a c = false ∧ less c a = false

/-- `cls` names the classes of keys that the order does not tell apart. -/
def Classes {K Q : Type} (less : K → K → Bool) (cls : K → Q) : Prop :=
  ∀ a b, cls a = cls b ↔ less a b = false ∧ less b a = false

/-- The same call with another key. -/
def Call.rename {K Q V : Type} (cls : K → Q) : Call K V → Call Q V
  | .size => .size
  | .capacity => .capacity
  | .empty => .empty
  | .contains k => .contains (cls k)
  | .clear => .clear
  | .setCapacity n => .setCapacity n
  | .insert k v => .insert (cls k) v
  | .insertOrAssign k v => .insertOrAssign (cls k) v
  | .get k => .get (cls k)
  | .remove k => .remove (cls k)

/-- Calls that differ at most in a key that the order does not tell apart. -/
inductive Alike {K V : Type} (less : K → K → Bool) : Call K V → Call K V → Prop
  | same (c : Call K V) : Alike less c c
  | contains {a b : K} : less a b = false → less b a = false → Alike less (.contains a) (.contains b)
  | insert {a b : K} (v : V) : less a b = false → less b a = false → Alike less (.insert a v) (.insert b v)
  | insertOrAssign {a b : K} (v : V) : less a b = false → less b a = false →
    Alike less (.insertOrAssign a v) (.insertOrAssign b v)
  | get {a b : K} : less a b = false → less b a = false → Alike less (.get a) (.get b)
  | remove {a b : K} : less a b = false → less b a = false → Alike less (.remove a) (.remove b)

end Pluto.Spec.Lru
