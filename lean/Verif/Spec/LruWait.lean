import Verif.Spec.Lru

/-! # Calls that only read a cache (C158) -/

namespace Pluto.Spec.Lru

/-- The `const` methods. -/
def Reads {K V : Type} : Call K V → Prop
  | .size | .capacity | .empty | .contains _ => True
  | .insert _ _ | .insertOrAssign _ _ | .get _ | .remove _ | .clear | .setCapacity _ => False

end Pluto.Spec.Lru
