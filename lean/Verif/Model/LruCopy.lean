import Verif.Model.Lru

/-!
# Copying a `lru_cache` (include/pluto/lru_cache.hpp, L18-167)

The class declares no copy constructor and no copy assignment, so the compiler's are used: every member is copied.
-/

namespace Pluto.Lru
variable {K V : Type} [DecidableEq K]

/-- The nodes of a copied `std::list`: new nodes, numbered from `i`, with the same keys in the same order (the implicit
copy of `m_list`, L29). -/
def copyNodes (i : Nat) : List (Nat × K) → List (Nat × K)
  | [] => []
  | n :: l => (i, n.2) :: copyNodes (i + 1) l

/-- The implicitly declared copy constructor and copy assignment (no declaration in L33-114): the capacity (L28) and the
values of the map (L30) are copied; the list gets nodes of its own, but the iterators stored in the copied map are copied
as they are and still refer to the nodes of the source.  A node identity that is not in the list of the cache is an
iterator of another list, and `listErase` of it is undefined behaviour.  Simplified: copy assignment may reuse nodes the
destination already had; no iterator in the copied map refers to them, so giving them new numbers loses nothing. -/
def copy (s : State K V) : State K V :=
  { s with list := copyNodes s.next s.list, next := s.next + s.list.length }

end Pluto.Lru
