import Verif.Spec.LogWhole

/-! # Several names for one log file: specification -/

namespace Pluto.Spec.Log
open Pluto.Log

/-- The entries of one name among entries of several. -/
def ofName (name : Nat) (es : List (Nat × Entry)) : List Entry :=
  es.filterMap fun x => if x.1 = name then some x.2 else none

/-- The entry a piece of a file contains, with the name it was logged for. -/
def namedEntry (c : Chunk) : Option (Nat × Entry) :=
  match c.kind with
  | .entry n e => some (n, e)
  | _ => none

end Pluto.Spec.Log
