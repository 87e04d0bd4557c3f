import Verif.Model.Str

/-!
# Model of `replace` and `replace_any_of` with one object for several parameters

The parameters `find` and `replace` are references (`include/pluto/string.hpp` 1559-1560, 1622-1623), so each of them may
refer to the string that is changed.  What it refers to is then read again whenever the parameter is used.  That
`std::basic_string::replace` inserts the old contents if the string itself is given is trusted, as in Model/Str.lean.
-/

namespace Pluto.Alias
open Pluto.Str

variable {α : Type}

/-- What a parameter refers to.  The parameters of `string.hpp` 1559-1560 and 1622-1623. -/
inductive Ref (α : Type) where
  /-- the string that is changed -/
  | self
  /-- another string -/
  | other (t : List α)

/-- The value of a parameter while the string is `s`.  Read in `string.hpp` 1563-1566 and 1626-1629. -/
def Ref.value (s : List α) : Ref α → List α
  | .self => s
  | .other t => t

/-- Loop of `replace`, `string.hpp` 1563-1572. -/
def replaceLoop [DecidableEq α] (fnd w : Ref α) (fuel : Nat) (s : List α) (start : Nat) : Res (List α) :=
  match find s (fnd.value s) start with
  | some start =>
    match fuel with
    | 0 => .error .outOfFuel
    | fuel + 1 => do
      let s ← replaceAt s start (fnd.value s).length (w.value s)
      let start := start + (w.value s).length
      let start := if (fnd.value s).isEmpty then start + 1 else start
      replaceLoop fnd w fuel s start
  | none => pure s

/-- `replace(string, find, replace)`, `string.hpp` 1556-1573.  The value is that of `string` afterwards. -/
def replace [DecidableEq α] (s : List α) (fnd w : Ref α) : Res (List α) := replaceLoop fnd w (s.length + 1) s 0

/-- Loop of `replace_any_of`, `string.hpp` 1626-1630. -/
def replaceAnyLoop [DecidableEq α] (fnd w : Ref α) (fuel : Nat) (s : List α) (start : Nat) : Res (List α) :=
  match findFirstOf s (fnd.value s) start with
  | some start =>
    match fuel with
    | 0 => .error .outOfFuel
    | fuel + 1 => do
      let s ← replaceAt s start 1 (w.value s)
      replaceAnyLoop fnd w fuel s (start + (w.value s).length)
  | none => pure s

/-- `replace_any_of(string, find, replace)`, `string.hpp` 1619-1631. -/
def replaceAnyOf [DecidableEq α] (s : List α) (fnd w : Ref α) : Res (List α) := replaceAnyLoop fnd w s.length s 0

end Pluto.Alias
