import Verif.Model.Res

/-!
# Model of `include/pluto/string.hpp`: splitting, joining, replacing, stripping

A `std::basic_string<Elem>` is the list of its elements.  `std::size_t` positions
are natural numbers and `npos` is `none`, so positions do not wrap (a string that
makes them wrap does not fit into memory).  The member functions of
`std::basic_string` used by the code are given first, by their definition in the
C++ standard; they are trusted.  The loops are then those of the code, on the
positions used by the code.
-/

namespace Pluto.Str

variable {α : Type}

/-! ## Members of `std::basic_string` (trusted) -/

/-- `s[i]` for reading, [string.access]: undefined beyond the end.  (The code never
reads `s[s.size()]`, which would be the terminator.)  `string.hpp` 1113-1140, 1685, 1703. -/
def at' (s : List α) (i : Nat) : Res α :=
  match s[i]? with
  | some c => .ok c
  | none => .error .undefined

/-- `basic_string(s, pos, n)`, [string.cons]: throws if `pos > s.size()`, else the at
most `n` elements from `pos`; `n = none` is `npos`.  `string.hpp` 1190, 1198, 1202, 1257. -/
def substr (s : List α) (pos : Nat) (n : Option Nat) : Res (List α) :=
  if s.length < pos then .error .outOfRange
  else .ok (match n with
    | some n => (s.drop pos).take n
    | none => s.drop pos)

/-- `s.replace(pos, n, with)`, [string.replace]: throws if `pos > s.size()`.  `string.hpp` 1565, 1628. -/
def replaceAt (s : List α) (pos n : Nat) (w : List α) : Res (List α) :=
  if s.length < pos then .error .outOfRange
  else .ok (s.take pos ++ w ++ s.drop (pos + n))

/-- `s.erase(pos, n)`, [string.erase]: throws if `pos > s.size()`; `n = none` is
`npos`.  `string.hpp` 1690, 1710. -/
def erase (s : List α) (pos : Nat) (n : Option Nat) : Res (List α) :=
  if s.length < pos then .error .outOfRange
  else .ok (match n with
    | some n => s.take pos ++ s.drop (pos + n)
    | none => s.take pos)

/-- `s.find(needle, pos)`, [string.find]: the lowest position `j >= pos` at which
`needle` is found, `none` if there is none.  `string.hpp` 1196, 1563. -/
def find [DecidableEq α] (s needle : List α) (pos : Nat) : Option Nat :=
  (List.range (s.length + 1)).find? fun j => decide (pos ≤ j) && needle.isPrefixOf (s.drop j)

/-- `s.find_first_of(set, pos)`, [string.find.first.of].  `string.hpp` 1256, 1626. -/
def findFirstOf [DecidableEq α] (s set : List α) (pos : Nat) : Option Nat :=
  (List.range s.length).find? fun j => decide (pos ≤ j) && s[j]?.any (fun c => set.contains c)

/-- `s.find_first_not_of(set, pos)`, [string.find.first.not.of]; `pos = none` is `npos`.  `string.hpp` 1254. -/
def findFirstNotOf [DecidableEq α] (s set : List α) (pos : Option Nat) : Option Nat :=
  match pos with
  | none => none
  | some pos =>
    (List.range s.length).find? fun j => decide (pos ≤ j) && s[j]?.any (fun c => !set.contains c)

/-! ## A character classification

`std::ctype<Elem>` of the given locale is arbitrary: any classification and any case
mapping. -/

/-- The part of `std::ctype<Elem>` used by the library (`use_facet`,
`include/pluto/locale.hpp`).  `locale.hpp` 65-69. -/
structure Ctype (α : Type) where
  /-- `is(std::ctype_base::space, c)` -/
  space : α → Bool
  /-- `is(std::ctype_base::upper, c)` -/
  isUpper : α → Bool
  /-- `is(std::ctype_base::lower, c)` -/
  isLower : α → Bool
  /-- `toupper(c)` -/
  toUpper : α → α
  /-- `tolower(c)` -/
  toLower : α → α

/-! ## The code -/

/-- Inner loop of `split`, `string.hpp` 1127-1130: advance `stop` to the next space.
The fuel is `string.size() - stop`. -/
def nonSpaceEnd (ct : Ctype α) (s : List α) (fuel stop : Nat) : Res Nat :=
    if stop < s.length then
      match fuel with
      | 0 => .error .outOfFuel
      | fuel + 1 => do
        let c ← at' s stop
        if !ct.space c then nonSpaceEnd ct s fuel (stop + 1) else pure stop
    else pure stop

/-- Loop of `split(string, locale)`, `string.hpp` 1117-1134. -/
def splitSpaceLoop (ct : Ctype α) (s : List α) (fuel start : Nat)
    (splits : List (List α)) : Res (List (List α)) :=
    if start < s.length then
      match fuel with
      | 0 => .error .outOfFuel
      | fuel + 1 => do
        let c ← at' s start
        if ct.space c then splitSpaceLoop ct s fuel (start + 1) splits
        else do
          let stop ← nonSpaceEnd ct s s.length (start + 1)
          let piece ← substr s start (some (stop - start))
          splitSpaceLoop ct s fuel (stop + 1) (splits ++ [piece])
    else pure splits

/-- `split(string, locale)`, `string.hpp` 1108-1137 (and the overloads 1139-1176 that
forward to it). -/
def splitSpace (ct : Ctype α) (s : List α) : Res (List (List α)) :=
  splitSpaceLoop ct s s.length 0 []

/-- Loop of `split` for an empty separator, `string.hpp` 1188-1191. -/
def splitCharsLoop (s : List α) (fuel i : Nat) (splits : List (List α)) :
    Res (List (List α)) :=
    if i < s.length then
      match fuel with
      | 0 => .error .outOfFuel
      | fuel + 1 => do
        let piece ← substr s i (some 1)
        splitCharsLoop s fuel (i + 1) (splits ++ [piece])
    else pure splits

/-- Loop of `split` for a non-empty separator and the last piece, `string.hpp`
1195-1202. -/
def splitLoop [DecidableEq α] (s sep : List α) (fuel start : Nat)
    (splits : List (List α)) : Res (List (List α)) :=
    match find s sep start with
    | some stop =>
      match fuel with
      | 0 => .error .outOfFuel
      | fuel + 1 => do
        let piece ← substr s start (some (stop - start))
        splitLoop s sep fuel (stop + sep.length) (splits ++ [piece])
    | none => do
      let piece ← substr s start none
      pure (splits ++ [piece])

/-- `split(string, separator)`, `string.hpp` 1178-1206 (and the overloads 1208-1244). -/
def split [DecidableEq α] (s sep : List α) : Res (List (List α)) :=
  if sep.isEmpty then splitCharsLoop s s.length 0 []
  else splitLoop s sep s.length 0 []

/-- Loop of `split_any_of`, `string.hpp` 1254-1258.  When no separator follows, `stop`
is `npos`, the piece extends to the end and the next search from `npos` finds
nothing. -/
def splitAnyLoop [DecidableEq α] (s sep : List α) (fuel : Nat) (stop : Option Nat)
    (splits : List (List α)) : Res (List (List α)) :=
    match findFirstNotOf s sep stop with
    | some start =>
      match fuel with
      | 0 => .error .outOfFuel
      | fuel + 1 => do
        let stop := findFirstOf s sep start
        let piece ← substr s start (stop.map (· - start))
        splitAnyLoop s sep fuel stop (splits ++ [piece])
    | none => pure splits

/-- `split_any_of(string, separator)`, `string.hpp` 1247-1261 (overloads 1263-1300). -/
def splitAnyOf [DecidableEq α] (s sep : List α) : Res (List (List α)) :=
  splitAnyLoop s sep s.length (some 0) []

/-- Loop of `map_join`, `string.hpp` 1431-1439; `first` is `it == begin`. -/
def mapJoinLoop {β : Type} (sep : List α) (f : β → List α) :
    Bool → List α → List β → List α
  | _, joined, [] => joined
  | first, joined, x :: xs =>
    let joined := if !first then joined ++ sep else joined
    mapJoinLoop sep f false (joined ++ f x) xs

/-- `map_join(begin, end, separator, function)`, `string.hpp` 1423-1442 (overloads and
container forms 1444-1554 forward to it). -/
def mapJoin {β : Type} (xs : List β) (sep : List α) (f : β → List α) : List α :=
  mapJoinLoop sep f true [] xs

/-- Loop of `join`, `string.hpp` 1309-1317; `first` is `it == begin`. -/
def joinLoop (sep : List α) : Bool → List α → List (List α) → List α
  | _, joined, [] => joined
  | first, joined, p :: ps =>
    let joined := if !first then joined ++ sep else joined
    joinLoop sep false (joined ++ p) ps

/-- `join(begin, end, separator)`, `string.hpp` 1302-1320 (overloads and container
forms 1322-1421 forward to it). -/
def join (ps : List (List α)) (sep : List α) : List α :=
  joinLoop sep true [] ps

/-- Loop of `replace`, `string.hpp` 1563-1572. -/
def replaceLoop [DecidableEq α] (fnd w : List α) (fuel : Nat) (s : List α) (start : Nat) :
    Res (List α) :=
    match find s fnd start with
    | some start =>
      match fuel with
      | 0 => .error .outOfFuel
      | fuel + 1 => do
        let s ← replaceAt s start fnd.length w
        let start := start + w.length
        let start := if fnd.isEmpty then start + 1 else start
        replaceLoop fnd w fuel s start
    | none => pure s

/-- `replace(string, find, replace)`, `string.hpp` 1556-1573 (overloads 1575-1617), for
three different objects: `find` and `replace` are references, and here neither is
`string` itself (see `replaceSelf`).  The value is that of `string` afterwards. -/
def replace [DecidableEq α] (s fnd w : List α) : Res (List α) :=
  replaceLoop fnd w (s.length + 1) s 0

/-- Loop of `replace_any_of`, `string.hpp` 1626-1630. -/
def replaceAnyLoop [DecidableEq α] (fnd w : List α) (fuel : Nat) (s : List α) (start : Nat) :
    Res (List α) :=
    match findFirstOf s fnd start with
    | some start =>
      match fuel with
      | 0 => .error .outOfFuel
      | fuel + 1 => do
        let s ← replaceAt s start 1 w
        replaceAnyLoop fnd w fuel s (start + w.length)
    | none => pure s

/-- `replace_any_of(string, find, replace)`, `string.hpp` 1619-1631 (overloads
1633-1675), for three different objects. -/
def replaceAnyOf [DecidableEq α] (s fnd w : List α) : Res (List α) :=
  replaceAnyLoop fnd w s.length s 0

/-- Loop of `replace(string, find, string)`, `string.hpp` 1563-1572, called with the
string itself as the replacement: `replace` is a reference to `string`, so
`string.replace` inserts the old contents and `replace.size()` is the new size. -/
def replaceSelfLoop [DecidableEq α] (fnd : List α) (fuel : Nat) (s : List α) (start : Nat) :
    Res (List α) :=
    match find s fnd start with
    | some start =>
      match fuel with
      | 0 => .error .outOfFuel
      | fuel + 1 => do
        let s ← replaceAt s start fnd.length s
        let start := start + s.length
        let start := if fnd.isEmpty then start + 1 else start
        replaceSelfLoop fnd fuel s start
    | none => pure s

/-- `replace(string, find, string)`, `string.hpp` 1556-1573, with the string itself as
the replacement. -/
def replaceSelf [DecidableEq α] (s fnd : List α) : Res (List α) :=
  replaceSelfLoop fnd (s.length + 1) s 0

/-- Loop of `lstrip`, `string.hpp` 1685-1688. -/
def lstripLoop (ct : Ctype α) (s : List α) (fuel start : Nat) : Res Nat :=
    if start < s.length then
      match fuel with
      | 0 => .error .outOfFuel
      | fuel + 1 => do
        let c ← at' s start
        if ct.space c then lstripLoop ct s fuel (start + 1) else pure start
    else pure start

/-- `lstrip(string, locale)`, `string.hpp` 1677-1691. -/
def lstrip (ct : Ctype α) (s : List α) : Res (List α) := do
  let start ← lstripLoop ct s s.length 0
  erase s 0 (some start)

/-- Loop of `rstrip`, `string.hpp` 1701-1708: `stop` counts down, so no fuel is
needed. -/
def rstripLoop (ct : Ctype α) (s : List α) : Nat → Res Nat
  | 0 => pure 0
  | stop + 1 => do
    let c ← at' s stop
    if !ct.space c then pure (stop + 1) else rstripLoop ct s stop

/-- `rstrip(string, locale)`, `string.hpp` 1693-1711. -/
def rstrip (ct : Ctype α) (s : List α) : Res (List α) := do
  let stop ← rstripLoop ct s s.length
  erase s stop none

/-- `strip(string, locale)`, `string.hpp` 1713-1720. -/
def strip (ct : Ctype α) (s : List α) : Res (List α) := do
  let s ← rstrip ct s
  lstrip ct s

/-- `lower(string, locale)`, `string.hpp` 35-50: `ctype::tolower(begin, end)`, which
replaces each element. -/
def lower (ct : Ctype α) (s : List α) : List α := s.map ct.toLower

/-- `upper(string, locale)`, `string.hpp` 60-75. -/
def upper (ct : Ctype α) (s : List α) : List α := s.map ct.toUpper

/-- `is_lower(pElem, size, locale)`, `string.hpp` 85-103 (strings 105-150). -/
def isLower (ct : Ctype α) : List α → Bool
  | [] => true
  | c :: s => if ct.isUpper c then false else isLower ct s

/-- `is_upper(pElem, size, locale)`, `string.hpp` 160-178 (strings 180-225). -/
def isUpper (ct : Ctype α) : List α → Bool
  | [] => true
  | c :: s => if ct.isLower c then false else isUpper ct s

end Pluto.Str
