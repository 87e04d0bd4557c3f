import Verif.Model.Seq
import Verif.Model.Unicode

/-!
# Model of calls with string literals

For `equals`, `starts_with` and `ends_with` there are two overloads with two arguments: one for any containers
(`include/pluto/container.hpp` 17-42) and one for strings (`include/pluto/string.hpp` 334-350, 458-474, 587-603).  A
string literal is an array and so a container; it is a string only after a conversion.  If one of the arguments is a
literal, overload resolution ([over.match.best]) therefore chooses the overload for containers, whose range is the whole
array with the terminator.  The other functions of `string.hpp` have overloads for strings only, and a literal is
converted.

`wstr` of a narrow string is `unicode.hpp` 479-482, but for a literal the template of `string.hpp` 255-261 is the better
match, if that header is included; it writes the literal to a wide stream.

Simplified: overload resolution was done by reading; here its result is modelled.  `nul` is the terminator.
-/

namespace Pluto.Literal

variable {α : Type}

/-- An argument in a call.  Of the functions in `container.hpp` 17-42 and `string.hpp` 334-350, 458-474, 587-603. -/
inductive Arg (α : Type) where
  /-- a `std::basic_string` -/
  | string (s : List α)
  /-- a string literal, without its terminator -/
  | literal (t : List α)

variable [DecidableEq α]

/-- The range from `std::begin` to `std::end` of the argument, `container.hpp` 23, 32, 41. -/
def Arg.range (nul : α) : Arg α → List α
  | .string s => s
  | .literal t => t ++ [nul]

/-- The argument converted to a `std::basic_string`, [string.cons]: up to the first terminator.
For the parameters of `string.hpp` 334-350. -/
def Arg.toString (nul : α) : Arg α → List α
  | .string s => s
  | .literal t => (t ++ [nul]).takeWhile (· ≠ nul)

/-- The overload for strings is chosen for two strings, that for containers otherwise.
`container.hpp` 17-42; `string.hpp` 334-350, 458-474, 587-603. -/
def Arg.operands (nul : α) : Arg α → Arg α → List α × List α
  | .string s, .string t => (s, t)
  | l, r => (l.range nul, r.range nul)

/-- `equals(left, right, predicate)`, `container.hpp` 17-24 or `string.hpp` 334-350. -/
def equals (nul : α) (p : α → α → Bool) (l r : Arg α) : Bool :=
  Seq.equals p (l.operands nul r).1 (l.operands nul r).2

/-- `starts_with(left, right, predicate)`, `container.hpp` 26-33 or `string.hpp` 458-474, before C++20. -/
def startsWith (nul : α) (p : α → α → Bool) (l r : Arg α) : Bool :=
  Seq.startsWith p (l.operands nul r).1 (l.operands nul r).2

/-- The same from C++20 on.  `container.hpp` 26-33 or `string.hpp` 458-474. -/
def startsWithRandom (nul : α) (p : α → α → Bool) (l r : Arg α) : Res Bool :=
  Seq.startsWithRandom p (l.operands nul r).1 (l.operands nul r).2

/-- `ends_with(left, right, predicate)`, `container.hpp` 35-42 or `string.hpp` 587-603, before C++20. -/
def endsWith (nul : α) (p : α → α → Bool) (l r : Arg α) : Res Bool :=
  Seq.endsWith p (l.operands nul r).1 (l.operands nul r).2

/-- The same from C++20 on.  `container.hpp` 35-42 or `string.hpp` 587-603. -/
def endsWithRandom (nul : α) (p : α → α → Bool) (l r : Arg α) : Res Bool :=
  Seq.endsWithRandom p (l.operands nul r).1 (l.operands nul r).2

/-- `iequals(left, right, locale)`, `string.hpp` 403-417: there are overloads for strings only. -/
def iequals (nul : α) (ct : Str.Ctype α) (l r : Arg α) : Bool := Seq.iequals ct (l.toString nul) (r.toString nul)

/-- `istarts_with(left, right, locale)`, `string.hpp` 532-546, before C++20. -/
def istartsWith (nul : α) (ct : Str.Ctype α) (l r : Arg α) : Bool :=
  Seq.startsWith (Seq.isIequal ct) (l.toString nul) (r.toString nul)

/-- `contains(left, right, predicate)`, `string.hpp` 995-1011: likewise. -/
def contains (nul : α) (p : α → α → Bool) (l r : Arg α) : Bool :=
  Seq.contains p (l.toString nul) (r.toString nul)

/-- `wstr(x)` for a narrow string (`unicode.hpp` 468-482) or literal (`string.hpp` 255-261: `wostringstream << value`,
which writes `widen(c)` for every character up to the terminator, [ostream.inserters.character]). -/
def wstr (ul : Bool) (p : Unicode.Platform) (widen : UInt8 → Unicode.Unit' p .wide) :
    Arg UInt8 → Option (List (Unicode.Unit' p .wide))
  | .string s => Unicode.conv ul p .narrow .wide s
  | .literal t => some (((Arg.literal t).toString 0).map widen)

end Pluto.Literal
