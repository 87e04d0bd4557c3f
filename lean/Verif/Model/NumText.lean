import Verif.Model.Num

/-!
# Model of `str` and `str_to` of `include/pluto/string.hpp` for characters, `bool` and strings

`str(value)` (237-243) is `ostringstream << value`, `str_to<Value>(string)` (295-301) is
`Value value; istringstream{ string } >> value; return value;`, both with default flags (`skipws`, no
`boolalpha`) and the "C" locale.  What differs is which operators of the standard library are called.  The wide
functions `wstr` (255-261) and `wstr_to` (309-315) are the same with wide characters.
-/

namespace Pluto.Num

/-- `str` of a character, [ostream.inserters.character].  `string.hpp` 237-243. -/
def strChar (c : Char) : List Char := [c]

/-- `str_to` of a character, [istream.extractors]: the first character after white space; if there is none,
`value` stays indeterminate.  `string.hpp` 295-301. -/
def strToChar (s : List Char) : Res Char :=
  match s.dropWhile isSpace with
  | [] => .error .undefined
  | c :: _ => .ok c

/-- `str` of a `bool`, [facet.num.put.virtuals]: as an integer.  `string.hpp` 237-243. -/
def strBool (b : Bool) : List Char := str (if b then 1 else 0)

/-- `str_to` of a `bool`, [facet.num.get.virtuals]: as a `long` (64 bits); 0 is false and every other number
true, also if it is out of range.  `string.hpp` 295-301. -/
def strToBool (s : List Char) : Res Bool :=
  match extract ⟨64, true⟩ s with
  | some v => .ok (v != 0)
  | none => .error .undefined

/-- `str_to` of a `std::string`, [string.io]: the next word; a string that is not assigned is empty.
`string.hpp` 295-301. -/
def strToString (s : List Char) : List Char := (s.dropWhile isSpace).takeWhile (fun c => !isSpace c)

/-- `str` of an `int8_t` (`signed char`) or `uint8_t` (`unsigned char`): these are character types, so the character
with that code is written.  `string.hpp` 237-243. -/
def strByte (v : Int) : List Char := strChar (Char.ofNat (v % 256).toNat)

/-- `str_to` of an `int8_t` (`signed`) or `uint8_t`, likewise: the code of the first character after white space.
`string.hpp` 295-301. -/
def strToByte (signed : Bool) (s : List Char) : Res Int :=
  (strToChar s).map fun c => if signed = true ∧ 128 ≤ c.toNat then (c.toNat : Int) - 256 else c.toNat

end Pluto.Num
