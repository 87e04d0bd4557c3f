/-!
# Model of `include/pluto/unicode.hpp`

Units are `UInt8`, `UInt16`, `UInt32` bit patterns (`char`, `char8_t`, `char16_t`, `char32_t`, `wchar_t` are all
reduced to their bit pattern, as the `static_cast<unsigned ...>` at the start of each loop body does).
Inside a loop body the C++ code computes with `int` or `unsigned long`; all values are non-negative and below
2^21 (or are only compared), so `Nat` arithmetic is exact.  A read of the input at index `i` is `p[i]?`; a read
outside the input makes the whole result `none` (undefined behaviour).
`push_back` appends to the output string, whose previous content is kept.
-/

namespace Pluto.Unicode

/-- The `for (std::size_t i{ 0 }; i < size; ++i)` loop shared by the six converters
(unicode.hpp L26, L118, L187, L277, L335, L380).  The body at `i` returns by how much it advanced `i` itself
(`++i`, `i += 2`, `i += 3`) and the units it pushed. -/
def scan {β : Type} (size : Nat) (body : Nat → Option (Nat × List β)) (i : Nat) (out : List β) :
    Option (List β) :=
  if i < size then
    match body i with
    | none => none
    | some (adv, units) => scan size body (i + adv + 1) (out ++ units)
  else some out
termination_by size - i

/-- unicode.hpp L28-97: loop body of `utf8_to_utf16`. -/
def utf8ToUtf16Body (p : List UInt8) (i : Nat) : Option (Nat × List UInt16) := do
  let elem := (← p[i]?).toNat
  if elem < 0x80 then some (0, [UInt16.ofNat elem])
  else if elem < 0xC2 then some (0, [0xFFFD])
  else if elem < 0xE0 then
    if i + 1 < p.length then do
      let elem2 := (← p[i + 1]?).toNat
      if 0x7F < elem2 ∧ elem2 < 0xC0 then
        some (1, [UInt16.ofNat (((elem &&& 0x1F) <<< 6) ||| (elem2 &&& 0x3F))])
      else some (0, [0xFFFD])
    else some (0, [0xFFFD])
  else if elem < 0xF0 then
    if i + 2 < p.length then do
      let elem2 := (← p[i + 1]?).toNat
      let elem3 := (← p[i + 2]?).toNat
      if 0x7F < elem2 ∧ elem2 < 0xC0 ∧ 0x7F < elem3 ∧ elem3 < 0xC0 then
        let codePoint := ((elem &&& 0xF) <<< 12) ||| ((elem2 &&& 0x3F) <<< 6) ||| (elem3 &&& 0x3F)
        if (0x7FF < codePoint ∧ codePoint < 0xD800) ∨ 0xDFFF < codePoint then
          some (2, [UInt16.ofNat codePoint])
        else some (0, [0xFFFD])
      else some (0, [0xFFFD])
    else some (0, [0xFFFD])
  else if elem < 0xF8 then
    if i + 3 < p.length then do
      let elem2 := (← p[i + 1]?).toNat
      let elem3 := (← p[i + 2]?).toNat
      let elem4 := (← p[i + 3]?).toNat
      if 0x7F < elem2 ∧ elem2 < 0xC0 ∧ 0x7F < elem3 ∧ elem3 < 0xC0 ∧ 0x7F < elem4 ∧ elem4 < 0xC0 then
        let codePoint := ((elem &&& 0x7) <<< 18) ||| ((elem2 &&& 0x3F) <<< 12) |||
          ((elem3 &&& 0x3F) <<< 6) ||| (elem4 &&& 0x3F)
        if 0xFFFF < codePoint ∧ codePoint < 0x110000 then
          let codePoint := codePoint - 0x10000
          some (3, [UInt16.ofNat ((codePoint >>> 10) + 0xD800), UInt16.ofNat ((codePoint &&& 0x3FF) + 0xDC00)])
        else some (0, [0xFFFD])
      else some (0, [0xFFFD])
    else some (0, [0xFFFD])
  else some (0, [0xFFFD])

/-- unicode.hpp L17-99: `utf8_to_utf16(pElem8, size, utf16)`; `out` is the previous content of `utf16`. -/
def utf8ToUtf16 (p : List UInt8) (out : List UInt16) : Option (List UInt16) :=
  scan p.length (utf8ToUtf16Body p) 0 out

/-- unicode.hpp L120-166: loop body of `utf16_to_utf8`.  (The inner test `elem < 0x10000` at L135 is kept.) -/
def utf16ToUtf8Body (p : List UInt16) (i : Nat) : Option (Nat × List UInt8) := do
  let elem := (← p[i]?).toNat
  if elem < 0x80 then some (0, [UInt8.ofNat elem])
  else if elem < 0x800 then
    some (0, [UInt8.ofNat (0xC0 ||| (elem >>> 6)), UInt8.ofNat (0x80 ||| (elem &&& 0x3F))])
  else if elem < 0xD800 ∨ 0xDFFF < elem then
    if elem < 0x10000 then
      some (0, [UInt8.ofNat (0xE0 ||| (elem >>> 12)), UInt8.ofNat (0x80 ||| ((elem >>> 6) &&& 0x3F)),
        UInt8.ofNat (0x80 ||| (elem &&& 0x3F))])
    else some (0, [0xEF, 0xBF, 0xBD])
  else if elem < 0xDC00 then
    if i + 1 < p.length then do
      let elem2 := (← p[i + 1]?).toNat
      if 0xDBFF < elem2 ∧ elem2 < 0xE000 then
        let codePoint := (((elem &&& 0x3FF) <<< 10) ||| (elem2 &&& 0x3FF)) + 0x10000
        some (1, [UInt8.ofNat (0xF0 ||| (codePoint >>> 18)), UInt8.ofNat (0x80 ||| ((codePoint >>> 12) &&& 0x3F)),
          UInt8.ofNat (0x80 ||| ((codePoint >>> 6) &&& 0x3F)), UInt8.ofNat (0x80 ||| (codePoint &&& 0x3F))])
      else some (0, [0xEF, 0xBF, 0xBD])
    else some (0, [0xEF, 0xBF, 0xBD])
  else some (0, [0xEF, 0xBF, 0xBD])

/-- unicode.hpp L109-168: `utf16_to_utf8`. -/
def utf16ToUtf8 (p : List UInt16) (out : List UInt8) : Option (List UInt8) :=
  scan p.length (utf16ToUtf8Body p) 0 out

/-- unicode.hpp L189-256: loop body of `utf8_to_utf32`. -/
def utf8ToUtf32Body (p : List UInt8) (i : Nat) : Option (Nat × List UInt32) := do
  let elem := (← p[i]?).toNat
  if elem < 0x80 then some (0, [UInt32.ofNat elem])
  else if elem < 0xC2 then some (0, [0xFFFD])
  else if elem < 0xE0 then
    if i + 1 < p.length then do
      let elem2 := (← p[i + 1]?).toNat
      if 0x7F < elem2 ∧ elem2 < 0xC0 then
        some (1, [UInt32.ofNat (((elem &&& 0x1F) <<< 6) ||| (elem2 &&& 0x3F))])
      else some (0, [0xFFFD])
    else some (0, [0xFFFD])
  else if elem < 0xF0 then
    if i + 2 < p.length then do
      let elem2 := (← p[i + 1]?).toNat
      let elem3 := (← p[i + 2]?).toNat
      if 0x7F < elem2 ∧ elem2 < 0xC0 ∧ 0x7F < elem3 ∧ elem3 < 0xC0 then
        let codePoint := ((elem &&& 0xF) <<< 12) ||| ((elem2 &&& 0x3F) <<< 6) ||| (elem3 &&& 0x3F)
        if (0x7FF < codePoint ∧ codePoint < 0xD800) ∨ 0xDFFF < codePoint then
          some (2, [UInt32.ofNat codePoint])
        else some (0, [0xFFFD])
      else some (0, [0xFFFD])
    else some (0, [0xFFFD])
  else if elem < 0xF8 then
    if i + 3 < p.length then do
      let elem2 := (← p[i + 1]?).toNat
      let elem3 := (← p[i + 2]?).toNat
      let elem4 := (← p[i + 3]?).toNat
      if 0x7F < elem2 ∧ elem2 < 0xC0 ∧ 0x7F < elem3 ∧ elem3 < 0xC0 ∧ 0x7F < elem4 ∧ elem4 < 0xC0 then
        let codePoint := ((elem &&& 0x7) <<< 18) ||| ((elem2 &&& 0x3F) <<< 12) |||
          ((elem3 &&& 0x3F) <<< 6) ||| (elem4 &&& 0x3F)
        if 0xFFFF < codePoint ∧ codePoint < 0x110000 then
          some (3, [UInt32.ofNat codePoint])
        else some (0, [0xFFFD])
      else some (0, [0xFFFD])
    else some (0, [0xFFFD])
  else some (0, [0xFFFD])

/-- unicode.hpp L178-258: `utf8_to_utf32`. -/
def utf8ToUtf32 (p : List UInt8) (out : List UInt32) : Option (List UInt32) :=
  scan p.length (utf8ToUtf32Body p) 0 out

/-- The platform dependent choices in `static_cast<unsigned long>(pElem32[i])` (unicode.hpp L279, L382):
whether `Elem32` is a signed type (`wchar_t` on Linux) and whether `unsigned long` has 64 bits. -/
structure Elem32Kind where
  isSigned : Bool
  ulong64 : Bool

/-- unicode.hpp L279, L382: `static_cast<unsigned long>(pElem32[i])`, with sign extension for a signed `Elem32`. -/
def toULong (k : Elem32Kind) (x : UInt32) : Nat :=
  if k.isSigned = true ∧ 2 ^ 31 ≤ x.toNat ∧ k.ulong64 = true then 2 ^ 64 - 2 ^ 32 + x.toNat else x.toNat

/-- unicode.hpp L279-314: loop body of `utf32_to_utf8`. -/
def utf32ToUtf8Body (k : Elem32Kind) (p : List UInt32) (i : Nat) : Option (Nat × List UInt8) := do
  let codePoint := toULong k (← p[i]?)
  if codePoint < 0x80 then some (0, [UInt8.ofNat codePoint])
  else if codePoint < 0x800 then
    some (0, [UInt8.ofNat (0xC0 ||| (codePoint >>> 6)), UInt8.ofNat (0x80 ||| (codePoint &&& 0x3F))])
  else if codePoint < 0x10000 then
    if codePoint < 0xD800 ∨ 0xDFFF < codePoint then
      some (0, [UInt8.ofNat (0xE0 ||| (codePoint >>> 12)), UInt8.ofNat (0x80 ||| ((codePoint >>> 6) &&& 0x3F)),
        UInt8.ofNat (0x80 ||| (codePoint &&& 0x3F))])
    else some (0, [0xEF, 0xBF, 0xBD])
  else if codePoint < 0x110000 then
    some (0, [UInt8.ofNat (0xF0 ||| (codePoint >>> 18)), UInt8.ofNat (0x80 ||| ((codePoint >>> 12) &&& 0x3F)),
      UInt8.ofNat (0x80 ||| ((codePoint >>> 6) &&& 0x3F)), UInt8.ofNat (0x80 ||| (codePoint &&& 0x3F))])
  else some (0, [0xEF, 0xBF, 0xBD])

/-- unicode.hpp L268-316: `utf32_to_utf8`. -/
def utf32ToUtf8 (k : Elem32Kind) (p : List UInt32) (out : List UInt8) : Option (List UInt8) :=
  scan p.length (utf32ToUtf8Body k p) 0 out

/-- unicode.hpp L337-359: loop body of `utf16_to_utf32`. -/
def utf16ToUtf32Body (p : List UInt16) (i : Nat) : Option (Nat × List UInt32) := do
  let elem := (← p[i]?).toNat
  if elem < 0xD800 ∨ (0xDFFF < elem ∧ elem < 0x10000) then some (0, [UInt32.ofNat elem])
  else if 0xD7FF < elem ∧ elem < 0xDC00 then
    if i + 1 < p.length then do
      let elem2 := (← p[i + 1]?).toNat
      if 0xDBFF < elem2 ∧ elem2 < 0xE000 then
        some (1, [UInt32.ofNat ((((elem &&& 0x3FF) <<< 10) ||| (elem2 &&& 0x3FF)) + 0x10000)])
      else some (0, [0xFFFD])
    else some (0, [0xFFFD])
  else some (0, [0xFFFD])

/-- unicode.hpp L326-361: `utf16_to_utf32`. -/
def utf16ToUtf32 (p : List UInt16) (out : List UInt32) : Option (List UInt32) :=
  scan p.length (utf16ToUtf32Body p) 0 out

/-- unicode.hpp L382-397: loop body of `utf32_to_utf16`. -/
def utf32ToUtf16Body (k : Elem32Kind) (p : List UInt32) (i : Nat) : Option (Nat × List UInt16) := do
  let codePoint := toULong k (← p[i]?)
  if codePoint < 0xD800 ∨ (0xDFFF < codePoint ∧ codePoint < 0x10000) then some (0, [UInt16.ofNat codePoint])
  else if 0xFFFF < codePoint ∧ codePoint < 0x110000 then
    let codePoint := codePoint - 0x10000
    some (0, [UInt16.ofNat ((codePoint >>> 10) + 0xD800), UInt16.ofNat ((codePoint &&& 0x3FF) + 0xDC00)])
  else some (0, [0xFFFD])

/-- unicode.hpp L371-399: `utf32_to_utf16`. -/
def utf32ToUtf16 (k : Elem32Kind) (p : List UInt32) (out : List UInt16) : Option (List UInt16) :=
  scan p.length (utf32ToUtf16Body k p) 0 out

/-! ## `str`, `wstr`, `u8str`, `u16str`, `u32str` (unicode.hpp L409-715) -/

/-- `PLUTO_UTILS_HAS_32_BIT_WCHAR` (version.hpp): `wchar_t` has 16 bits, or 32 bits (with the signedness of
`wchar_t` and the width of `unsigned long`). -/
inductive Platform
  | wchar16
  | wchar32 (k : Elem32Kind)

/-- The string types: `std::string`, `std::wstring`, `std::u8string`, `std::u16string`, `std::u32string`.
Parameters and results of `unicode.hpp` 14-718. -/
inductive StrKind
  | narrow | wide | u8 | u16 | u32

/-- The unit type of each string type, as a bit pattern.  Parameters of `unicode.hpp` 14-718. -/
abbrev Unit' (p : Platform) : StrKind → Type
  | .narrow => UInt8
  | .u8 => UInt8
  | .u16 => UInt16
  | .u32 => UInt32
  | .wide => match p with
    | .wchar16 => UInt16
    | .wchar32 _ => UInt32

/-- `char32_t` is an unsigned type; `unsigned long` has 64 bits or 32 bits depending on the platform.
For the loops of `unicode.hpp` 14-718. -/
def char32Kind (ulong64 : Bool) : Elem32Kind := { isSigned := false, ulong64 := ulong64 }

/-- The conversion from one string type to another:
`str(w)` L409-423, `str(u8)` L426-441, `str(u16)` L444-454, `str(u32)` L456-466,
`wstr(s)` L468-482, `wstr(u8)` L485-499, `wstr(u16)` L502-520, `wstr(u32)` L522-540,
`u8str(s)` L543-558, `u8str(w)` L560-574, `u8str(u16)` L576-586, `u8str(u32)` L588-598,
`u16str(s)` L601-611, `u16str(w)` L613-631, `u16str(u8)` L634-644, `u16str(u32)` L647-657,
`u32str(s)` L659-669, `u32str(w)` L671-689, `u32str(u8)` L692-702, `u32str(u16)` L705-715.
Conversions between types with units of the same size and encoding copy unit by unit (`push_back` loops); the
identity overloads are in string.hpp L227-293. `ul` says whether `unsigned long` has 64 bits. -/
def conv (ul : Bool) (p : Platform) (src dst : StrKind) (s : List (Unit' p src)) : Option (List (Unit' p dst)) :=
  match p, src, dst with
  | _, .narrow, .narrow => some s
  | _, .narrow, .u8 => some s
  | .wchar16, .narrow, .wide => utf8ToUtf16 s []
  | .wchar32 _, .narrow, .wide => utf8ToUtf32 s []
  | _, .narrow, .u16 => utf8ToUtf16 s []
  | _, .narrow, .u32 => utf8ToUtf32 s []
  | .wchar16, .wide, .narrow => utf16ToUtf8 s []
  | .wchar32 k, .wide, .narrow => utf32ToUtf8 k s []
  | .wchar16, .wide, .wide => some s
  | .wchar32 _, .wide, .wide => some s
  | .wchar16, .wide, .u8 => utf16ToUtf8 s []
  | .wchar32 k, .wide, .u8 => utf32ToUtf8 k s []
  | .wchar16, .wide, .u16 => some s
  | .wchar32 k, .wide, .u16 => utf32ToUtf16 k s []
  | .wchar16, .wide, .u32 => utf16ToUtf32 s []
  | .wchar32 _, .wide, .u32 => some s
  | _, .u8, .narrow => some s
  | .wchar16, .u8, .wide => utf8ToUtf16 s []
  | .wchar32 _, .u8, .wide => utf8ToUtf32 s []
  | _, .u8, .u8 => some s
  | _, .u8, .u16 => utf8ToUtf16 s []
  | _, .u8, .u32 => utf8ToUtf32 s []
  | _, .u16, .narrow => utf16ToUtf8 s []
  | .wchar16, .u16, .wide => some s
  | .wchar32 _, .u16, .wide => utf16ToUtf32 s []
  | _, .u16, .u8 => utf16ToUtf8 s []
  | _, .u16, .u16 => some s
  | _, .u16, .u32 => utf16ToUtf32 s []
  | _, .u32, .narrow => utf32ToUtf8 (char32Kind ul) s []
  | .wchar16, .u32, .wide => utf32ToUtf16 (char32Kind ul) s []
  | .wchar32 _, .u32, .wide => some s
  | _, .u32, .u8 => utf32ToUtf8 (char32Kind ul) s []
  | _, .u32, .u16 => utf32ToUtf16 (char32Kind ul) s []
  | _, .u32, .u32 => some s

end Pluto.Unicode
