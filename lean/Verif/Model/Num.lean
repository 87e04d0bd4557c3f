import Verif.Model.Res

/-!
# Model of the number conversions of `include/pluto/string.hpp`

`bin`, `oct`, `hex`, `str` and `str_to` for integers.  A C++ integer of `n` bytes is an
`Int` together with `n`; signed values are in `[-2^(8n-1), 2^(8n-1))` and unsigned ones in
`[0, 2^(8n))`.  Bytes have eight bits.
-/

namespace Pluto.Num

/-- `value >> k` for a value of `bits` bits, [expr.shift]: narrow types are promoted to
`int` (32 bits), shifting by the width or more is undefined, and the shift of a negative
value rounds down (C++20; before that implementation-defined, and this on every
compiler the library supports).  `string.hpp` 1730, 1770, 1800. -/
def shr (bits : Nat) (value : Int) (k : Nat) : Res Int :=
  if max 32 bits ≤ k then .error .undefined else .ok (value / 2 ^ k)

/-- `x & mask` for a mask of the form `2^j - 1`, which all masks of the code are:
the `j` lowest bits of the two's complement representation.  `string.hpp` 1730, 1770, 1800. -/
def land (x : Int) (mask : Nat) : Nat := (x % ((mask : Int) + 1)).toNat

/-- Read access to a constant array of characters, undefined out of bounds.  `string.hpp` 1773, 1778, 1803, 1808. -/
def charAt (characters : List Char) (i : Nat) : Res Char :=
  match characters[i]? with
  | some c => .ok c
  | none => .error .undefined

/-- Loop of `bin`, `string.hpp` 1728-1740, from the value of `i` before `--i`. -/
def binLoop (bits : Nat) (value : Int) : Nat → List Char → Res (List Char)
  | 0, result => pure result
  | i + 1, result => do
    let x ← shr bits value i
    let digit := land x 1
    if !result.isEmpty then
      binLoop bits value i (result ++ [if digit ≠ 0 then '1' else '0'])
    else if digit ≠ 0 then
      binLoop bits value i ['0', 'b', '1']
    else
      binLoop bits value i result

/-- `bin(value)` for a value of `bytes` bytes, `string.hpp` 1722-1748. -/
def bin (bytes : Nat) (value : Int) : Res (List Char) := do
  let result ← binLoop (bytes * 8) value (bytes * 8) []
  pure (if result.isEmpty then ['0', 'b', '0'] else result)

/-- `lastBits` in `oct`, `string.hpp` 1760. -/
def lastBits : List Nat := [7, 1, 3]

/-- `lastBits[remainder]`, undefined out of bounds.  `string.hpp` 1770. -/
def lastBitsAt (i : Nat) : Res Nat :=
  match lastBits[i]? with
  | some m => .ok m
  | none => .error .undefined

/-- `(i == maxLength) ? lastBits[remainder] : 07`, `string.hpp` 1770. -/
def octMask (bits maxLength i : Nat) : Res Nat :=
  if i = maxLength then lastBitsAt (bits % 3) else .ok 7

/-- Loop of `oct`, `string.hpp` 1768-1780. -/
def octLoop (bits maxLength : Nat) (value : Int) : Nat → Nat → List Char → Res (List Char)
  | 0, _, result => pure result
  | i + 1, position, result => do
    let position := position - 3
    let x ← shr bits value position
    let mask ← octMask bits maxLength (i + 1)
    let digit := land x mask
    if !result.isEmpty then do
      let c ← charAt "01234567".toList digit
      octLoop bits maxLength value i position (result ++ [c])
    else if digit ≠ 0 then do
      let c ← charAt "01234567".toList digit
      octLoop bits maxLength value i position (['0', 'o'] ++ [c])
    else
      octLoop bits maxLength value i position result

/-- `oct(value)` for a value of `bytes` bytes, `string.hpp` 1750-1788. -/
def oct (bytes : Nat) (value : Int) : Res (List Char) := do
  let sizeInBits := bytes * 8
  let remainder := sizeInBits % 3
  let maxLength := (sizeInBits + (if remainder ≠ 0 then 3 - remainder else 0)) / 3
  let result ← octLoop sizeInBits maxLength value maxLength (maxLength * 3) []
  pure (if result.isEmpty then ['0', 'o', '0'] else result)

/-- Loop of `hex`, `string.hpp` 1798-1810. -/
def hexLoop (bits : Nat) (value : Int) : Nat → Nat → List Char → Res (List Char)
  | 0, _, result => pure result
  | i + 1, position, result => do
    let position := position - 4
    let x ← shr bits value position
    let digit := land x 15
    if !result.isEmpty then do
      let c ← charAt "0123456789abcdef".toList digit
      hexLoop bits value i position (result ++ [c])
    else if digit ≠ 0 then do
      let c ← charAt "0123456789abcdef".toList digit
      hexLoop bits value i position (['0', 'x'] ++ [c])
    else
      hexLoop bits value i position result

/-- `hex(value)` for a value of `bytes` bytes, `string.hpp` 1790-1818. -/
def hex (bytes : Nat) (value : Int) : Res (List Char) := do
  let maxLength := bytes * 2
  let result ← hexLoop (bytes * 8) value maxLength (maxLength * 4) []
  pure (if result.isEmpty then ['0', 'x', '0'] else result)

/-! ## Decimal text

`str` and `str_to` only call the stream operators.  What is modelled is `num_put` and
`num_get` of the standard, for the integer types other than the character types and
`bool`, with the default format flags (decimal, `skipws`) and a locale without digit
grouping. -/

/-- `str(value)`, `string.hpp` 237-243: `ostringstream << value`, [facet.num.put.virtuals],
`%d` or `%u`. -/
def str (value : Int) : List Char :=
  if value < 0 then '-' :: Nat.toDigits 10 value.natAbs else Nat.toDigits 10 value.natAbs

/-- `isspace` of the "C" locale, used by `skipws`.  For `string.hpp` 295-301. -/
def isSpace (c : Char) : Bool :=
  c == ' ' || c == '\t' || c == '\n' || c == '\x0b' || c == '\x0c' || c == '\r'

/-- The value of the digits that come next, and whether there is any: accumulation in
[facet.num.get.virtuals] stage 2 and `strtoll` in stage 3.  For `string.hpp` 295-301. -/
def readDigits : List Char → Bool → Nat → Bool × Nat
  | [], any, acc => (any, acc)
  | c :: s, any, acc =>
    if c.isDigit then readDigits s true (acc * 10 + (c.toNat - 48)) else (any, acc)

/-- An integer type: its width and whether it is signed.  The type `Value` of `string.hpp` 237-301. -/
structure IntType where
  bits : Nat
  signed : Bool
deriving DecidableEq, Repr

/-- Smallest value of the type.  The type `Value` of `string.hpp` 237-301. -/
def IntType.min (t : IntType) : Int := if t.signed then -2 ^ (t.bits - 1) else 0

/-- Largest value of the type.  The type `Value` of `string.hpp` 237-301. -/
def IntType.max (t : IntType) : Int :=
  if t.signed then 2 ^ (t.bits - 1) - 1 else 2 ^ t.bits - 1

/-- Stage 3 of [facet.num.get.virtuals]: no digits give zero, a value out of range the
nearest value of the type; for an unsigned type a minus sign negates modulo `2^bits` what
is in range and gives the maximum otherwise (`strtoull`).  For `string.hpp` 295-301. -/
def convert (t : IntType) (neg any : Bool) (magnitude : Nat) : Int :=
  if !any then 0
  else if t.signed then
    let v : Int := if neg then -(magnitude : Int) else magnitude
    if v < t.min then t.min else if t.max < v then t.max else v
  else if t.max < magnitude then t.max
  else if neg then (-(magnitude : Int)) % 2 ^ t.bits
  else magnitude

/-- `istringstream{s} >> value` for an integer: `some v` if `value` is assigned `v`, `none`
if it is left alone, because the sentry found no character after the white space.  `string.hpp` 295-301. -/
def extract (t : IntType) (s : List Char) : Option Int :=
  match s.dropWhile isSpace with
  | [] => none
  | '-' :: r => let (any, m) := readDigits r false 0; some (convert t true any m)
  | '+' :: r => let (any, m) := readDigits r false 0; some (convert t false any m)
  | c :: r => let (any, m) := readDigits (c :: r) false 0; some (convert t false any m)

/-- `str_to<Value>(string)`, `string.hpp` 295-301: `Value value;` is not initialised, so
that reading it is undefined unless the stream assigned it. -/
def strTo (t : IntType) (s : List Char) : Res Int :=
  match extract t s with
  | some v => .ok v
  | none => .error .undefined

end Pluto.Num
