import Verif.Model.Num
import Verif.Model.LogText
import Verif.Model.FloatText

/-!
# Numbers in text when the global locale groups digits

`str`, `wstr`, `str_to` and `wstr_to` (`string.hpp` 237-243, 255-261, 295-301, 309-315) create a stream, and the logger opens
one for a file (`logger.hpp` 838).  A stream has the locale that is global when it is created; none of them changes that.
Its `numpunct` facet tells how `num_put` groups the digits of numbers, and which separators `num_get` ignores.
-/

namespace Pluto.Num

/-- The facet `std::numpunct` of the global locale, [facet.numpunct.virtuals]: `thousands_sep()`, `grouping()` and
`decimal_point()`.  A group size that means "no more groups" (not positive, or `CHAR_MAX`) is 0 here.
For the streams of `string.hpp` 240 and 299. -/
structure Punct where
  sep : Char
  grouping : List Nat
  point : Char := '.'
deriving DecidableEq, Repr

/-- The "C" locale.  For the streams of `string.hpp` 240 and 299. -/
def classic : Punct := { sep := ',', grouping := [] }

/-- Digits, the last one first, with separators: `g` is the size of the current group, of which `i` digits are done, and
`gs` are the sizes that follow; the last size goes on for ever, [facet.num.put.virtuals] stage 2.
For `string.hpp` 237-243. -/
def groupRev (sep : Char) : Nat → List Nat → Nat → List Char → List Char
  | _, _, _, [] => []
  | g, gs, i, d :: ds =>
    if g ≠ 0 ∧ i = g then
      match gs with
      | [] => sep :: d :: groupRev sep g [] 1 ds
      | g' :: gs' => sep :: d :: groupRev sep g' gs' 1 ds
    else d :: groupRev sep g gs (i + 1) ds

/-- The digits of a number with separators.  For `string.hpp` 237-243. -/
def Punct.group (p : Punct) (ds : List Char) : List Char :=
  match p.grouping with
  | [] => ds
  | g :: gs => (groupRev p.sep g gs 0 ds.reverse).reverse

/-- `str(value)` and `wstr(value)` of an integer, `string.hpp` 237-243 and 255-261, when `p` belongs to the global locale. -/
def strIn (p : Punct) (value : Int) : List Char :=
  if value < 0 then '-' :: p.group (Nat.toDigits 10 value.natAbs) else p.group (Nat.toDigits 10 value.natAbs)

/-- The value of the digits that come next, and whether there is any, [facet.num.get.virtuals] stage 2: separators are
ignored if the locale has groups.  If they are not where they should be, the stream is put into a failed state but the
value is the same; implementations may stop at a separator that does not follow a digit, which is not modelled.
For `string.hpp` 295-301. -/
def readDigitsIn (p : Punct) : List Char → Bool → Nat → Bool × Nat
  | [], any, acc => (any, acc)
  | c :: s, any, acc =>
    if c = p.sep ∧ p.grouping ≠ [] then readDigitsIn p s any acc
    else if c.isDigit then readDigitsIn p s true (acc * 10 + (c.toNat - 48))
    else (any, acc)

/-- `stream >> value` for an integer, as `extract`.  `string.hpp` 295-301. -/
def extractIn (p : Punct) (t : IntType) (s : List Char) : Option Int :=
  match s.dropWhile isSpace with
  | [] => none
  | '-' :: r => let (any, m) := readDigitsIn p r false 0; some (convert t true any m)
  | '+' :: r => let (any, m) := readDigitsIn p r false 0; some (convert t false any m)
  | c :: r => let (any, m) := readDigitsIn p (c :: r) false 0; some (convert t false any m)

/-- `str_to<Value>(string)` and `wstr_to<Value>(wstring)` for an integer type, `string.hpp` 295-301 and 309-315, when `p`
belongs to the global locale. -/
def strToIn (p : Punct) (t : IntType) (s : List Char) : Res Int :=
  match extractIn p t s with
  | some v => .ok v
  | none => .error .undefined

end Pluto.Num

namespace Pluto.FloatText
open Pluto.Num

/-- The text of a number without sign in a locale, [facet.num.put.virtuals] stage 2: the digits before the decimal point are
grouped, and the decimal point is that of the locale.  For `string.hpp` 237-243. -/
def localise (p : Punct) (s : List Char) : List Char :=
  p.group (s.takeWhile Char.isDigit) ++
    match s.dropWhile Char.isDigit with
    | '.' :: f => p.point :: f
    | r => r

/-- `str(value)` and `wstr(value)`, `string.hpp` 237-243 and 255-261, for a floating-point number, as `strFloat`, when `p`
belongs to the global locale. -/
def strFloatIn (p : Punct) (x : ℚ) : List Char :=
  if x = 0 then localise p ['0']
  else if x < 0 then '-' :: localise p (general (decimal (-x)).1 (decimal (-x)).2)
  else localise p (general (decimal x).1 (decimal x).2)

/-- What is collected of a number without sign, [facet.num.get.virtuals] stage 2: separators before the decimal point are
ignored if the locale has groups, the decimal point becomes a period, and another period ends the number.
For `string.hpp` 295-301. -/
def collect (p : Punct) : List Char → List Char
  | [] => []
  | c :: s =>
    if c = p.point then '.' :: s
    else if c = p.sep ∧ p.grouping ≠ [] then collect p s
    else if c.isDigit then c :: collect p s
    else if c = '.' then []
    else c :: s

/-- `stream >> value`, as `readNumber`.  `string.hpp` 295-301. -/
def readNumberIn (p : Punct) (s : List Char) : Res ℚ :=
  match s.dropWhile isSpace with
  | [] => .error .undefined
  | c :: s =>
    let r := readSign (c :: s)
    .ok (if r.1 then -readDecimal (collect p r.2) else readDecimal (collect p r.2))

/-- `str_to<Value>(string)` and `wstr_to<Value>(wstring)`, `string.hpp` 295-301 and 309-315, for a floating-point type with
`bits` significant bits, when `p` belongs to the global locale. -/
def strToFloatIn (p : Punct) (bits : ℕ) (s : List Char) : Res ℚ :=
  match readNumberIn p s with
  | .error e => .error e
  | .ok x => .ok (toBinary bits x)

end Pluto.FloatText

namespace Pluto.LogText
open Pluto.Num

/-- `default_log_writer`, `logger.hpp` 421-443, as `logWriter`, on a stream whose locale has `p`: the microseconds, the
thread id and the line are numbers. -/
def logWriterIn (p : Punct) (hide : Bool) (o : Out) (log : Record) : Res Out :=
  let o := (o.right.setfill '0').putTime (timeText log.localTime)
  let o := ((o.setw 6).put (strIn p (log.micros.tmod 1000000))).put ['|']
  let o := o.setfill ' '
  let o := ((o.setw 7).put (strIn p log.threadId)).put ['|']
  let o := o.left
  let o := ((o.setw 8).put (title log.level)).put ['|']
  if hide then .ok (o.put log.message)
  else
    match Value.fileName (log.file ++ ['\x00']) with
    | .error e => .error e
    | .ok k =>
      let o := ((o.setw 20).put ((log.file.drop k).take 20)).put ['|']
      let o := o.right
      let o := ((o.setw 5).put (strIn p log.line)).put ['|']
      let o := o.left
      let o := ((o.setw 20).put (log.function.take 20)).put ['|']
      .ok (o.put log.message)

end Pluto.LogText
