import Verif.Model.Res

/-!
# Model of `range.hpp`, `value.hpp` and `file_name` of `platform.hpp`
-/

namespace Pluto.Value

/-! ## Ranges -/

/-- `pluto::range`, `range.hpp` 15-23. -/
structure Range (α : Type) where
  first : α
  last : α
deriving DecidableEq, Repr

section
variable {α : Type} [LT α] [LE α] [BEq α] [DecidableLT α] [DecidableLE α]

/-- `range::is_equal`, `range.hpp` 30-33. -/
def isEqual (r s : Range α) : Bool := r.first == s.first && r.last == s.last

/-- `range::is_overlapping`, `range.hpp` 35-38. -/
def isOverlapping (r s : Range α) : Bool :=
  r.first == s.first || (decide (r.first < s.last) && decide (s.first < r.last))

/-- `range::is_less`, `range.hpp` 40-43. -/
def isLess (r s : Range α) : Bool :=
  if r.first == s.first then decide (r.last < s.last) else decide (r.first < s.first)

/-- `range::is_less_no_overlap`, `range.hpp` 45-48. -/
def isLessNoOverlap (r s : Range α) : Bool := r.first != s.first && decide (r.last ≤ s.first)

/-- `range::operator==`, `range.hpp` 50-53. -/
def opEq (r s : Range α) : Bool := isEqual r s

/-- `range::operator!=`, `range.hpp` 55-58. -/
def opNe (r s : Range α) : Bool := !isEqual r s

/-- `range::operator<`, `range.hpp` 60-63. -/
def opLt (r s : Range α) : Bool := isLess r s

/-- `range::operator>`, `range.hpp` 65-68. -/
def opGt (r s : Range α) : Bool := isLess s r

/-- `range::operator<=`, `range.hpp` 70-73. -/
def opLe (r s : Range α) : Bool := !isLess s r

/-- `range::operator>=`, `range.hpp` 75-78. -/
def opGe (r s : Range α) : Bool := !isLess r s

end

/-- An integer type: width in bits and whether it is signed.  The type `Value` of `value.hpp` 17-61. -/
structure IntTy where
  bits : Nat
  signed : Bool
deriving DecidableEq, Repr

/-- The values of an integer type.  For `value.hpp` 20. -/
def IntTy.holds (t : IntTy) (v : Int) : Prop :=
  if t.signed then -2 ^ (t.bits - 1) ≤ v ∧ v < 2 ^ (t.bits - 1) else 0 ≤ v ∧ v < 2 ^ t.bits

/-- For `value.hpp` 20. -/
instance (t : IntTy) (v : Int) : Decidable (t.holds v) := by unfold IntTy.holds; infer_instance

/-- Integer promotion, [conv.prom], with an `int` of 32 bits: narrower types become
`int`.  For `value.hpp` 20 and `range.hpp` 27. -/
def promote (t : IntTy) : IntTy := if t.bits < 32 then ⟨32, true⟩ else t

/-- The result of an arithmetic operation of type `t` with mathematical result `v`: signed
overflow is undefined, unsigned arithmetic is modulo `2^bits`.  For `value.hpp` 20 and `range.hpp` 27. -/
def arith (t : IntTy) (v : Int) : Res Int :=
  if t.signed then (if t.holds v then .ok v else .error .undefined) else .ok (v % 2 ^ t.bits)

/-- Conversion to an integer type, modulo `2^bits` (defined so since C++20, and this on
every compiler the library supports).  For `value.hpp` 20. -/
def convertTo (t : IntTy) (v : Int) : Int :=
  if t.signed then (v + 2 ^ (t.bits - 1)) % 2 ^ t.bits - 2 ^ (t.bits - 1) else v % 2 ^ t.bits

/-- `range::size`, `range.hpp` 25-28, for integers: the type of the result is the promoted
type (`auto`). -/
def rangeSize (t : IntTy) (r : Range Int) : Res Int := arith (promote t) (r.last - r.first)

/-! ## Values -/

/-- `abs`, `value.hpp` 17-21, for integers: the conditional has the promoted type and is
converted to the type of the result. -/
def abs (t : IntTy) (value : Int) : Res Int :=
  if value < 0 then do
    let v ← arith (promote t) (-value)
    pure (convertTo t v)
  else pure (convertTo t value)

/-- `copy`, `value.hpp` 23-27. -/
def copy {α : Type} (value : α) : α := value

/-- The argument a reference refers to.  What `value.hpp` 29-61 returns. -/
inductive Arg where
  | left
  | right
deriving DecidableEq, Repr

/-- `min` with a predicate, `value.hpp` 37-44; the overload without one, 29-35, is the case
of `<`.  The result is a reference to one of the arguments. -/
def min {α : Type} (less : α → α → Bool) (left right : α) : Arg :=
  if less right left then .right else .left

/-- `max` with a predicate, `value.hpp` 54-61; the overload without one, 46-52, is the case
of `<`. -/
def max {α : Type} (less : α → α → Bool) (left right : α) : Arg :=
  if less left right then .right else .left

/-- The value a reference refers to.  What `value.hpp` 29-61 returns. -/
def Arg.get {α : Type} (left right : α) : Arg → α
  | .left => left
  | .right => right

/-! ## Names of files -/

/-- The loop of `file_name`, `platform.hpp` 27-33.  `memory` is what the pointer
`filePath` points to, `p` and `name` are the offsets of `pChar` and `fileName`.  Reading
past the end of the memory is undefined. -/
def fileNameLoop : List Char → Nat → Nat → Res Nat
  | [], _, _ => .error .undefined
  | c :: memory, p, name =>
    if c = '\x00' then .ok name
    else fileNameLoop memory (p + 1) (if c = '\\' ∨ c = '/' then p + 1 else name)

/-- `file_name`, `platform.hpp` 24-36: the offset of the result from `filePath`. -/
def fileName (memory : List Char) : Res Nat := fileNameLoop memory 0 0

end Pluto.Value
