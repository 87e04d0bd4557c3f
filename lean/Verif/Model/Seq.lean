import Verif.Model.Res
import Verif.Model.Str

/-!
# Model of `include/pluto/compare.hpp`, `iterator.hpp` and `container.hpp`

A range `[begin, end)` is the list of its elements; an iterator into it is a position
from `0` (`begin`) to the length (`end`).  The algorithms of `<algorithm>` used by the
code are given first, by their definition in the C++ standard; they are trusted.
-/

namespace Pluto.Seq

variable {α β : Type}

/-! ## Algorithms of the standard library (trusted) -/

/-- Two ranges have the same length and `p(l, r)` for all corresponding elements.  For `iterator.hpp` 36. -/
def allMatch (p : α → β → Bool) : List α → List β → Bool
  | [], [] => true
  | l :: ls, r :: rs => p l r && allMatch p ls rs
  | _, _ => false

/-- `std::equal(beginL, endL, beginR, endR, p)`, [alg.equal].  `iterator.hpp` 36. -/
def stdEqual4 (p : α → β → Bool) (left : List α) (right : List β) : Bool :=
  allMatch p left right

/-- `std::equal(beginL, endL, beginR, p)`, [alg.equal]: undefined if the right range, of
which `right` is all there is, is shorter than the left one.  `iterator.hpp` 25. -/
def stdEqual3 (p : α → β → Bool) (left : List α) (right : List β) : Res Bool :=
  if right.length < left.length then .error .undefined
  else .ok (allMatch p left (right.take left.length))

/-- `std::find_if(begin, end, p)`, [alg.find]: the first position with `p`, or the end.  `iterator.hpp` 147, 170. -/
def stdFindIf (p : α → Bool) : List α → Nat
  | [] => 0
  | x :: xs => if p x then 0 else stdFindIf p xs + 1

/-- `p` matches the right range at position `i` of the left one.  For `iterator.hpp` 111 and 137. -/
def matchesAt (p : α → β → Bool) (left : List α) (right : List β) (i : Nat) : Bool :=
  allMatch p ((left.drop i).take right.length) right

/-- `std::search(beginL, endL, beginR, endR, p)`, [alg.search]: the first position at which
the right range matches, or the end.  `iterator.hpp` 111. -/
def stdSearch (p : α → β → Bool) (left : List α) (right : List β) : Nat :=
  ((List.range (left.length + 1)).find? (matchesAt p left right)).getD left.length

/-- `std::find_end(beginL, endL, beginR, endR, p)`, [alg.find.end]: the last position at
which the right range matches; the end if there is none or the right range is empty.  `iterator.hpp` 137. -/
def stdFindEnd (p : α → β → Bool) (left : List α) (right : List β) : Nat :=
  if right.isEmpty then left.length
  else ((List.range (left.length + 1)).reverse.find? (matchesAt p left right)).getD left.length

/-- `std::remove_if(begin, end, p)`, [alg.remove]: the elements without `p` come first, in
order; what follows the returned position is unspecified (`junk`).  `iterator.hpp` 230. -/
def stdRemoveIf (p : α → Bool) (junk : List α) (xs : List α) : List α × Nat :=
  let kept := xs.filter fun x => !p x
  (kept ++ junk, kept.length)

/-- `std::sort(begin, end, less)`, [sort]: what the standard promises of the result `ys`
for a strict weak order, and no more: it is a permutation in which no element is less
than an earlier one.  `iterator.hpp` 213. -/
def StdSort (less : α → α → Bool) (xs ys : List α) : Prop :=
  xs.Perm ys ∧ ys.Pairwise fun a b => less b a = false

/-- `std::advance(it, n)` from position `i` in a range of `size` elements; undefined if it
leaves the range.  `container.hpp` 206, 209. -/
def stdAdvance (size i : Nat) (n : Int) : Res Nat :=
  let j : Int := i + n
  if j < 0 ∨ (size : Int) < j then .error .undefined else .ok j.toNat

/-! ## `compare.hpp` -/

/-- `is_true::operator()`, `compare.hpp` 17-29, for a type with the conversion `conv` to `bool`. -/
def isTrue (conv : α → Bool) (value : α) : Bool := !!conv value

/-- `is_false::operator()`, `compare.hpp` 31-38. -/
def isFalse (conv : α → Bool) (value : α) : Bool := !conv value

section
variable (ct : Str.Ctype α)

/-- `is_iequal::operator()`, `compare.hpp` 48-59. -/
def isIequal [DecidableEq α] (left right : α) : Bool :=
  left == right || ct.toUpper left == ct.toUpper right

/-- `is_not_iequal::operator()`, `compare.hpp` 62-73. -/
def isNotIequal [DecidableEq α] (left right : α) : Bool :=
  left != right && ct.toUpper left != ct.toUpper right

variable [LT α] [DecidableLT α]

/-- `is_iless::operator()`, `compare.hpp` 76-87. -/
def isIless (left right : α) : Bool := ct.toUpper left < ct.toUpper right

/-- `is_igreater::operator()`, `compare.hpp` 90-101. -/
def isIgreater (left right : α) : Bool := ct.toUpper left > ct.toUpper right

variable [LE α] [DecidableLE α] [DecidableEq α]

/-- `is_iless_equal::operator()`, `compare.hpp` 104-115. -/
def isIlessEqual (left right : α) : Bool :=
  left == right || decide (ct.toUpper left ≤ ct.toUpper right)

/-- `is_igreater_equal::operator()`, `compare.hpp` 118-129. -/
def isIgreaterEqual (left right : α) : Bool :=
  left == right || decide (ct.toUpper left ≥ ct.toUpper right)

end

/-! ## `iterator.hpp` -/

/-- `equals(beginL, endL, beginR, endR, predicate)`, `iterator.hpp` 28-37 (containers
`container.hpp` 17-24). -/
def equals (p : α → β → Bool) (left : List α) (right : List β) : Bool :=
  stdEqual4 p left right

/-- `iequals(left, right, locale)`, `string.hpp` 383-445. -/
def iequals [DecidableEq α] (ct : Str.Ctype α) (left right : List α) : Bool :=
  equals (isIequal ct) left right

/-- `starts_with` from C++20 on for random access iterators, `iterator.hpp` 47-51.  The
call passes the right range first, so that the predicate gets its arguments swapped;
this only compiles if it accepts them, here if the element types are equal. -/
def startsWithRandom (p : α → α → Bool) (left right : List α) : Res Bool :=
  if right.length ≤ left.length then stdEqual3 p right left else pure false

/-- `starts_with` for other iterators and before C++20, `iterator.hpp` 54-63. -/
def startsWith (p : α → β → Bool) : List α → List β → Bool
  | _, [] => true
  | [], _ :: _ => false
  | l :: ls, r :: rs => if !p l r then false else startsWith p ls rs

/-- `ends_with` from C++20 on for random access iterators, `iterator.hpp` 74-79. -/
def endsWithRandom (p : α → α → Bool) (left right : List α) : Res Bool :=
  if right.length ≤ left.length then
    stdEqual3 p right (left.drop (left.length - right.length))
  else pure false

/-- Loop of `ends_with`, `iterator.hpp` 82-91, on the positions `itL` and `itR`, which
count down.  An access out of bounds is undefined. -/
def endsWithLoop (p : α → β → Bool) (left : List α) (right : List β) : Nat → Nat → Res Bool
  | _, 0 => pure true
  | 0, _ + 1 => pure false
  | itL + 1, itR + 1 =>
    match left[itL]?, right[itR]? with
    | some l, some r => if !p l r then pure false else endsWithLoop p left right itL itR
    | _, _ => .error .undefined

/-- `ends_with` for other iterators and before C++20, `iterator.hpp` 82-91. -/
def endsWith (p : α → β → Bool) (left : List α) (right : List β) : Res Bool :=
  endsWithLoop p left right left.length right.length

/-- `find_if(begin, end, predicate)`, `iterator.hpp` 141-148. -/
def findIf (p : α → Bool) (xs : List α) : Nat := stdFindIf p xs

/-- `find_if_not(begin, end, predicate)`, `iterator.hpp` 164-171. -/
def findIfNot (p : α → Bool) (xs : List α) : Nat := stdFindIf (fun x => !p x) xs

/-- `find(begin, end, elem)`, `iterator.hpp` 94-101. -/
def findElem [BEq α] (xs : List α) (elem : α) : Nat := stdFindIf (· == elem) xs

/-- The result of the functions that search backwards, `iterator.hpp` 125, 161, 184: the
position `rit` in the reversed range is translated to one in the range, or the end. -/
def fromReverse (size rit : Nat) : Nat :=
  if rit = size then size else size - rit - 1

/-- `rfind(begin, end, elem)`, `iterator.hpp` 114-126. -/
def rfindElem [BEq α] (xs : List α) (elem : α) : Nat :=
  fromReverse xs.length (findElem xs.reverse elem)

/-- `rfind_if(begin, end, predicate)`, `iterator.hpp` 150-162. -/
def rfindIf (p : α → Bool) (xs : List α) : Nat :=
  fromReverse xs.length (findIf p xs.reverse)

/-- `rfind_if_not(begin, end, predicate)`, `iterator.hpp` 173-185. -/
def rfindIfNot (p : α → Bool) (xs : List α) : Nat :=
  fromReverse xs.length (findIfNot p xs.reverse)

/-- `find(beginL, endL, beginR, endR, predicate)`, `iterator.hpp` 103-112. -/
def find (p : α → β → Bool) (left : List α) (right : List β) : Nat := stdSearch p left right

/-- `rfind(beginL, endL, beginR, endR, predicate)`, `iterator.hpp` 129-138. -/
def rfind (p : α → β → Bool) (left : List α) (right : List β) : Nat := stdFindEnd p left right

/-- `contains(begin, end, elem)`, `iterator.hpp` 187-194. -/
def containsElem [BEq α] (xs : List α) (elem : α) : Bool :=
  findElem xs elem != xs.length

/-- `contains(beginL, endL, beginR, endR, predicate)`, `iterator.hpp` 196-205. -/
def contains (p : α → β → Bool) (left : List α) (right : List β) : Bool :=
  right.isEmpty || find p left right != left.length

/-- `reverse`, `iterator.hpp` 216-222 and `container.hpp` 138-143: `std::reverse`. -/
def reverse (xs : List α) : List α := xs.reverse

/-- `filter(container, predicate)`, `iterator.hpp` 224-231 and `container.hpp` 145-153:
`std::remove_if` with the negated predicate, then the rest is erased. -/
def filter (p : α → Bool) (junk : List α) (xs : List α) : List α :=
  let (ys, newEnd) := stdRemoveIf (fun x => !p x) junk xs
  ys.take newEnd

/-- `for_each(container, function)`, `iterator.hpp` 233-240 and `container.hpp` 155-162:
`std::for_each` with a function that may change the element and its own state. -/
def forEach {σ : Type} (f : α → σ → α × σ) : List α → σ → List α × σ
  | [], st => ([], st)
  | x :: xs, st =>
    let (x, st) := f x st
    let (xs, st) := forEach f xs st
    (x :: xs, st)

/-- `map(source, destination, function)`, `iterator.hpp` 242-250 and `container.hpp`
164-172, for a destination with insertion at a position (not a set or map): every
result is inserted at the end. -/
def mapInto (destination : List β) (f : α → β) : List α → List β
  | [] => destination
  | x :: xs => mapInto (destination ++ [f x]) f xs

/-- `map<Destination>(source, function)`, `container.hpp` 174-190. -/
def map (f : α → β) (xs : List α) : List β := mapInto [] f xs

/-- `insert(hint, value)` of a `std::set` or `std::map`, [associative.reqmts] (trusted): nothing
happens if there is an equivalent element; otherwise the value gets its place in the order.  The
hint does not matter for the result.  `less` is `value_compare` (of a map: it compares the keys).  `container.hpp` 170. -/
def stdSetInsert (less : β → β → Bool) (v : β) : List β → List β
  | [] => [v]
  | x :: xs =>
    if less x v then x :: stdSetInsert less v xs
    else if less v x then v :: x :: xs
    else x :: xs

/-- `map(source, destination, function)`, `iterator.hpp` 242-250 and `container.hpp`
164-172, for a destination that is a `std::set` or a `std::map` (of which the list of its
elements is given in order): every result is inserted.  Not for multisets and multimaps. -/
def mapIntoSet (less : β → β → Bool) (destination : List β) (f : α → β) : List α → List β
  | [] => destination
  | x :: xs => mapIntoSet less (stdSetInsert less (f x) destination) f xs

/-- `map<Destination>(source, function)`, `container.hpp` 174-190, likewise. -/
def mapSet (less : β → β → Bool) (f : α → β) (xs : List α) : List β := mapIntoSet less [] f xs

/-! ## `container.hpp` -/

/-- `slice(container, start, stop)`, `container.hpp` 192-212. -/
def slice (xs : List α) (start stop : Int) : Res (List α) := do
  let size : Int := xs.length
  let start := if start < 0 then (if start + size < 0 then 0 else start + size) else start
  let stop := if stop < 0 then stop + size else if size < stop then size else stop
  if stop ≤ start then pure []
  else do
    let startIt ← stdAdvance xs.length 0 start
    let stopIt ← stdAdvance xs.length startIt (stop - start)
    pure ((xs.drop startIt).take (stopIt - startIt))

/-- `slice(container, stop)`, `container.hpp` 214-220. -/
def sliceTo (xs : List α) (stop : Int) : Res (List α) := slice xs 0 stop

/-- `any(container, predicate)`, `container.hpp` 228-242. -/
def any (p : α → Bool) : List α → Bool
  | [] => false
  | x :: xs => if p x then true else any p xs

/-- `all(container, predicate)`, `container.hpp` 244-258. -/
def all (p : α → Bool) : List α → Bool
  | [] => true
  | x :: xs => if !p x then false else all p xs

/-- `count_if(container, predicate)`, `container.hpp` 277-292; `result` is the local
variable. -/
def countIfLoop (p : α → Bool) : List α → Nat → Nat
  | [], result => result
  | x :: xs, result => countIfLoop p xs (if p x then result + 1 else result)

/-- `count_if(container, predicate)`, `container.hpp` 277-292. -/
def countIf (p : α → Bool) (xs : List α) : Nat := countIfLoop p xs 0

/-- `count(container, value)`, `container.hpp` 260-275. -/
def count [BEq α] (xs : List α) (value : α) : Nat := countIfLoop (· == value) xs 0

/-- `sum(container, value)`, `container.hpp` 294-305, for any `+=`. -/
def sum (add : β → α → β) : List α → β → β
  | [], value => value
  | x :: xs, value => sum add xs (add value x)

/-- `sum(container, value)`, `container.hpp` 294-305, for signed integers of `bits` bits,
at least as wide as `int`: an overflow is undefined. -/
def sumInt (bits : Nat) : List Int → Int → Res Int
  | [], value => pure value
  | x :: xs, value =>
    if value + x < -2 ^ (bits - 1) ∨ 2 ^ (bits - 1) ≤ value + x then .error .undefined
    else sumInt bits xs (value + x)

/-- Loop of `min(container, predicate)`, `container.hpp` 329-335, and of `min(container)`,
311-317, which is the same with `<`.  The result is the position of the element to which
`pResult` points (`none` is null), together with the element. -/
def minLoop (less : α → α → Bool) : List α → Nat → Option (Nat × α) → Option (Nat × α)
  | [], _, pResult => pResult
  | x :: xs, i, none => minLoop less xs (i + 1) (some (i, x))
  | x :: xs, i, some (j, y) =>
    minLoop less xs (i + 1) (if less x y then some (i, x) else some (j, y))

/-- `min(container, predicate)`, `container.hpp` 307-339: undefined (after an `assert`) for
an empty container. -/
def minOf (less : α → α → Bool) (xs : List α) : Res (Nat × α) :=
  match minLoop less xs 0 none with
  | some r => .ok r
  | none => .error .undefined

/-- Loop of `max(container, predicate)`, `container.hpp` 363-369 and 345-351. -/
def maxLoop (less : α → α → Bool) : List α → Nat → Option (Nat × α) → Option (Nat × α)
  | [], _, pResult => pResult
  | x :: xs, i, none => maxLoop less xs (i + 1) (some (i, x))
  | x :: xs, i, some (j, y) =>
    maxLoop less xs (i + 1) (if less y x then some (i, x) else some (j, y))

/-- `max(container, predicate)`, `container.hpp` 341-373. -/
def maxOf (less : α → α → Bool) (xs : List α) : Res (Nat × α) :=
  match maxLoop less xs 0 none with
  | some r => .ok r
  | none => .error .undefined

end Pluto.Seq
