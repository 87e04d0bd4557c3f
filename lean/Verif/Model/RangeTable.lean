import Verif.Model.Value

/-!
# A table of ranges: `std::set<range<T>, less>` with `less` = `is_less_no_overlap`

`is_less_no_overlap` (`range.hpp` 45-48) compares ranges so that those that overlap count as equal, which is the
comparison a `std::set` or `std::map` of ranges takes.  The container is the standard library's (trusted): a binary
search tree whose operations descend from the root and compare the key with the element at each node.
-/

namespace Pluto.RangeTable

open Value

/-- A search tree.  Its shape is left open: the container rebalances as it likes.
Elements are compared by `range.hpp` 45-48. -/
inductive Tree (α : Type) where
  | leaf
  | node (l : Tree α) (v : α) (r : Tree α)
deriving DecidableEq, Repr

variable {α : Type}

/-- The elements in the order in which iterators visit them.  Elements are compared by `range.hpp` 45-48. -/
def Tree.toList : Tree α → List α
  | .leaf => []
  | .node l v r => l.toList ++ v :: r.toList

section
variable [LT α] [LE α] [BEq α] [DecidableLT α] [DecidableLE α]

/-- `std::set::lower_bound` as a position: to the right of the elements that are less than the key
(`range.hpp` 45-48 for the comparison). -/
def lowerBound (k : Range α) : Tree (Range α) → Nat
  | .leaf => 0
  | .node l v r => if isLessNoOverlap v k then l.toList.length + 1 + lowerBound k r else lowerBound k l

/-- `std::set::upper_bound` as a position: to the left of the elements that the key is less than
(`range.hpp` 45-48 for the comparison). -/
def upperBound (k : Range α) : Tree (Range α) → Nat
  | .leaf => 0
  | .node l v r => if isLessNoOverlap k v then upperBound k l else l.toList.length + 1 + upperBound k r

/-- `std::set::find`: the element at `lower_bound` unless the key is less than it.
Elements are compared by `range.hpp` 45-48. -/
def find (t : Tree (Range α)) (k : Range α) : Option (Range α) :=
  (t.toList[lowerBound k t]?).filter fun v => !isLessNoOverlap k v

/-- The sequence of elements after `std::set::insert`, or `none` if it does not insert: the place is found as for
`upper_bound`, and the element before it must be less than the new one.  Elements are compared by `range.hpp` 45-48. -/
def inserted (t : Tree (Range α)) (k : Range α) : Option (List (Range α)) :=
  let i := upperBound k t
  let before := t.toList.take i
  if before.getLast?.all (fun v => isLessNoOverlap v k) then some (before ++ k :: t.toList.drop i) else none

/-- The sequence of elements after `std::set::erase` of a key: the elements from `lower_bound` to `upper_bound` are
gone.  Elements are compared by `range.hpp` 45-48. -/
def erased (t : Tree (Range α)) (k : Range α) : List (Range α) :=
  t.toList.take (lowerBound k t) ++ t.toList.drop (upperBound k t)

/-- The tables that calls of `insert` and `erase` make from an empty one, with arguments that satisfy `ok`.  After
each call the tree is any one with the right elements in the right order.  Elements are compared by `range.hpp` 45-48. -/
inductive Reach (ok : Range α → Prop) : Tree (Range α) → Prop
  | empty : Reach ok .leaf
  | insert {t t' : Tree (Range α)} (k : Range α) : Reach ok t → ok k → inserted t k = some t'.toList → Reach ok t'
  | erase {t t' : Tree (Range α)} (k : Range α) : Reach ok t → ok k → t'.toList = erased t k → Reach ok t'

end

end Pluto.RangeTable
