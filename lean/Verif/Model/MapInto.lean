import Verif.Model.Seq

/-!
# Model of `map` into multisets and multimaps, and of a container into itself

`map(source, destination, function)` (`include/pluto/container.hpp` 164-172, with `iterator.hpp` 242-250) is
`std::transform` of the source into `std::inserter(destination, std::end(destination))`.  The insert iterator holds an
iterator into the destination, at first its end; it inserts a value with `insert(iterator, value)` and then holds the position
after the new element.  `Seq.mapInto` and `Seq.mapIntoSet` are for other destinations.
-/

namespace Pluto.MapInto

variable {α β : Type}

/-- The position of the first element that is not less than `v`.  For `container.hpp` 170 and `iterator.hpp` 249. -/
def lowerBound (less : β → β → Bool) (v : β) (d : List β) : Nat := (d.takeWhile fun x => less x v).length

/-- The position of the first element that is greater than `v`.  For `container.hpp` 170 and `iterator.hpp` 249. -/
def upperBound (less : β → β → Bool) (v : β) (d : List β) : Nat := (d.takeWhile fun x => !less v x).length

/-- `insert(hint, value)` of a `std::multiset` or `std::multimap`, [associative.reqmts] (trusted): the value is put as close
as possible to the position just before the hint.  Returns also the position after the new element, which the insert iterator
keeps.  For `container.hpp` 170 and `iterator.hpp` 249. -/
def stdMultiInsert (less : β → β → Bool) (v : β) (d : List β) (hint : Nat) : List β × Nat :=
  let lower := lowerBound less v d
  let upper := upperBound less v d
  let i := if hint < lower then lower else if upper < hint then upper else hint
  (d.take i ++ v :: d.drop i, i + 1)

/-- The loop of `std::transform`, for a `std::multiset` or `std::multimap` of which the list of its elements is given in
order.  For `container.hpp` 170 and `iterator.hpp` 249. -/
def mapIntoMultiLoop (less : β → β → Bool) (f : α → β) : List α → List β × Nat → List β
  | [], (d, _) => d
  | x :: xs, (d, hint) => mapIntoMultiLoop less f xs (stdMultiInsert less (f x) d hint)

/-- `map(source, destination, function)`, `container.hpp` 164-172, for a multiset or multimap. -/
def mapIntoMulti (less : β → β → Bool) (destination : List β) (f : α → β) (xs : List α) : List β :=
  mapIntoMultiLoop less f xs (destination, destination.length)

/-- `map<Destination>(source, function)`, `container.hpp` 174-190, likewise. -/
def mapMulti (less : β → β → Bool) (f : α → β) (xs : List α) : List β := mapIntoMulti less [] f xs

/-- Sequences into which elements can be inserted.  Destinations of `container.hpp` 164-172. -/
inductive Kind where
  /-- `std::vector`, `std::deque` and strings: insertion at the end invalidates the end iterator at least -/
  | array
  /-- `std::list`: insertion invalidates nothing, the end iterator stays at the end -/
  | nodes
deriving DecidableEq, Repr

/-- The loop of `std::transform` for `map(c, c, function)` with a sequence `c`, `container.hpp` 164-172: `i` is the position
of the source iterator, and `valid` tells whether the iterators of the source are still valid.  At most `fuel` iterations. -/
def selfLoop (kind : Kind) (f : β → β) : Nat → List β → Nat → Bool → Res (List β)
  | fuel, d, i, valid =>
    if !valid then .error .undefined
    else
      match d[i]? with
      | none => .ok d
      | some x =>
        match fuel with
        | 0 => .error .outOfFuel
        | fuel + 1 => selfLoop kind f fuel (d ++ [f x]) (i + 1) (decide (kind = .nodes))

/-- `map(c, c, function)` for a sequence, for `fuel` iterations.  For `container.hpp` 170 and `iterator.hpp` 249. -/
def mapSelf (kind : Kind) (f : β → β) (fuel : Nat) (d : List β) : Res (List β) := selfLoop kind f fuel d 0 true

/-- The loop of `std::transform` for `map(c, c, function)` with a `std::set` or `std::map`, `container.hpp` 164-172: the
source iterator is at `current` (`none`: the end), and goes on to the next element that is then in the container. -/
def selfSetLoop (less : β → β → Bool) (f : β → β) : Nat → List β → Option β → Res (List β)
  | _, d, none => .ok d
  | 0, _, some _ => .error .outOfFuel
  | fuel + 1, d, some x =>
    selfSetLoop less f fuel (Seq.stdSetInsert less (f x) d) ((Seq.stdSetInsert less (f x) d).find? fun y => less x y)

/-- `map(c, c, function)` for a set or map, for `fuel` iterations.  For `container.hpp` 170 and `iterator.hpp` 249. -/
def mapSelfSet (less : β → β → Bool) (f : β → β) (fuel : Nat) (d : List β) : Res (List β) :=
  selfSetLoop less f fuel d d.head?

end Pluto.MapInto
