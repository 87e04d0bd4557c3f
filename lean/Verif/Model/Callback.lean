import Verif.Model.Res

/-!
# Model of the functions of `iterator.hpp` and `container.hpp` that call a function of the user

In `Verif.Model.Seq` predicates and functions are mathematical functions.  Here they are calls that read and change a state
`σ` (whatever they refer to) and may throw: a call yields `none` if it throws, and the state after it in any case.  A
predicate that keeps its state inside itself is not modelled: it is copied by the functions (and must be callable as a
constant in `filter`, `iterator.hpp` 230).
-/

namespace Pluto.Callback

/-- A function of the user: what it returns (`none`: it throws) and the state after the call.
The parameters `predicate` and `function` of `iterator.hpp` 16-250. -/
abbrev Fun (α β σ : Type) := α → σ → Option β × σ

/-- `any(container, predicate)`, `container.hpp` 228-242. -/
def any (p : Fun α Bool σ) : List α → σ → Option Bool × σ
  | [], s => (some false, s)
  | x :: xs, s =>
    match p x s with
    | (none, s) => (none, s)
    | (some true, s) => (some true, s)
    | (some false, s) => any p xs s

/-- `all(container, predicate)`, `container.hpp` 244-258. -/
def all (p : Fun α Bool σ) : List α → σ → Option Bool × σ
  | [], s => (some true, s)
  | x :: xs, s =>
    match p x s with
    | (none, s) => (none, s)
    | (some true, s) => all p xs s
    | (some false, s) => (some false, s)

/-- Loop of `count_if(container, predicate)`, `container.hpp` 283-289. -/
def countIfLoop (p : Fun α Bool σ) : List α → Nat → σ → Option Nat × σ
  | [], result, s => (some result, s)
  | x :: xs, result, s =>
    match p x s with
    | (none, s) => (none, s)
    | (some b, s) => countIfLoop p xs (if b then result + 1 else result) s

/-- `count_if(container, predicate)`, `container.hpp` 277-292. -/
def countIf (p : Fun α Bool σ) (xs : List α) (s : σ) : Option Nat × σ := countIfLoop p xs 0 s

/-- `std::find_if(begin, end, predicate)`, [alg.find], as the libraries do it: `find_if` of `iterator.hpp` 141-148 and of
`container.hpp` 80-86.  The result is a position, beginning with `i`. -/
def findIf (p : Fun α Bool σ) : List α → Nat → σ → Option Nat × σ
  | [], i, s => (some i, s)
  | x :: xs, i, s =>
    match p x s with
    | (none, s) => (none, s)
    | (some true, s) => (some i, s)
    | (some false, s) => findIf p xs (i + 1) s

/-- `for_each(container, function)`, `container.hpp` 155-162 and `iterator.hpp` 233-240: the function may change the element,
also if it throws.  The result is the container and whether an exception left the call. -/
def forEach (f : α → σ → (α × Bool) × σ) : List α → σ → (List α × Bool) × σ
  | [], s => (([], false), s)
  | x :: xs, s =>
    match f x s with
    | ((x, true), s) => ((x :: xs, true), s)
    | ((x, false), s) =>
      match forEach f xs s with
      | ((ys, b), s) => ((x :: ys, b), s)

/-- `map(source, destination, function)`, `container.hpp` 164-172 and `iterator.hpp` 242-250, for a destination with
insertion at a position: every result is inserted at the end.  The result is the destination and whether an exception left
the call. -/
def mapInto (f : Fun α β σ) (destination : List β) : List α → σ → (List β × Bool) × σ
  | [], s => ((destination, false), s)
  | x :: xs, s =>
    match f x s with
    | (none, s) => ((destination, true), s)
    | (some y, s) => mapInto f (destination ++ [y]) xs s

/-- `map<Destination>(source, function)`, `container.hpp` 174-190: the destination is destroyed if an exception leaves the
call. -/
def map (f : Fun α β σ) (xs : List α) (s : σ) : Option (List β) × σ :=
  match mapInto f [] xs s with
  | ((ys, false), s) => (some ys, s)
  | ((_, true), s) => (none, s)

/-- The outcome of a function that works in place: the elements, of which those that have been moved from are `none`.
Called in `iterator.hpp` 230. -/
inductive InPlace (α : Type) where
  | returned (cells : List (Option α)) (position : Nat)
  | threw (cells : List (Option α))
  | undefined
deriving DecidableEq, Repr

/-- Loop of `std::remove_if` from `++i` on, [alg.remove], as the libraries do it: `if (!p(*i)) *first++ = std::move(*i);`.
Reading an element that has been moved from is undefined here.  Called in `iterator.hpp` 230. -/
def removeLoop (p : Fun α Bool σ) : Nat → List (Option α) → Nat → Nat → σ → InPlace α × σ
  | 0, cells, first, _, s => (.returned cells first, s)
  | n + 1, cells, first, i, s =>
    match cells[i]? with
    | some (some x) =>
      match p x s with
      | (none, s) => (.threw cells, s)
      | (some true, s) => removeLoop p n cells first (i + 1) s
      | (some false, s) => removeLoop p n ((cells.set first (some x)).set i none) (first + 1) (i + 1) s
    | _ => (.undefined, s)

/-- `std::remove_if(begin, end, p)`, [alg.remove], as the libraries do it: what precedes the first element to be removed is
left alone.  Called in `iterator.hpp` 230. -/
def removeIf (p : Fun α Bool σ) (xs : List α) (s : σ) : InPlace α × σ :=
  match findIf p xs 0 s with
  | (none, s) => (.threw (xs.map some), s)
  | (some first, s) => removeLoop p (xs.length - first - 1) (xs.map some) first (first + 1) s

/-- `!(predicate(elem))` in `filter`, `iterator.hpp` 230. -/
def negate (p : Fun α Bool σ) : Fun α Bool σ := fun x s =>
  match p x s with
  | (some b, s) => (some !b, s)
  | (none, s) => (none, s)

/-- `filter(container, predicate)`, `container.hpp` 145-153 and `iterator.hpp` 224-231: the elements from the position on are
erased, unless an exception has been thrown. -/
def filter (p : Fun α Bool σ) (xs : List α) (s : σ) : InPlace α × σ :=
  match removeIf (negate p) xs s with
  | (.returned cells position, s) => (.returned (cells.take position) position, s)
  | r => r

end Pluto.Callback
