import Verif.Model.Seq

/-!
# Model of `copy` and `slice` for sequences of any element type

`copy` (`include/pluto/value.hpp` 23-27) ends with `return { value };` and `slice` (`include/pluto/container.hpp` 192-212) with
`return { startIt, stopIt };`.  Which constructor of a container this calls is decided by overload resolution,
[over.match.list]: a constructor with a parameter of type `std::initializer_list<E>`, where `E` is the element type, is preferred
if every item between the braces converts to `E` implicitly.  Modelled for `std::vector`, `std::deque` and `std::list`, of which
the elements are given as a list; an iterator is a position.
-/

namespace Pluto.Braces

/-- What converts implicitly to the element type.  The items between the braces in `value.hpp` 26 and `container.hpp` 211. -/
structure Elements (E : Type) where
  /-- a container of such elements -/
  ofContainer : Option (List E → E) := none
  /-- an iterator of such a container -/
  ofIterator : Option (Nat → E) := none

/-- How a compiler understands `T x{ y }` where `y` is a `T`.  As in `value.hpp` 26. -/
inductive Rule where
  /-- for every class `T` this copies `y`, as CWG 1467 had it -/
  | copies
  /-- only for aggregates, CWG 2137 and [dcl.init.list] since -/
  | aggregates
deriving DecidableEq, Repr

/-- The constructor of a container called by `{ args... }`: that for a `std::initializer_list` if every item converts, else
another one.  The `return` of `value.hpp` 26 and `container.hpp` 211. -/
def braces {A E : Type} (conv : Option (A → E)) (args : List A) (other : List E) : List E :=
  match conv with
  | some f => args.map f
  | none => other

/-- `copy`, `value.hpp` 23-27, of a container. -/
def copy {E : Type} (rule : Rule) (t : Elements E) (value : List E) : List E :=
  match rule with
  | .copies => value
  | .aggregates => braces t.ofContainer [value] value

/-- `slice(container, start, stop)`, `container.hpp` 192-212. -/
def slice {E : Type} (t : Elements E) (xs : List E) (start stop : Int) : Res (List E) := do
  let size : Int := xs.length
  let start := if start < 0 then (if start + size < 0 then 0 else start + size) else start
  let stop := if stop < 0 then stop + size else if size < stop then size else stop
  if stop ≤ start then pure []
  else do
    let startIt ← Seq.stdAdvance xs.length 0 start
    let stopIt ← Seq.stdAdvance xs.length startIt (stop - start)
    pure (braces t.ofIterator [startIt, stopIt] ((xs.drop startIt).take (stopIt - startIt)))

/-- `slice(container, stop)`, `container.hpp` 214-220. -/
def sliceTo {E : Type} (t : Elements E) (xs : List E) (stop : Int) : Res (List E) := slice t xs 0 stop

/-- A `std::any` that holds a number, a `std::vector<std::any>` or an iterator of one.
An element type for `value.hpp` 24-27 and `container.hpp` 192-212. -/
inductive Any where
  | number (n : Int)
  | vector (xs : List Any)
  | iterator (i : Nat)

/-- The element type `std::any`, to which everything that can be copied converts.
An element type for `value.hpp` 24-27 and `container.hpp` 192-212. -/
def any : Elements Any := { ofContainer := some .vector, ofIterator := some .iterator }

end Pluto.Braces
