/-!
# Outcomes of the sequential functions

The functions of `string.hpp`, `iterator.hpp`, `container.hpp` and `value.hpp` are
modelled as total functions into `Res`.  Everything a C++ call can do besides
returning is an explicit outcome, so `f x = .ok y` says that the call returns `y`
and does none of the other things.
-/

namespace Pluto

/-- What a call can do instead of returning a value.
For the functions of `string.hpp` 27-1821, `iterator.hpp` 16-250, `container.hpp` 17-373 and `value.hpp` 17-96. -/
inductive Err where
  /-- a standard library function throws `std::out_of_range` -/
  | outOfRange
  /-- undefined behaviour: an access out of bounds, a null dereference, a signed
  overflow, a shift by too much, a read of an indeterminate value -/
  | undefined
  /-- a loop of the code ran for more iterations than the bound of the model -/
  | outOfFuel
deriving DecidableEq, Repr

/-- Outcome of a call.
For the functions of `string.hpp` 27-1821, `iterator.hpp` 16-250, `container.hpp` 17-373 and `value.hpp` 17-96. -/
abbrev Res (α : Type) := Except Err α

end Pluto
