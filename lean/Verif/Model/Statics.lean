/-!
# Model of the life of the shared objects

`logger::instance()` (`include/pluto/logger.hpp` 415-419), `thread_pool::instance()` (`include/pluto/thread_pool.hpp`
159-163) and `c_locale()`, `system_locale()` and `default_locale()` (`include/pluto/locale.hpp` 32-36, 45-49, 58-62, unless
`PLUTO_LOCALE_NO_STATIC` is defined) each return a reference to a local object with static storage duration.  It is
constructed when the function is called for the first time, and destroyed when the program ends.  This model is about the
order in which these objects, and objects of the user with static storage duration, are constructed and destroyed, and about
who uses which of them when.  What the objects do is in the other models.

Of the C++ standard: construction happens once, callers wait for it; if the program ends, the objects are destroyed in the
reverse order of the completion of their constructors, one after the other; a call of the function after the destruction of
its object, and a use of an object by others while it is destroyed, is undefined.

Simplifications: constructors do not throw; objects of the user that are local to a function and those that are not are
treated alike; there are no thread-local objects.
-/

namespace Pluto.Statics

/-- Objects with static storage duration.  `logger.hpp` 415-419, `thread_pool.hpp` 159-163, `locale.hpp` 32-62. -/
inductive Obj where
  /-- that of `logger::instance()`, `logger.hpp` 415-419 -/
  | logger
  /-- that of `thread_pool::instance()`, `thread_pool.hpp` 159-163 -/
  | pool
  /-- those of `locale.hpp` 32-36, 45-49 and 58-62 -/
  | locale (n : Nat)
  /-- those of the user -/
  | user (n : Nat)
deriving DecidableEq, Repr

/-- What happens.  `logger.hpp` 415-419, `thread_pool.hpp` 159-163, `locale.hpp` 32-62. -/
inductive Event where
  /-- construction begins: the first call of the function (`logger.hpp` 417, `thread_pool.hpp` 161, `locale.hpp` 34, 47,
  60), or the initialisation of an object of the user -/
  | begin (o : Obj)
  /-- construction is complete -/
  | finish (o : Obj)
  /-- code that belongs to `a` calls the function for `o` and uses the object: the constructor or the destructor of `a`, or
  what its threads execute (the tasks of a thread pool, the writers of a logger), which are joined by its destructor
  (`thread_pool.hpp` 137-148, `logger.hpp` 386-389); if `a` is `none`, other code: the main program, or a thread that
  nobody waits for -/
  | use (a : Option Obj) (o : Obj)
  /-- `main` returns, or `std::exit` is called -/
  | exit
  /-- the destruction of the next object begins -/
  | destroy
  /-- it is complete -/
  | destroyed
deriving DecidableEq, Repr

/-- The state of the objects.  `logger.hpp` 415-419, `thread_pool.hpp` 159-163, `locale.hpp` 32-62. -/
structure State where
  /-- under construction -/
  building : List Obj := []
  /-- constructed, the last one first -/
  live : List Obj := []
  /-- being destroyed -/
  dying : Option Obj := none
  /-- destroyed, the last one first -/
  dead : List Obj := []
  /-- the program ends -/
  exiting : Bool := false
deriving DecidableEq, Repr

/-- Outcome of an event or of several.  `logger.hpp` 415-419, `thread_pool.hpp` 159-163, `locale.hpp` 32-62. -/
inductive Outcome where
  | ok (s : State)
  /-- undefined behaviour -/
  | ub
  /-- it cannot happen (or not yet) -/
  | stuck
deriving DecidableEq, Repr

/-- Code of `a` may be executed.  `logger.hpp` 415-419, `thread_pool.hpp` 159-163, `locale.hpp` 32-62. -/
def acting (s : State) : Option Obj → Bool
  | none => true
  | some a => decide (a ∈ s.building ∨ a ∈ s.live ∨ s.dying = some a)

/-- An event.  An object that does not exist yet is constructed before it is used; one that is under construction is waited
for.  `logger.hpp` 415-419, `thread_pool.hpp` 159-163, `locale.hpp` 32-62. -/
def step (s : State) : Event → Outcome
  | .begin o =>
    if o ∈ s.building ∨ o ∈ s.live ∨ s.dying = some o ∨ o ∈ s.dead then .stuck
    else .ok { s with building := o :: s.building }
  | .finish o =>
    if o ∈ s.building then .ok { s with building := s.building.filter (· ≠ o), live := o :: s.live } else .stuck
  | .use a o =>
    if acting s a = false then .stuck
    else if o ∈ s.dead ∨ (s.dying = some o ∧ a ≠ some o) then .ub
    else if o ∈ s.live ∨ s.dying = some o then .ok s
    else .stuck
  | .exit => if s.exiting then .stuck else .ok { s with exiting := true }
  | .destroy =>
    if s.exiting = true ∧ s.dying = none then
      match s.live with
      | o :: live => .ok { s with dying := some o, live := live }
      | [] => .stuck
    else .stuck
  | .destroyed =>
    match s.dying with
    | some o => .ok { s with dying := none, dead := o :: s.dead }
    | none => .stuck

/-- Several events, one after the other.  `logger.hpp` 415-419, `thread_pool.hpp` 159-163, `locale.hpp` 32-62. -/
def run (s : State) : List Event → Outcome
  | [] => .ok s
  | ev :: evs =>
    match step s ev with
    | .ok s => run s evs
    | .ub => .ub
    | .stuck => .stuck

end Pluto.Statics
