/-!
# Model of `include/pluto/scope.hpp`

A task is a number; what its calls do is given by a behaviour.  An empty `std::function`
is `none`.  `std::stack` keeps the references of the elements when another is pushed (its
container is `std::deque`), so the task being called stays valid.
-/

namespace Pluto.Scope

/-- A task, `scope.hpp` 26, 69, 119. -/
abbrev Task := Nat

/-- What a call of a task does: the tasks it adds to the guard being destroyed, in order,
and whether it throws.  `scope.hpp` 41, 90, 140. -/
structure Effect where
  adds : List (Option Task) := []
  throws : Bool := false
deriving DecidableEq, Repr

/-- What each task does, depending on the calls made so far.  `scope.hpp` 41, 90, 140. -/
abbrev Behaviour := Task → List Task → Effect

/-- Outcome of a destructor.  `scope.hpp` 31-46, 74-96, 124-146. -/
inductive Outcome where
  /-- it returned; the calls of tasks in order -/
  | returned (calls : List Task)
  /-- an exception left the destructor: `std::terminate` -/
  | terminated (calls : List Task)
  /-- it has not returned after the given number of iterations -/
  | running (calls : List Task)
deriving DecidableEq, Repr

/-- `on_scope_exit::add`, lines 56-59; likewise `on_scope_success::add` 106-109 and
`on_scope_fail::add` 156-159.  The head of the list is the top of the stack. -/
def add (stack : List (Option Task)) (task : Option Task) : List (Option Task) := task :: stack

/-- A `try` block around a call, with `catch (...) {}`: lines 39-43, 88-92, 138-142.
The result says whether an exception leaves it. -/
def tryCatchAll (_throws : Bool) : Bool := false

/-- The loop of the destructors, lines 33-45, 82-94 and 132-144.  `fuel` bounds the number
of iterations. -/
def destroyLoop (b : Behaviour) : Nat → List (Option Task) → List Task → Outcome
  | _, [], calls => .returned calls
  | 0, _ :: _, calls => .running calls
  | fuel + 1, task :: rest, calls =>
    match task with
    | none => destroyLoop b fuel rest calls
    | some t =>
      let e := b t calls
      let stack := e.adds.foldl add (task :: rest)
      if tryCatchAll e.throws then .terminated (calls ++ [t])
      else destroyLoop b fuel stack.tail (calls ++ [t])

/-- The three guards.  `scope.hpp` 19, 62, 112. -/
inductive Kind where
  | exit
  | success
  | fail
deriving DecidableEq, Repr

/-- Whether the destructor of a guard runs the tasks, given
`std::uncaught_exceptions()`: lines 31-46, 76-81 and 126-131.  Before C++17 the code asks
`std::uncaught_exception()`, which is whether that number is not zero. -/
def runs (uncaught : Nat) : Kind → Bool
  | .exit => true
  | .success => uncaught == 0
  | .fail => uncaught != 0

/-- Destructors of the guards, lines 31-46, 74-96 and 124-146. -/
def destroy (b : Behaviour) (fuel : Nat) (k : Kind) (uncaught : Nat) (stack : List (Option Task)) :
    Outcome :=
  if runs uncaught k then destroyLoop b fuel stack [] else .returned []

/-! ## Programs with scopes

To say when guards run, a language of programs with scopes and exceptions.  A guard here
has one task, itself a program; several tasks are what `destroyLoop` is about. -/

/-- Programs.  Guards are those of `scope.hpp` 19-160. -/
inductive Prog where
  | skip
  /-- an observable action -/
  | emit (n : Nat)
  | throw
  | seq (p q : Prog)
  /-- `try { p } catch (...) { q }` -/
  | tryCatch (p q : Prog)
  /-- `{ guard g{task}; body }` -/
  | scope (k : Kind) (task body : Prog)
deriving DecidableEq, Repr

/-- Result of a program: the actions in order and whether an exception leaves it.  Guards are those of `scope.hpp` 19-160. -/
structure Result where
  actions : List Nat
  thrown : Bool
deriving DecidableEq, Repr

/-- Execution of a program while `uncaught` exceptions are being handled by unwinding,
[except.ctor], [except.uncaught]: the destructors of a scope left by an exception run
while that exception is uncaught as well, and a handler runs after its exception is
caught.  An exception from a task does not leave the destructor.  Guards are those of `scope.hpp` 19-160. -/
def exec (uncaught : Nat) : Prog → Result
  | .skip => ⟨[], false⟩
  | .emit n => ⟨[n], false⟩
  | .throw => ⟨[], true⟩
  | .seq p q =>
    let r := exec uncaught p
    if r.thrown then r
    else
      let s := exec uncaught q
      ⟨r.actions ++ s.actions, s.thrown⟩
  | .tryCatch p q =>
    let r := exec uncaught p
    if r.thrown then
      let s := exec uncaught q
      ⟨r.actions ++ s.actions, s.thrown⟩
    else r
  | .scope k task body =>
    let r := exec uncaught body
    let u := if r.thrown then uncaught + 1 else uncaught
    if runs u k then
      let s := exec u task
      ⟨r.actions ++ s.actions, tryCatchAll s.thrown || r.thrown⟩
    else r

end Pluto.Scope
