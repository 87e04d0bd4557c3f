import Verif.Model.Scope
import Verif.Spec.ScopeFault

/-!
# Programs that use the guards of `include/pluto/scope.hpp` when memory runs out

Nested scopes, each with one guard, to which tasks are added anywhere inside.  A task is a number or empty, as in `Scope`;
what the calls do is a behaviour.  There are no loops: a loop is the sequence of its iterations.  Whether a constructor or
`add` throws is part of the program, and each is executed at most once, so this says nothing about when that happens.
-/

namespace Pluto.ScopeFault
open Pluto.Scope (Task Kind Behaviour)
open Pluto.Spec.ScopeFault (Ev)

/-- Programs.  Guards are those of `scope.hpp` 19-160. -/
inductive Prog
  | emit (n : Nat)
  | throw
  | seq (p q : Prog)
  /-- `try { p } catch (...) { q }` -/
  | tryCatch (p q : Prog)
  /-- `{ guard g; body }`, or with a task in the constructor; `fails`: the constructor throws -/
  | scope (k : Kind) (fails : Bool) (first : Option (Option Task)) (body : Prog)
  /-- `g.add(t)`, with the guard of the `i`-th scope counted from the inside; `fails`: it throws -/
  | add (i : Nat) (t : Option Task) (fails : Bool)
  deriving DecidableEq, Repr

/-- A guard that exists (lines 21, 64, 114): its number, kind and stack. -/
structure Guard where
  id : Nat
  kind : Kind
  stack : List (Option Task)
  deriving DecidableEq, Repr

/-- The guards that exist, the innermost first, the number of the next one, and what happened.
Guards are those of `scope.hpp` 19-160. -/
structure St where
  guards : List Guard := []
  next : Nat := 0
  log : List Ev := []
  deriving DecidableEq, Repr

/-- `add`, lines 56-59, 106-109 and 156-159: the copy of the function or the memory of the stack can fail, and then
`std::deque::push_back` has no effect ([deque.modifiers]).  `none` is an exception. -/
def add (fails : Bool) (stack : List (Option Task)) (t : Option Task) : Option (List (Option Task)) :=
  if fails then none else some (Pluto.Scope.add stack t)

/-- The constructors, lines 24-29, 67-72 and 117-122.  `none` is an exception: it comes from `m_tasks` or from `add`, and as
the object does not exist its destructor is not called. -/
def construct (fails : Bool) : Option (Option Task) → Option (List (Option Task))
  | none => if fails then none else some []
  | some t => add fails [] t

/-- The end of a scope: the destructor of its guard (lines 31-46, 74-96, 124-146; `Scope.destroy`) is called while the
exception that leaves the scope, if there is one, is uncaught.  `none`: it does not return, or ends the program. -/
def close (b : Behaviour) (u : Nat) (s : St) (thrown : Bool) : Option St :=
  match s.guards with
  | [] => none
  | g :: rest =>
    match Pluto.Scope.destroy b g.stack.length g.kind (if thrown then u + 1 else u) g.stack with
    | .returned calls =>
      some { s with guards := rest, log := s.log ++ Ev.left g.id thrown :: calls.map (Ev.call g.id) }
    | _ => none

/-- Execution while `u` exceptions are uncaught; the result says whether an exception leaves the program.  `none`: a guard is
used that does not exist, or `close`.  Lines 18-160 of the header are called as above. -/
def exec (b : Behaviour) (u : Nat) : Prog → St → Option (St × Bool)
  | .emit n, s => some ({ s with log := s.log ++ [.act n] }, false)
  | .throw, s => some (s, true)
  | .seq p q, s =>
    match exec b u p s with
    | none => none
    | some (s', true) => some (s', true)
    | some (s', false) => exec b u q s'
  | .tryCatch p q, s =>
    match exec b u p s with
    | none => none
    | some (s', true) => exec b u q s'
    | some (s', false) => some (s', false)
  | .add i t fails, s =>
    match s.guards[i]? with
    | none => none
    | some g =>
      match add fails g.stack t with
      | none => some ({ s with log := s.log ++ [.refused t] }, true)
      | some st =>
        some ({ s with guards := s.guards.set i { g with stack := st }, log := s.log ++ [.added g.id t] }, false)
  | .scope k fails first body, s =>
    match construct fails first with
    | none => some ({ s with log := s.log ++ first.toList.map .refused }, true)
    | some st =>
      let s₁ : St :=
        { guards := { id := s.next, kind := k, stack := st } :: s.guards, next := s.next + 1,
          log := s.log ++ .entered s.next k :: first.toList.map (.added s.next) }
      match exec b u body s₁ with
      | none => none
      | some (s₂, thrown) => (close b u s₂ thrown).map fun s₃ => (s₃, thrown)

/-- The program compiles with `n` guards around it: it uses (lines 56-59, 106-109, 156-159) only guards that exist. -/
def Scoped : Nat → Prog → Prop
  | _, .emit _ | _, .throw => True
  | n, .seq p q | n, .tryCatch p q => Scoped n p ∧ Scoped n q
  | n, .add i _ _ => i < n
  | n, .scope _ _ _ body => Scoped (n + 1) body

/-- The program uses only `on_scope_exit` (lines 18-60), tasks are added to the innermost guard, and none is empty. -/
def Inner : Prog → Prop
  | .emit _ | .throw => True
  | .seq p q | .tryCatch p q => Inner p ∧ Inner q
  | .add i t _ => i = 0 ∧ t ≠ none
  | .scope k _ first body => k = .exit ∧ first ≠ some none ∧ Inner body

end Pluto.ScopeFault
