import Verif.Model.Arith

/-!
# Model of the locales of `include/pluto/locale.hpp` in several threads, and of the numbers of processes and threads

`c_locale`, `system_locale` and `default_locale` (`locale.hpp` 26-63) return a local static variable, or with
`PLUTO_LOCALE_NO_STATIC` a new object each time.  The initialisation of a local static variable ([stmt.dcl]) is modelled
step by step: the first thread to arrive initialises it, others wait; if the initialisation throws, it is tried again by the
next.  What a name stands for (`""`, and `PLUTO_LOCALE_DEFAULT_LOCALE` on a system where locales can be installed) may change
at any time; `"C"` is always the same.  What a locale is is not looked at: it is a value of any type `V`.

`process_id` and `thread_id` are those of `include/pluto/platform.hpp` 38-58.
-/

namespace Pluto.LocaleStatic

/-- The three functions.  `locale.hpp` 26-63. -/
inductive Which where
  /-- `c_locale()`, `locale.hpp` 26-37 -/
  | c
  /-- `system_locale()`, `locale.hpp` 39-50 -/
  | system
  /-- `default_locale()`, `locale.hpp` 52-63 -/
  | dflt
deriving DecidableEq, Repr

/-- What the names stand for: `none` if `std::locale{ name }` throws.  See `locale.hpp` 26-63. -/
structure Env (V : Type) where
  system : Option V
  dflt : Option V

/-- `std::locale{ name }`; `classic` is the locale `"C"`.  `locale.hpp` 29, 42, 55. -/
def named (classic : V) (env : Env V) : Which → Option V
  | .c => some classic
  | .system => env.system
  | .dflt => env.dflt

/-- The state of a local static variable.  Of `locale.hpp` 34, 47, 60. -/
inductive Guard where
  | fresh
  | busy
  | ready (object : Nat)
deriving DecidableEq, Repr

/-- What a thread does.  See `locale.hpp` 26-63. -/
inductive Status where
  | idle
  /-- it is about to look at the local static variable -/
  | called (w : Which)
  /-- it constructs the locale -/
  | constructing (w : Which)
deriving DecidableEq, Repr

/-- The state: `objects` are the locales in the order of their construction, `log` what the calls have returned (`none`: an
exception).  See `locale.hpp` 26-63. -/
structure State (V : Type) where
  env : Env V
  guards : Which → Guard := fun _ => .fresh
  threads : List Status
  objects : List V := []
  log : List (Nat × Which × Option Nat) := []

/-- What happens.  See `locale.hpp` 26-63. -/
inductive Event (V : Type) where
  /-- the environment changes -/
  | change (env : Env V)
  /-- a thread calls a function -/
  | call (tid : Nat) (w : Which)
  /-- a thread looks at the local static variable -/
  | enter (tid : Nat)
  /-- a constructor of `std::locale` ends -/
  | finish (tid : Nat)

/-- Assignment to one of the local static variables.  See `locale.hpp` 26-63. -/
def setGuard (g : Which → Guard) (w : Which) (x : Guard) : Which → Guard := fun v => if v = w then x else g v

/-- One step; `noStatic` is `PLUTO_LOCALE_NO_STATIC`.  See `locale.hpp` 26-63. -/
def step (noStatic : Bool) (classic : V) (s : State V) : Event V → Option (State V)
  | .change env => some { s with env := env }
  | .call tid w =>
    match s.threads[tid]? with
    | some .idle => some { s with threads := s.threads.set tid (.called w) }
    | _ => none
  | .enter tid =>
    match s.threads[tid]? with
    | some (.called w) =>
      if noStatic then some { s with threads := s.threads.set tid (.constructing w) }
      else match s.guards w with
        | .fresh => some { s with guards := setGuard s.guards w .busy, threads := s.threads.set tid (.constructing w) }
        | .busy => none
        | .ready n => some { s with threads := s.threads.set tid .idle, log := s.log ++ [(tid, w, some n)] }
    | _ => none
  | .finish tid =>
    match s.threads[tid]? with
    | some (.constructing w) =>
      match named classic s.env w with
      | none => some { s with
          guards := if noStatic then s.guards else setGuard s.guards w .fresh,
          threads := s.threads.set tid .idle, log := s.log ++ [(tid, w, none)] }
      | some v => some { s with
          guards := if noStatic then s.guards else setGuard s.guards w (.ready s.objects.length),
          threads := s.threads.set tid .idle, objects := s.objects ++ [v],
          log := s.log ++ [(tid, w, some s.objects.length)] }
    | _ => none

/-- A sequence of steps.  See `locale.hpp` 26-63. -/
def run (noStatic : Bool) (classic : V) (s : State V) : List (Event V) → Option (State V)
  | [] => some s
  | ev :: evs =>
    match step noStatic classic s ev with
    | some t => run noStatic classic t evs
    | none => none

/-- The beginning, with `n` threads.  See `locale.hpp` 26-63. -/
def init (n : Nat) (env : Env V) : State V := { env := env, threads := List.replicate n .idle }

/-- `process_id()`, `platform.hpp` 38-45: from an unsigned number of 32 bits on Windows, an `int` elsewhere. -/
def processId (windows : Bool) (number : Int) : Int := if windows then Arith.toType Arith.int number else number

/-- `thread_id()`, `platform.hpp` 47-58, where `std::size_t` has `bits` bits: from an unsigned number of 32 bits on Windows, an
unsigned one of 64 bits on Apple systems and an `int` elsewhere. -/
def threadId (bits : Nat) (number : Int) : Int := Arith.toType ⟨bits, false⟩ number

end Pluto.LocaleStatic
