/-!
# Programs as sequences of atomic steps

C++ method bodies whose interleaving matters are written as `Prog` values: a program either ends (normally, by an
exception, or in undefined behaviour) or performs one atomic step on the shared state and goes on.
`Prog.run` executes a program without interruption.  This file models no particular file of the repository; it is the
small language in which `Verif/Model/Lru.lean` is written.
-/

namespace Pluto

/-- A program over shared state `σ` with result `ρ`.  For the methods of `lru_cache.hpp` 33-166. -/
inductive Prog (σ : Type) (ρ : Type) : Type
  /-- normal return -/
  | ret (r : ρ)
  /-- an exception leaves the method (there is no `catch` in the modelled methods) -/
  | throw
  /-- undefined behaviour -/
  | ub
  /-- one atomic step: the state is updated by `upd`, the rest of the program may depend on the state read -/
  | step (upd : σ → σ) (next : σ → Prog σ ρ)

/-- How an uninterrupted execution ends.  For the methods of `lru_cache.hpp` 33-166. -/
inductive Out (ρ : Type) : Type
  | ok (r : ρ)
  | threw
  | ub
  deriving DecidableEq, Repr

namespace Prog

variable {σ ρ τ : Type}

/-- Sequencing.  For the methods of `lru_cache.hpp` 33-166. -/
def bind : Prog σ ρ → (ρ → Prog σ τ) → Prog σ τ
  | ret r, f => f r
  | throw, _ => throw
  | ub, _ => ub
  | step u n, f => step u (fun s => bind (n s) f)

/-- For the methods of `lru_cache.hpp` 33-166. -/
instance : Monad (Prog σ) where
  pure := ret
  bind := bind

/-- Uninterrupted execution.  For the methods of `lru_cache.hpp` 33-166. -/
def run : Prog σ ρ → σ → Out ρ × σ
  | ret r, s => (.ok r, s)
  | throw, s => (.threw, s)
  | ub, s => (.ub, s)
  | step u n, s => run (n s) (u s)

/-- Read the state.  For the methods of `lru_cache.hpp` 33-166. -/
def read (f : σ → ρ) : Prog σ ρ := step id (fun s => ret (f s))

/-- Change the state.  For the methods of `lru_cache.hpp` 33-166. -/
def modify (f : σ → σ) : Prog σ Unit := step f (fun _ => ret ())

/-- A step that is undefined behaviour unless `ok`.  For the methods of `lru_cache.hpp` 33-166. -/
def guarded (ok : σ → Bool) (f : σ → σ) : Prog σ Unit :=
  step (fun s => if ok s then f s else s) (fun s => if ok s then ret () else ub)

/-- A step that may throw instead of happening.  For the methods of `lru_cache.hpp` 33-166. -/
def orThrow (fail : Bool) (p : Prog σ ρ) : Prog σ ρ := if fail then throw else p

end Prog
end Pluto
