import Verif.Model.Lru

/-!
# Model of `include/pluto/safe_lru_cache.hpp`

A call goes through the steps: invocation, acquisition of `m_mutex` (shared or exclusive), the atomic steps of the body of
the wrapped `lru_cache` method (`Pluto.Lru.body`), end of the body, release of the lock by the destructor of the lock
object, return.  Any number of calls may be under way and their steps interleave arbitrarily.

Every call has its own number.  A thread that makes several calls is a set of calls, each invoked after the previous
one has returned; the model allows more schedules than that.
-/

namespace Pluto.SafeLru
open Pluto.Spec.Lru (Call Ret)
open Pluto.Lru (State Faults)

variable {K V : Type} [DecidableEq K] [DecidableEq V]

/-- The two ways of locking a `std::shared_mutex`.  `safe_lru_cache.hpp` 41-97. -/
inductive Mode
  | shared
  | exclusive
  deriving DecidableEq, Repr

/-- The lock object each method creates: `std::shared_lock` in size (L41), capacity (L47), empty (L53), contains (L59);
`std::unique_lock` in clear (L65), capacity(n) (L71), insert (L77), insert_or_assign (L83), get (L89), remove (L95). -/
def lockOf : Call K V → Mode
  | .size => .shared
  | .capacity => .shared
  | .empty => .shared
  | .contains _ => .shared
  | .clear => .exclusive
  | .setCapacity _ => .exclusive
  | .insert _ _ => .exclusive
  | .insertOrAssign _ _ => .exclusive
  | .get _ => .exclusive
  | .remove _ => .exclusive

/-- Where a call is (safe_lru_cache.hpp L39-97: lock object, body, destructor of the lock object, return). -/
inductive Status (K V : Type)
  /-- not invoked yet -/
  | idle
  /-- about to lock `m_mutex` -/
  | waiting (f : Faults) (c : Call K V)
  /-- executing the wrapped method; `p` is the rest of it -/
  | inside (f : Faults) (c : Call K V) (p : Prog (State K V) (Ret V))
  /-- the wrapped method has ended (returned or thrown); the lock is still held -/
  | ended (f : Faults) (c : Call K V) (o : Out (Ret V))
  /-- the lock has been released -/
  | leaving (o : Out (Ret V))
  /-- the call has returned -/
  | finished

/-- The whole system: `m_lruCache`, `m_mutex` (L27-28; the calls owning it shared, the call owning it exclusively), the
calls, and whether undefined behaviour has occurred. -/
structure Sys (K V : Type) where
  mem : State K V
  readers : List Nat
  writer : Option Nat
  status : Nat → Status K V
  crashed : Bool

/-- The steps of the system; invocation and return are visible to the caller.  `safe_lru_cache.hpp` 36-97. -/
inductive Event (K V : Type)
  | invoke (i : Nat) (f : Faults) (c : Call K V)
  | acquire (i : Nat)
  | step (i : Nat)
  | finish (i : Nat)
  | unlock (i : Nat)
  | ret (i : Nat) (o : Out (Ret V))

/-- The constructor, L36-37. -/
def init (n : Nat) : Sys K V :=
  { mem := Pluto.Lru.init n, readers := [], writer := none, status := fun _ => .idle, crashed := false }

/-- Changing the status of one call.  `safe_lru_cache.hpp` 36-97. -/
def setStatus (s : Sys K V) (i : Nat) (x : Status K V) : Sys K V :=
  { s with status := fun j => if j = i then x else s.status j }

/-- One step of the system, `none` if it is not possible (L39-97, all methods have the same shape). -/
def step? (s : Sys K V) : Event K V → Option (Sys K V)
  | .invoke i f c =>
    match s.status i with
    | .idle => if s.crashed then none else some (setStatus s i (.waiting f c))
    | _ => none
  | .acquire i =>
    match s.status i with
    | .waiting f c =>
      if s.crashed then none
      else match lockOf c with
      | .shared =>
        if s.writer.isNone then
          some (setStatus { s with readers := i :: s.readers } i (.inside f c (Pluto.Lru.body f c)))
        else none
      | .exclusive =>
        if s.writer.isNone ∧ s.readers.isEmpty then
          some (setStatus { s with writer := some i } i (.inside f c (Pluto.Lru.body f c)))
        else none
    | _ => none
  | .step i =>
    match s.status i with
    | .inside f c (.step upd next) =>
      if s.crashed then none
      else some (setStatus { s with mem := upd s.mem } i (.inside f c (next s.mem)))
    | .inside _ _ .ub => if s.crashed then none else some { s with crashed := true }
    | _ => none
  | .finish i =>
    match s.status i with
    | .inside f c (.ret r) => if s.crashed then none else some (setStatus s i (.ended f c (.ok r)))
    | .inside f c .throw => if s.crashed then none else some (setStatus s i (.ended f c .threw))
    | _ => none
  | .unlock i =>
    match s.status i with
    | .ended _ c o =>
      if s.crashed then none
      else match lockOf c with
      | .shared => some (setStatus { s with readers := s.readers.filter (fun j => decide (j ≠ i)) } i (.leaving o))
      | .exclusive => some (setStatus { s with writer := none } i (.leaving o))
    | _ => none
  | .ret i o =>
    match s.status i with
    | .leaving o' => if s.crashed then none else if o' = o then some (setStatus s i .finished) else none
    | _ => none

/-- An execution: the steps `tr` lead from the new cache of capacity `n` to `s`.  `safe_lru_cache.hpp` 36-97. -/
inductive Exec (n : Nat) : List (Event K V) → Sys K V → Prop
  | nil : Exec n [] (init n)
  | snoc {tr : List (Event K V)} {s s' : Sys K V} (e : Event K V) : Exec n tr s → step? s e = some s' → Exec n (tr ++ [e]) s'

/-- The call `i` is executing the wrapped method.  `safe_lru_cache.hpp` 36-97. -/
def Executing (s : Sys K V) (i : Nat) : Prop := ∃ f c p, s.status i = .inside f c p

end Pluto.SafeLru
