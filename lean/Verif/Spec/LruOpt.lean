import Mathlib.Data.Finset.Card
import Verif.Spec.LruUse

/-! # Any other way to keep entries (C159) -/

namespace Pluto.Spec.Lru
variable {K : Type} [DecidableEq K]

/-- A store with room for `h` entries, that holds those of `S`, serves the requests with `n` loads.  Before each request it
drops and loads what it likes, also entries for later requests: it may know all of them. -/
inductive Serves (h : Nat) : Finset K → List K → Nat → Prop
  | nil (S : Finset K) : Serves h S [] 0
  | cons (S S' : Finset K) (k : K) (ks : List K) (n : Nat) :
      k ∈ S' → S'.card ≤ h → Serves h S' ks n → Serves h S (k :: ks) ((S' \ S).card + n)

end Pluto.Spec.Lru
