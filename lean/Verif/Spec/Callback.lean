/-!
# Specification of calls of a function of the user
-/

namespace Pluto.CallbackSpec

/-- The function was called for these elements in this order, once for each, and returned these results; the state before the
first and after the last call. -/
inductive Ran (f : α → σ → Option β × σ) : List α → List β → σ → σ → Prop
  | nil (s : σ) : Ran f [] [] s s
  | cons {x : α} {y : β} {s s' s'' : σ} {xs : List α} {ys : List β} (call : f x s = (some y, s')) (rest : Ran f xs ys s' s'') :
    Ran f (x :: xs) (y :: ys) s s''

/-- The function was called for the first elements, each time with a result that has `P`, and then for the next one. -/
def Stopped (f : α → σ → Option β × σ) (P : β → Prop) (xs : List α) (before : List α) (ys : List β) (s : σ)
    (last : Option β) (s' : σ) : Prop :=
  ∃ x after s₁, xs = before ++ x :: after ∧ Ran f before ys s s₁ ∧ (∀ y ∈ ys, P y) ∧ f x s₁ = (last, s')

/-- The elements to which the function said yes. -/
def chosen : List α → List Bool → List α
  | x :: xs, b :: bs => if b then x :: chosen xs bs else chosen xs bs
  | _, _ => []

/-- What is left where these elements were if those to which the function said yes have been moved away. -/
def emptied : List α → List Bool → List (Option α)
  | x :: xs, b :: bs => (if b then none else some x) :: emptied xs bs
  | _, _ => []

end Pluto.CallbackSpec
