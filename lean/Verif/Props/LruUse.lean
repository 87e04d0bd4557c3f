import Verif.Props.Lru
import Verif.Proofs.LruUse

/-! # C154: a larger cache is not worse -/

namespace Pluto.Props
open Pluto.Lru Pluto.Spec.Lru
variable {K V : Type} [DecidableEq K]

/-- C154. A program that uses a cache by `get`, by `get` and `insert` if that fails, by `insert_or_assign`, `contains`,
`remove` and `clear`, has a hit with a cache of capacity `m` wherever it has one with a cache of capacity `n ≤ m`. Missing:
`insert` without `get`, see `C154_fails`. -/
theorem C154_hits_partial {n m : Nat} (h : n ≤ m) (us : List (Use K V)) :
    ∃ s hs t ht, uses (init n) us = some (s, hs) ∧ uses (init m) us = some (t, ht) ∧ HitsToo hs ht := by
  obtain ⟨s, hs, t, ht, a, b, h1, h2, h3, -⟩ := incl_uses (has_init n) (has_init m) (incl_init h) us
  exact ⟨s, hs, t, ht, h1, h2, h3⟩

/-- C154. So it has as many hits or more. -/
theorem C154_count_partial {n m : Nat} (h : n ≤ m) (us : List (Use K V)) :
    ∃ s hs t ht, uses (init n) us = some (s, hs) ∧ uses (init m) us = some (t, ht) ∧ hs.count true ≤ ht.count true := by
  obtain ⟨s, hs, t, ht, h1, h2, h3, h4⟩ := C154_hits_partial h us
  refine ⟨s, hs, t, ht, h1, h2, ?_⟩
  clear h1 h2
  induction hs generalizing ht with
  | nil => simp
  | cons a as ih =>
    cases ht with
    | nil => simp at h3
    | cons b bs =>
      have hab := h4 0
      simp at hab h3
      have := ih bs h3 (fun i hi => by simpa using h4 (i + 1) (by simpa using hi))
      simp only [List.count_cons]
      cases a <;> cases b <;> simp at hab ⊢ <;> omega

/-- C154. What is in the smaller cache is in the larger one, and the order of use is the same. -/
theorem C154_contents_partial {n m : Nat} (h : n ≤ m) (us : List (Use K V)) :
    ∃ s hs t ht, uses (init n) us = some (s, hs) ∧ uses (init m) us = some (t, ht) ∧
      ((contents s).map (·.1)).Sublist ((contents t).map (·.1)) := by
  obtain ⟨s, hs, t, ht, a, b, h1, h2, -, h4, h5, h6⟩ := incl_uses (has_init n) (has_init m) (incl_init h) us
  refine ⟨s, hs, t, ht, h1, h2, ?_⟩
  rw [has_contents h4, has_contents h5]
  exact h6.sub

/-- C154 fails for `insert`, which does not count as a use if the key is present, for any two capacities from 2 on: the same
calls, and in the end the smaller cache has the key and the larger one does not. -/
theorem C154_fails {n m : Nat} (hn : 2 ≤ n) (hm : n < m) :
    let cs := (List.range m).map (fun k => .insert k k) ++ [.insert 0 0, .insert m m, .contains 0]
    ∃ s rs t rt, calls cs (init n : State Nat Nat) = some (s, rs) ∧ calls cs (init m : State Nat Nat) = some (t, rt) ∧
      rs.getLast? = some (.bool true) ∧ rt.getLast? = some (.bool false) := by
  intro cs
  have key : ∀ cap, cap = n ∨ cap = m → ∃ s rs, calls cs (init cap : State Nat Nat) = some (s, rs) ∧
      rs.getLast? = some (.bool (decide (cap = n))) := by
    intro cap hcap
    obtain ⟨s, T, h1, -, -⟩ := steps_sim (rel_init (K := Nat) (V := Nat) cap) cs
    refine ⟨s, _, h1, ?_⟩
    have hv : view (init cap) ([] : List (Entry Nat Nat)) = { capacity := cap, items := [] } := rfl
    have hi := insert_again (V := Nat) (fun k => k) hn hm cap hcap
    rw [hv, steps_append_snd, List.getLast?_append, hi]
    rfl
  obtain ⟨s, rs, h1, h2⟩ := key n (.inl rfl)
  obtain ⟨t, rt, h3, h4⟩ := key m (.inr rfl)
  refine ⟨s, rs, t, rt, h1, h3, by simpa using h2, ?_⟩
  rw [h4, decide_eq_false (by omega)]

/-! ## Cases -/

/-- Capacities 1, 2 and 3. -/
example : (uses (init 1 : State Nat Nat) [.fetch 1 10, .fetch 2 20, .fetch 1 10, .assign 3 30, .fetch 2 20]).map (·.2) =
      some [false, false, false, false, false] ∧
    (uses (init 2 : State Nat Nat) [.fetch 1 10, .fetch 2 20, .fetch 1 10, .assign 3 30, .fetch 2 20]).map (·.2) =
      some [false, false, true, false, false] ∧
    (uses (init 3 : State Nat Nat) [.fetch 1 10, .fetch 2 20, .fetch 1 10, .assign 3 30, .fetch 2 20]).map (·.2) =
      some [false, false, true, false, true] := by decide

example : ∃ s hs t ht, uses (init 1 : State Nat Nat) [.fetch 1 10, .get 2, .remove 1] = some (s, hs) ∧
    uses (init 3 : State Nat Nat) [.fetch 1 10, .get 2, .remove 1] = some (t, ht) ∧ HitsToo hs ht :=
  C154_hits_partial (by omega) _

/-- The calls of `C154_fails` for capacities 2 and 3. -/
example : (calls [.insert 0 0, .insert 1 1, .insert 2 2, .insert 0 0, .insert 3 3, .contains 0]
      (init 2 : State Nat Nat)).map (·.2.getLast?) = some (some (.bool true)) ∧
    (calls [.insert 0 0, .insert 1 1, .insert 2 2, .insert 0 0, .insert 3 3, .contains 0]
      (init 3 : State Nat Nat)).map (·.2.getLast?) = some (some (.bool false)) := by decide

end Pluto.Props
