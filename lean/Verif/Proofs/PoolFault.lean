import Verif.Model.PoolFault

/-! # Lemmas about failing calls of the thread pool -/

namespace Pluto.PoolFault
open Pluto.Pool

theorem grow_spec (f : Faults) (n k : Nat) (s : State) :
    ∃ m, m ≤ n ∧ (PoolFault.grow f n k s).2 = { s with workers := s.workers ++ List.replicate m .ready } ∧
      ((PoolFault.grow f n k s).1 = .returned → m = n) ∧
      ((PoolFault.grow f n k s).1 ≠ .returned → m < n) ∧
      ((PoolFault.grow f n k s).1 = .threw → f.thread (k + m) = true) ∧
      ((PoolFault.grow f n k s).1 = .terminated → f.table (k + m) = true) ∧
      (∀ j, k ≤ j → j < k + m → f.thread j = false ∧ f.table j = false) := by
  induction n generalizing k s with
  | zero => exact ⟨0, by simp [PoolFault.grow]; omega⟩
  | succ n ih =>
    unfold PoolFault.grow
    by_cases h1 : f.thread k = true
    · exact ⟨0, by simp [h1]; omega⟩
    · by_cases h2 : f.table k = true
      · exact ⟨0, by simp [h1, h2]; omega⟩
      · rw [if_neg h1, if_neg h2]
        obtain ⟨m, hm, hs, h3, h4, h5, h6, h7⟩ := ih (k + 1) { s with workers := s.workers ++ [.ready] }
        have e : k + (m + 1) = k + 1 + m := by omega
        refine ⟨m + 1, by omega, ?_, fun h => by rw [h3 h], fun h => by have := h4 h; omega,
          fun h => by rw [e]; exact h5 h, fun h => by rw [e]; exact h6 h, ?_⟩
        · rw [hs]
          simp [List.append_assoc, List.replicate_succ]
        · intro j hj1 hj2
          by_cases hjk : j = k
          · subst hjk; exact ⟨by simpa using h1, by simpa using h2⟩
          · exact h7 j (by omega) (by omega)

end Pluto.PoolFault
