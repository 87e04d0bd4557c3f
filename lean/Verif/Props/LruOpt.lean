import Verif.Props.LruUse
import Verif.Proofs.LruOpt

/-! # C159: an LRU cache compared with any other way to keep entries -/

namespace Pluto.Props
open Pluto.Lru Pluto.Spec.Lru
variable {K V : Type} [DecidableEq K]

/-- C159. A program asks for entries by `get`, and by `insert` if that fails. If any store with room for `h ≤ n` entries
serves the same requests with `loads` loads, then a new cache of capacity `n` misses at most `n / (n - h + 1)` times as
often. -/
theorem C159_misses {n h : Nat} (hh : h ≤ n) (ks : List (K × V)) {loads : Nat} (hv : Serves h ∅ (ks.map (·.1)) loads) :
    ∃ s hits, uses (init n) (ks.map fun p => .fetch p.1 p.2) = some (s, hits) ∧
      hits.count false * (n - h + 1) ≤ n * loads := by
  obtain ⟨s, hits, h1, h2⟩ := fetches hh ks hv (has_init n) List.nodup_nil (Nat.zero_le n)
  refine ⟨s, hits, h1, ?_⟩
  have e : n + 1 - h = n - h + 1 := by omega
  rw [e] at h2
  simp only [debt, Finset.card_empty, Nat.mul_zero] at h2
  omega

/-- C159. With twice the room a cache misses at most twice as often as the best possible store. -/
theorem C159_twice {h : Nat} (ks : List (K × V)) {loads : Nat} (hv : Serves h ∅ (ks.map (·.1)) loads) :
    ∃ s hits, uses (init (2 * h)) (ks.map fun p => .fetch p.1 p.2) = some (s, hits) ∧ hits.count false ≤ 2 * loads := by
  obtain ⟨s, hits, h1, h2⟩ := C159_misses (V := V) (show h ≤ 2 * h by omega) ks hv
  refine ⟨s, hits, h1, ?_⟩
  by_contra hlt
  have e : 2 * h - h + 1 = h + 1 := by omega
  rw [e] at h2
  have h3 : (2 * loads + 1) * (h + 1) ≤ 2 * h * loads := (Nat.mul_le_mul_right _ (by omega)).trans h2
  have h4 : (2 * loads + 1) * (h + 1) = 2 * h * loads + (2 * loads + h + 1) := by ring
  omega

/-- C159. A cache is itself such a store, each miss is a load; so the numbers compared are of the same kind. -/
theorem C159_store {n : Nat} (h0 : n ≠ 0) (ks : List (K × V)) :
    ∃ s hits, uses (init n) (ks.map fun p => .fetch p.1 p.2) = some (s, hits) ∧
      Serves n ∅ (ks.map (·.1)) (hits.count false) :=
  fetches_serve h0 ks (has_init n) List.nodup_nil (Nat.zero_le n)

/-- C159. The worst case exists: a program that asks for `n + 1` keys in turn never has a hit with a cache of capacity `n`. -/
theorem C159_worst (n m : Nat) (v : Nat → V) :
    ∃ s, uses (init n) ((List.range m).map fun j => .fetch (j % (n + 1)) (v j)) = some (s, List.replicate m false) := by
  rw [List.range_eq_range']
  exact turn_misses (i := 0) n m (by simpa [turn] using has_init n) v

/-! ## Cases -/

/-- A store with room for two entries serves three keys in turn with four loads: it keeps 0. -/
example : Serves 2 (∅ : Finset Nat) [0, 1, 2, 0, 1] 4 := by
  have h5 := Serves.cons (h := 2) {0, 2} {0, 1} 1 [] 0 (by decide) (by decide) (.nil _)
  have h4 := Serves.cons {0, 2} {0, 2} 0 _ _ (by decide) (by decide) h5
  have h3 := Serves.cons {0, 1} {0, 2} 2 _ _ (by decide) (by decide) h4
  have h2 := Serves.cons {0} {0, 1} 1 _ _ (by decide) (by decide) h3
  exact Serves.cons ∅ {0} 0 _ _ (by decide) (by decide) h2

/-- A cache of capacity 2 misses five times, one of capacity 3 three times. -/
example : (uses (init 2 : State Nat Nat) [.fetch 0 0, .fetch 1 1, .fetch 2 2, .fetch 0 0, .fetch 1 1]).map (·.2.count false) =
      some 5 ∧
    (uses (init 3 : State Nat Nat) [.fetch 0 0, .fetch 1 1, .fetch 2 2, .fetch 0 0, .fetch 1 1]).map (·.2.count false) =
      some 3 := by decide

end Pluto.Props
