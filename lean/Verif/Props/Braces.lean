import Verif.Model.Braces
import Verif.Props.Seq

/-!
# Copies and slices of containers of any element type (C113)
-/

namespace Pluto.Props
open Pluto.Braces Pluto.SeqSpec

/-- C113, the part that holds: `copy` gives the elements of its argument if a container does not convert to
an element, or with compilers that follow CWG 1467 only. -/
theorem C113_copy_partial {E : Type} {rule : Rule} {t : Elements E} (h : rule = .copies ∨ t.ofContainer = none)
    (value : List E) : Braces.copy rule t value = value := by
  unfold Braces.copy
  cases rule with
  | copies => rfl
  | aggregates =>
    rcases h with h | h
    · cases h
    · simp only [braces, h]

/-- C113, the part that holds: `slice` is the slice of Python if an iterator does not convert to an element. -/
theorem C113_slice_partial {E : Type} {t : Elements E} (h : t.ofIterator = none) (xs : List E) (start stop : Int) :
    Braces.slice t xs start stop = .ok (pySlice xs start stop) ∧ Braces.sliceTo t xs stop = .ok (pySlice xs 0 stop) := by
  have key : ∀ start stop, Braces.slice t xs start stop = Seq.slice xs start stop := by
    intro start stop
    unfold Braces.slice Seq.slice
    simp only [braces, h]
  unfold Braces.sliceTo
  rw [key, key, (C65_slice xs start stop).1, (C65_slice xs 0 stop).1]
  exact ⟨rfl, rfl⟩

example : Braces.slice (E := Int) {} [1, 2, 3, 4] 1 (-1) = .ok [2, 3] ∧
    Braces.copy (E := Int) .aggregates {} [1, 2, 3] = [1, 2, 3] ∧ Braces.copy .copies any [.number 1] = [.number 1] := by
  refine ⟨rfl, rfl, rfl⟩

/-- C113. Otherwise the copy has one element, which is made of the whole argument. (The property is false.) -/
theorem C113_fails_copy {E : Type} {t : Elements E} {f : List E → E} (h : t.ofContainer = some f) (value : List E) :
    Braces.copy .aggregates t value = [f value] := by
  simp only [Braces.copy, braces, h, List.map_cons, List.map_nil]

/-- C113. No copy of a `std::vector<std::any>` is equal to it, not even that of an empty one. (The property is false.) -/
theorem C113_fails_any (value : List Any) : Braces.copy .aggregates any value ≠ value := by
  rw [C113_fails_copy (t := any) (f := .vector) rfl]
  intro h
  have := congrArg sizeOf h
  simp at this
  omega

/-- C113. If an iterator converts to an element, every slice that should not be empty has two elements made of
iterators. (The property is false.) -/
theorem C113_fails_slice {E : Type} {t : Elements E} {f : Nat → E} (h : t.ofIterator = some f) (xs : List E)
    (start stop : Int) : Braces.slice t xs start stop = .ok [] ∧ pySlice xs start stop = [] ∨
      ∃ i j, Braces.slice t xs start stop = .ok [f i, f j] ∧ i < j ∧ j ≤ xs.length ∧
        pySlice xs start stop = (xs.drop i).take (j - i) := by
  have hp := (C65_slice xs start stop).1
  unfold Seq.slice at hp
  unfold Braces.slice
  simp only at hp ⊢
  generalize (if start < 0 then if start + (xs.length : Int) < 0 then 0 else start + xs.length else start) = s at hp ⊢
  generalize (if stop < 0 then stop + (xs.length : Int) else if (xs.length : Int) < stop then (xs.length : Int) else stop)
    = t' at hp ⊢
  by_cases hle : t' ≤ s
  · rw [if_pos hle] at hp ⊢
    left
    refine ⟨rfl, ?_⟩
    injection hp with hp
    exact hp.symm
  · rw [if_neg hle] at hp ⊢
    right
    cases h1 : Seq.stdAdvance xs.length 0 s with
    | error e => rw [h1] at hp; cases hp
    | ok i =>
      rw [h1] at hp
      simp only [bind, Except.bind] at hp ⊢
      cases h2 : Seq.stdAdvance xs.length i (t' - s) with
      | error e => rw [h2] at hp; cases hp
      | ok j =>
        rw [h2] at hp
        simp only [pure, Except.pure] at hp ⊢
        refine ⟨i, j, by simp [braces, h], ?_⟩
        unfold Seq.stdAdvance at h1 h2
        simp only at h1 h2
        split at h1
        · cases h1
        split at h2
        · cases h2
        cases h1
        cases h2
        refine ⟨by omega, by omega, ?_⟩
        injection hp with hp
        exact hp.symm

example : any.ofIterator = some .iterator ∧ Braces.slice any [.number 1, .number 2, .number 3, .number 4] 0 3 =
    .ok [.iterator 0, .iterator 3] := ⟨rfl, rfl⟩

end Pluto.Props
