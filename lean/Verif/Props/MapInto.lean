import Verif.Proofs.MapInto

/-!
# Properties of `map` into multisets and multimaps (C110) and of a container into itself (C111)

The elements of a set, map, multiset or multimap are given in order.  `less` compares elements (of maps: their keys).
-/

namespace Pluto.Props
open Pluto.Seq Pluto.SeqSpec Pluto.MapInto

variable {α β : Type}

/-! ## C110: multisets and multimaps -/

/-- C110.  `map` into a multiset or multimap keeps what was there and adds every result: the outcome has the same elements,
equally often, and is in order. -/
theorem C110_all (less : β → β → Bool) (hl : StrictWeakOrder less) (f : α → β) (d : List β)
    (hd : d.Pairwise fun a b => less b a = false) (xs : List α) :
    (mapIntoMulti less d f xs).Perm (d ++ xs.map f) ∧
      (mapIntoMulti less d f xs).Pairwise (fun a b => less b a = false) ∧
      (mapMulti less f xs).Perm (xs.map f) ∧ (mapMulti less f xs).Pairwise (fun a b => less b a = false) := by
  have h1 := multiLoop_spec hl f xs (d := d) hd d.length
  have h2 := multiLoop_spec hl f xs (d := []) .nil 0
  exact ⟨h1.2, h1.1, h2.2, h2.1⟩

/-- C110, the part that holds of the order of equivalent elements: if the results come in order and are not before what is
there already, they follow it in this order. -/
theorem C110_order_partial (less : β → β → Bool) (f : α → β) (d : List β) (xs : List α)
    (h : (d ++ xs.map f).Pairwise fun a b => less b a = false) : mapIntoMulti less d f xs = d ++ xs.map f :=
  multiLoop_inOrder f xs d h

/-- C110 fails for the order of equivalent elements: of three results the second of which is less than the others, which are
equivalent, the third one comes before the first one; and results come before an equivalent element that was there. -/
theorem C110_fails_order (less : β → β → Bool) (hl : StrictWeakOrder less) (f : α → β) (a b c : α)
    (h1 : less (f b) (f a) = true) (h2 : Equivalent less (f a) (f c)) :
    mapMulti less f [a, b, c] = [f b, f c, f a] ∧ mapIntoMulti less [f a] f [b, c] = [f b, f c, f a] := by
  have h3 : less (f a) (f b) = false := by
    cases h : less (f a) (f b) with
    | false => rfl
    | true => have := hl.trans _ _ _ h h1; rw [hl.irrefl] at this; cases this
  have h4 : less (f b) (f c) = true := less_of_equiv hl h1 h2
  have h5 : less (f c) (f b) = false := by
    cases h : less (f c) (f b) with
    | false => rfl
    | true => have := hl.trans _ _ _ h h4; rw [hl.irrefl] at this; cases this
  constructor <;>
    simp [mapMulti, mapIntoMulti, mapIntoMultiLoop, stdMultiInsert, lowerBound, upperBound, h1, h3, h4, h5, h2.1, h2.2]

/-- A multimap from numbers to numbers. -/
example : mapMulti (fun a b : Nat × Nat => decide (a.1 < b.1)) (fun n => (n % 3, n)) [2, 1, 5, 4] =
      [(1, 1), (1, 4), (2, 5), (2, 2)] ∧
    (([] : List Nat) ++ [1, 1, 2].map id).Pairwise (fun a b => decide (b < a) = false) ∧
    mapMulti (fun a b : Nat => decide (a < b)) id [1, 1, 2] = [1, 1, 2] := by decide

/-! ## C111: a container into itself -/

/-- C111.  `map(c, c, f)` of an empty container leaves it empty. -/
theorem C111_empty (kind : Kind) (less : β → β → Bool) (f : β → β) (fuel : Nat) :
    mapSelf kind f fuel [] = .ok [] ∧ mapSelfSet less f fuel [] = .ok [] := by
  constructor
  · unfold mapSelf; rw [selfLoop]; rfl
  · unfold mapSelfSet; rw [List.head?_nil, selfSetLoop]

/-- C111 fails for sequences: of a `std::vector`, `std::deque` or string that is not empty the behaviour is undefined, and
for a `std::list` that is not empty the call never returns. -/
theorem C111_fails_sequence (f : β → β) (d : List β) (hd : d ≠ []) :
    (∀ fuel, mapSelf .array f (fuel + 1) d = .error .undefined) ∧ ∀ fuel, mapSelf .nodes f fuel d = .error .outOfFuel := by
  have hl : 0 < d.length := List.length_pos_iff.2 hd
  refine ⟨fun fuel => ?_, fun fuel => selfLoop_list f fuel d 0 hl⟩
  unfold mapSelf
  rw [selfLoop]
  simp only [Bool.not_true, Bool.false_eq_true, if_false, List.getElem?_eq_getElem hl]
  rw [selfLoop]
  rfl

/-- C111, the part that holds: if no result is greater than the element it comes from, `map(c, c, f)` of a `std::set` or
`std::map` ends after as many iterations as there were elements, with the outcome for a copy of `c` as the source. -/
theorem C111_set_partial (less : β → β → Bool) (hl : StrictWeakOrder less) (f : β → β) (d : List β)
    (hd : d.Pairwise fun a b => less a b = true) (hf : ∀ x ∈ d, less x (f x) = false) (fuel : Nat)
    (hfuel : d.length ≤ fuel) : mapSelfSet less f fuel d = .ok (mapIntoSet less d f d) :=
  selfSetLoop_spec hl f hd hf d [] rfl fuel hfuel

/-- C111 fails for a `std::set` or `std::map` that is not empty, if every result is greater than the element it comes from:
the call never returns. -/
theorem C111_fails_set (less : β → β → Bool) (hl : StrictWeakOrder less) (f : β → β) (d : List β)
    (hd : d.Pairwise fun a b => less a b = true) (hne : d ≠ []) (hf : ∀ x, less x (f x) = true) (fuel : Nat) :
    mapSelfSet less f fuel d = .error .outOfFuel := by
  cases d with
  | nil => exact absurd rfl hne
  | cons x d => exact selfSetLoop_forever hl f hf fuel hd x

/-- Halving ends with what it should; the successor up to 3 ends with more; the successor does not end. -/
example : StrictWeakOrder (fun a b : Nat => decide (a < b)) ∧
    (∀ x ∈ [4, 7], decide (x < x / 2) = false) ∧
    mapSelfSet (fun a b : Nat => decide (a < b)) (· / 2) 2 [4, 7] = .ok [2, 3, 4, 7] ∧
    mapSelfSet (fun a b : Nat => decide (a < b)) (fun n => min (n + 1) 3) 9 [1] = .ok [1, 2, 3] ∧
    mapIntoSet (fun a b : Nat => decide (a < b)) [1] (fun n => min (n + 1) 3) [1] = [1, 2] ∧
    ∀ x : Nat, decide (x < x + 1) = true :=
  ⟨⟨by simp, by simp; omega, by simp; omega⟩, by decide, rfl, rfl, by decide, by simp⟩

end Pluto.Props
