import Verif.Proofs.Callback

/-!
# C150: functions of the user are called once for each element in order, and an exception stops there
-/

namespace Pluto.Props
open Pluto.Callback Pluto.CallbackSpec Pluto.CallbackProofs

/-- C150.  `any` calls the predicate for the elements in order, once for each, until it says yes or throws. -/
theorem C150_any (p : Fun α Bool σ) (xs : List α) (s : σ) :
    (∃ ys s', any p xs s = (some false, s') ∧ Ran p xs ys s s' ∧ ∀ y ∈ ys, y = false) ∨
    (∃ b ys s', any p xs s = (some true, s') ∧ Stopped p (· = false) xs b ys s (some true) s') ∨
    ∃ b ys s', any p xs s = (none, s') ∧ Stopped p (· = false) xs b ys s none s' :=
  any_cases p xs s

/-- C150.  `all` likewise until the predicate says no or throws. -/
theorem C150_all (p : Fun α Bool σ) (xs : List α) (s : σ) :
    (∃ ys s', all p xs s = (some true, s') ∧ Ran p xs ys s s' ∧ ∀ y ∈ ys, y = true) ∨
    (∃ b ys s', all p xs s = (some false, s') ∧ Stopped p (· = true) xs b ys s (some false) s') ∨
    ∃ b ys s', all p xs s = (none, s') ∧ Stopped p (· = true) xs b ys s none s' :=
  all_cases p xs s

/-- C150.  `count_if` calls the predicate for all elements in order, unless it throws, and returns how often it said yes. -/
theorem C150_count_if (p : Fun α Bool σ) (xs : List α) (s : σ) :
    (∃ ys s', countIf p xs s = (some (ys.count true), s') ∧ Ran p xs ys s s') ∨
    ∃ b ys s', countIf p xs s = (none, s') ∧ Stopped p (fun _ => True) xs b ys s none s' := by
  have := countIf_cases p xs 0 s
  simpa [countIf] using this

/-- C150.  `find_if` calls the predicate for the elements in order until it says yes or throws. -/
theorem C150_find_if (p : Fun α Bool σ) (xs : List α) (s : σ) :
    (∃ ys s', findIf p xs 0 s = (some xs.length, s') ∧ Ran p xs ys s s' ∧ ∀ y ∈ ys, y = false) ∨
    (∃ b ys s', findIf p xs 0 s = (some b.length, s') ∧ Stopped p (· = false) xs b ys s (some true) s') ∨
    ∃ b ys s', findIf p xs 0 s = (none, s') ∧ Stopped p (· = false) xs b ys s none s' := by
  have := findIf_cases p xs 0 s
  simpa using this

/-- A predicate that counts its calls and throws on its third. -/
def exampleThird (x : Nat) (s : Nat) : Option Bool × Nat := (if s = 2 then none else some (x % 2 == 0), s + 1)

example : any exampleThird [1, 2, 3] 0 = (some true, 2) ∧ any exampleThird [1, 3, 4] 0 = (none, 3) ∧
    all exampleThird [1, 2] 0 = (some false, 1) ∧ countIf exampleThird [2, 4] 0 = (some 2, 2) ∧
    findIf exampleThird [1, 2, 3] 0 0 = (some 1, 2) := by decide

/-- C150.  `for_each` calls the function for the elements in order: if it throws, the elements before have been changed by it,
that one has been left as it was when the exception was thrown, and those after it are as they were. -/
theorem C150_for_each (f : α → σ → (α × Bool) × σ) (xs : List α) (s : σ) :
    (∃ ys s', forEach f xs s = ((ys, false), s') ∧
      Ran (fun x s => (if (f x s).1.2 then none else some (f x s).1.1, (f x s).2)) xs ys s s') ∨
    ∃ b x after ys y s₁ s', forEach f xs s = ((ys ++ y :: after, true), s') ∧ xs = b ++ x :: after ∧
      Ran (fun x s => (if (f x s).1.2 then none else some (f x s).1.1, (f x s).2)) b ys s s₁ ∧
      f x s₁ = ((y, true), s') := by
  induction xs generalizing s with
  | nil => exact .inl ⟨[], s, rfl, .nil _⟩
  | cons x xs ih =>
    rw [forEach]
    rcases hf : f x s with ⟨⟨y, _ | _⟩, t⟩
    · dsimp only
      rcases ih t with ⟨ys, s', h, hr⟩ | ⟨b, z, after, ys, w, s1, s', h, hx, hr, hc⟩
      · rw [h]
        exact .inl ⟨y :: ys, s', rfl, .cons (s' := t) (by simp [hf]) hr⟩
      · rw [h]
        exact .inr ⟨x :: b, z, after, y :: ys, w, s1, s', rfl, by rw [hx]; rfl, .cons (s' := t) (by simp [hf]) hr, hc⟩
    · exact .inr ⟨[], x, xs, [], y, s, t, rfl, rfl, .nil _, hf⟩

/-- A function that doubles and throws on its third call. -/
example : forEach (fun x s => ((2 * x, s == 2), s + 1)) [1, 2, 3, 4] 0 = (([2, 4, 6, 4], true), 3) := by decide

/-- C150.  `map(source, destination, function)` adds the results in order; if the function throws, those before that are
there. -/
theorem C150_map (f : Fun α β σ) (destination : List β) (xs : List α) (s : σ) :
    (∃ ys s', mapInto f destination xs s = ((destination ++ ys, false), s') ∧ Ran f xs ys s s') ∨
    ∃ b ys s', mapInto f destination xs s = ((destination ++ ys, true), s') ∧ Stopped f (fun _ => True) xs b ys s none s' :=
  mapInto_cases f destination xs s

/-- C150.  `map<Destination>(source, function)` returns the results in order, unless the function throws. -/
theorem C150_map_new (f : Fun α β σ) (xs : List α) (s : σ) :
    (∃ ys s', map f xs s = (some ys, s') ∧ Ran f xs ys s s') ∨
    ∃ b ys s', map f xs s = (none, s') ∧ Stopped f (fun _ => True) xs b ys s none s' := by
  unfold map
  rcases mapInto_cases f [] xs s with ⟨ys, s', h, hr⟩ | ⟨b, ys, s', h, hr⟩
  · rw [h]
    exact .inl ⟨ys, s', rfl, hr⟩
  · rw [h]
    exact .inr ⟨b, ys, s', rfl, hr⟩

example : mapInto exampleThird [true] [1, 2, 3, 4] 0 = (([true, false, true], true), 3) := by decide

/-- C150.  `filter` calls the predicate for all elements in order, once for each, and keeps those to which it says yes.  If the
predicate throws: the elements so far to which it said yes come first; the element for which it threw and those after it are as
they were; between them are those to which it said no, as far as their places have not been taken, and elements that have been
moved from.  Nothing has happened if it has not said no before. -/
theorem C150_filter (p : Fun α Bool σ) (xs : List α) (s : σ) :
    (∃ ys s', filter p xs s = (.returned ((chosen xs ys).map some) (chosen xs ys).length, s') ∧ Ran p xs ys s s') ∨
    ∃ b x after ys s₁ s', xs = b ++ x :: after ∧ Ran p b ys s s₁ ∧ p x s₁ = (none, s') ∧
      (false ∈ ys → filter p xs s = (.threw ((chosen b ys).map some ++ (emptied b ys).drop (chosen b ys).length ++
        (x :: after).map some), s')) ∧
      (false ∉ ys → filter p xs s = (.threw (xs.map some), s')) := by
  rcases filter_cases p xs s with h | ⟨b, x, after, ys, s1, s', h, hx, hr, hc⟩
  · exact .inl h
  · refine .inr ⟨b, x, after, ys, s1, s', hx, hr, hc, fun hf => ?_, fun hf => ?_⟩
    · rw [h, if_pos hf]
      rfl
    · rw [h, if_neg hf]

example : filter exampleThird [1, 2, 4, 6] 0 = (.threw [some 2, none, some 4, some 6], 3) ∧
    filter (fun x s => (some (x % 2 == 0), s + 1)) [1, 2, 3, 4, 6] 0 = (.returned [some 2, some 4, some 6] 3, 5) := by decide

/-- C150.  If the predicate of `filter` throws, the number of elements is the same, the container begins with the elements to
which it has said yes, and it ends with those about which it has not been asked. -/
theorem C150_filter_keeps (p : Fun α Bool σ) (xs : List α) (s s' : σ) (cells : List (Option α))
    (h : filter p xs s = (.threw cells, s')) :
    cells.length = xs.length ∧
    ∃ b after ys s₁, xs = b ++ after ∧ Ran p b ys s s₁ ∧ (chosen b ys).map some <+: cells ∧ after.map some <:+ cells := by
  rcases C150_filter p xs s with ⟨ys, t, h1, _⟩ | ⟨b, x, after, ys, s1, t, hx, hr, _, h1, h2⟩
  · rw [h1] at h
    simp at h
  · have hl := ran_length hr
    have h3 := chosen_le (xs := b) (ys := ys)
    have h4 := emptied_length hl
    by_cases hf : false ∈ ys
    · rw [h1 hf] at h
      simp only [Prod.mk.injEq, InPlace.threw.injEq] at h
      obtain ⟨rfl, rfl⟩ := h
      refine ⟨?_, b, x :: after, ys, s1, hx, hr, ⟨_, by rw [List.append_assoc]⟩, ⟨_, rfl⟩⟩
      rw [hx]
      simp
      omega
    · rw [h2 hf] at h
      simp only [Prod.mk.injEq, InPlace.threw.injEq] at h
      obtain ⟨rfl, rfl⟩ := h
      have ha : chosen b ys = b := chosen_all hl fun y hy => by
        cases y with
        | false => exact absurd hy hf
        | true => rfl
      refine ⟨by simp, b, x :: after, ys, s1, hx, hr, ?_, ?_⟩
      · rw [ha, hx, List.map_append]
        exact ⟨_, rfl⟩
      · rw [hx, List.map_append]
        exact ⟨_, rfl⟩

end Pluto.Props
