import Verif.Proofs.LruCopy

/-!
# Copying a `lru_cache` (C87)

A user who copies a cache expects a cache of its own with the same contents.  `copy s` is what the implicit copy
constructor makes of the cache `s`; `(Cache.steps _ cs).1` is the abstract cache reached by the calls `cs`.
-/

namespace Pluto.Props
open Pluto.Lru Pluto.Spec.Lru
variable {K V : Type} [DecidableEq K]

/-- C87, what is true: the calls `ds` on a copy return what they would return on the source, provided that none of them
is a `get`, `remove` or `insert_or_assign` of a key that came with the copy and has not left it since.
Missing: the same without that condition, see the next two theorems. -/
theorem C87_copy_partial (n : Nat) (cs ds : List (Call K V)) (s : State K V) (rs : List (Ret V))
    (h : calls cs (init n) = some (s, rs))
    (hd : ¬ usesOld (({ capacity := n, items := [] } : Cache K V).steps cs).1
      (({ capacity := n, items := [] } : Cache K V).steps cs).1.keys ds) :
    (calls ds (copy s)).map (·.2) = some ((({ capacity := n, items := [] } : Cache K V).steps cs).1.steps ds).2 := by
  obtain ⟨T, h1, h2, _⟩ := reach_rel h
  rw [← h2] at hd ⊢
  rcases copy_steps h1 ds with ⟨h3, _⟩ | ⟨_, h3⟩
  · exact absurd h3 hd
  · exact h3

/-- Keys 1 and 2 are copied; 1 is evicted by 3 and can be used again afterwards. -/
example : (∃ s rs, calls [.insert 1 10, .insert 2 20] (init 2 : State Nat Nat) = some (s, rs) ∧
      (calls [.contains 1, .insert 1 11, .insert 3 30, .get 3, .get 1, .insertOrAssign 1 12, .get 1, .size] (copy s)).map
        (·.2) = some [.bool true, .bool false, .bool true, .value (some 30), .value none, .bool true,
          .value (some 12), .nat 2]) ∧
    ¬ usesOld (({ capacity := 2, items := [] } : Cache Nat Nat).steps [.insert 1 10, .insert 2 20]).1
      [2, 1] [.contains 1, .insert 1 11, .insert 3 30, .get 3, .get 1, .insertOrAssign 1 12, .get 1, .size] := by
  refine ⟨⟨_, _, rfl, by decide⟩, ?_⟩
  simp [usesOld, Cache.steps, Cache.step, Cache.lookup, Cache.keys, Call.uses, Cache.without]

/-- C87 fails: on a copy of any cache, a `get`, a `remove` or an `insert_or_assign` of any key of the source has undefined
behaviour (it uses an iterator of another list), whatever was done to the source before. -/
theorem C87_fails (n : Nat) (cs : List (Call K V)) (s : State K V) (rs : List (Ret V))
    (h : calls cs (init n) = some (s, rs)) (k : K) (v : V)
    (hk : k ∈ (({ capacity := n, items := [] } : Cache K V).steps cs).1.items.map (·.1)) :
    calls [.get k] (copy s) = none ∧ calls [.remove k] (copy s) = none ∧
      calls [.insertOrAssign k v] (copy s) = none := by
  obtain ⟨T, h1, h2, _⟩ := reach_rel h
  rw [← h2] at hk
  have key : ∀ c : Call K V, c.uses = some k → calls [c] (copy s) = none := by
    intro c hc
    rcases copy_steps h1 [c] with ⟨_, h3⟩ | ⟨h3, _⟩
    · exact h3
    · exact absurd (.inl ⟨k, hk, hc⟩) h3
  exact ⟨key _ rfl, key _ rfl, key _ rfl⟩

/-- One key, inserted and copied: reading it from the source gives the value, reading it from the copy is undefined. -/
example : (calls [.insert 1 10, .get 1] (init 2 : State Nat Nat)).map (·.2) = some [.bool true, .value (some 10)] ∧
    ∃ s rs, calls [.insert 1 10] (init 2 : State Nat Nat) = some (s, rs) ∧ calls [.get 1] (copy s) = none :=
  ⟨by decide, _, _, rfl, by decide⟩

/-- C87, exactly when: the calls `ds` on a copy have undefined behaviour iff one of them is a `get`, `remove` or
`insert_or_assign` of a key that has been in the copy since it was made. -/
theorem C87_exact (n : Nat) (cs ds : List (Call K V)) (s : State K V) (rs : List (Ret V))
    (h : calls cs (init n) = some (s, rs)) :
    calls ds (copy s) = none ↔ usesOld (({ capacity := n, items := [] } : Cache K V).steps cs).1
      (({ capacity := n, items := [] } : Cache K V).steps cs).1.keys ds := by
  obtain ⟨T, h1, h2, _⟩ := reach_rel h
  rw [← h2]
  rcases copy_steps h1 ds with ⟨h3, h4⟩ | ⟨h3, h4⟩
  · exact ⟨fun _ => h3, fun _ => h4⟩
  · refine ⟨fun h5 => ?_, fun h5 => absurd h5 h3⟩
    rw [h5] at h4; cases h4

/-- C87: a copy that is cleared first, and a copy of an empty cache, is a cache like any other. -/
theorem C87_cleared (n : Nat) (cs ds : List (Call K V)) (s : State K V) (rs : List (Ret V))
    (h : calls cs (init n) = some (s, rs)) :
    (calls (.clear :: ds) (copy s)).map (·.2) =
      some (.unit :: (({ capacity := (({ capacity := n, items := [] } : Cache K V).steps cs).1.capacity, items := [] } :
        Cache K V).steps ds).2) ∧
    ((({ capacity := n, items := [] } : Cache K V).steps cs).1.items = [] →
      (calls ds (copy s)).map (·.2) = (calls ds s).map (·.2)) := by
  have hnil : ∀ (ds : List (Call K V)) (c : Cache K V), ¬ usesOld c [] ds := by
    intro ds
    induction ds with
    | nil => exact fun _ h => h
    | cons d ds ih =>
      rintro c (⟨k, hk, _⟩ | h)
      · cases hk
      · exact ih _ h
  constructor
  · refine C87_copy_partial n cs (.clear :: ds) s rs h ?_
    rintro (⟨k, _, hk⟩ | hx)
    · cases hk
    · simp only [Cache.step, Cache.keys, List.map_nil, List.not_mem_nil, decide_false, List.filter_false] at hx
      exact hnil ds _ hx
  · intro he
    have h1 := C87_copy_partial n cs ds s rs h (by
      unfold Cache.keys
      rw [he]; exact hnil ds _)
    obtain ⟨T, h2, h3, _⟩ := reach_rel h
    obtain ⟨s', T', h4, _, _⟩ := steps_sim h2 ds
    rw [h1, h4, h3]; rfl

example : ∃ s rs, calls [.insert 1 10] (init 2 : State Nat Nat) = some (s, rs) ∧
    (calls [.clear, .get 1, .insert 1 11, .get 1] (copy s)).map (·.2) =
      some [.unit, .value none, .bool true, .value (some 11)] := ⟨_, _, rfl, by decide⟩

end Pluto.Props
