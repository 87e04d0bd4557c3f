import Mathlib.Data.List.Perm.Subperm
import Mathlib.Data.List.Induction
import Verif.Spec.LruTable
import Verif.Proofs.LruUse
import Verif.Proofs.SafeLru

/-! # Lemmas on a cache used as a table (C156) -/

namespace Pluto.Lru
open Pluto.Spec.Lru
variable {K V : Type} [DecidableEq K]

theorem first_append (k : K) (cs ds : List (Call K V)) : first k (cs ++ ds) = (first k cs).or (first k ds) := by
  induction cs with
  | nil => simp [first]
  | cons c cs ih =>
    cases c <;> simp only [List.cons_append, first, ih]
    split <;> simp

theorem first_mem {k : K} {v : V} {cs : List (Call K V)} (h : first k cs = some v) : .insert k v ∈ cs := by
  induction cs with
  | nil => simp [first] at h
  | cons c cs ih =>
    cases c with
    | insert k' v' =>
      simp only [first] at h
      split at h
      · rename_i e
        subst e
        cases h
        simp
      · exact List.mem_cons_of_mem _ (ih h)
    | _ => exact List.mem_cons_of_mem _ (ih h)

theorem first_isSome {k : K} {v : V} {cs : List (Call K V)} (h : .insert k v ∈ cs) : (first k cs).isSome = true := by
  obtain ⟨p, q, rfl⟩ := List.append_of_mem h
  rw [first_append]
  simp [first]

theorem lookup_without (c : Cache K V) (k k' : K) :
    Cache.lookup { c with items := c.without k } k' = if k = k' then none else c.lookup k' := by
  unfold Cache.lookup Cache.without
  induction c.items with
  | nil => simp
  | cons e l ih =>
    by_cases h1 : e.1 = k
    · rw [List.filter_cons_of_neg (by simp [h1]), ih]
      split
      · rfl
      · rename_i h
        rw [List.find?_cons_of_neg (by simp [h1, h])]
    · rw [List.filter_cons_of_pos (by simp [h1])]
      by_cases h2 : e.1 = k'
      · rw [List.find?_cons_of_pos (by simp [h2]), List.find?_cons_of_pos (by simp [h2]),
          if_neg (fun e' => h1 (h2.trans e'.symm))]
      · rw [List.find?_cons_of_neg (by simp [h2]), List.find?_cons_of_neg (by simp [h2])]
        exact ih

theorem lookup_none {c : Cache K V} {k : K} (h : c.lookup k = none) : k ∉ keys c := by
  rw [← lookup_iff, h]
  simp

/-- The cache after calls that only add and read, if there is room for all keys. -/
theorem table_state {n : Nat} {ks : List K} (hn : ks.length ≤ n) (cs : List (Call K V)) (ha : ∀ c ∈ cs, Adds c)
    (hk : ∀ k v, .insert k v ∈ cs → k ∈ ks) :
    let c := (({ capacity := n, items := [] } : Cache K V).steps cs).1
    c.capacity = n ∧ (∀ k ∈ keys c, k ∈ ks) ∧ ∀ k, c.lookup k = first k cs := by
  induction cs using List.reverseRecOn with
  | nil => simp [Cache.steps, keys, Cache.lookup, first]
  | append_singleton cs a ih =>
    obtain ⟨h1, h2, h3⟩ := ih (fun c hc => ha c (by simp [hc])) (fun k v h => hk k v (by simp [h]))
    have hnd := reach_nodup (K := K) (V := V) n cs
    rw [steps_append]
    generalize (({ capacity := n, items := [] } : Cache K V).steps cs).1 = c at *
    simp only [Cache.steps]
    have haa := ha a (by simp)
    cases a with
    | insert k v =>
      have hkk := hk k v (by simp)
      simp only [Cache.step]
      cases hl : c.lookup k with
      | some w =>
        refine ⟨h1, h2, fun k' => ?_⟩
        simp only [Option.isSome_some, if_true]
        rw [first_append, h3]
        by_cases e : k = k'
        · subst e
          rw [← h3, hl]; rfl
        · simp [first, e]
      | none =>
        have hlen : c.items.length < c.capacity := by
          have hn1 : (k :: keys c).Nodup := List.nodup_cons.2 ⟨lookup_none hl, hnd⟩
          have hs : (k :: keys c) ⊆ ks := by
            intro x hx
            rcases List.mem_cons.1 hx with rfl | hx
            · exact hkk
            · exact h2 x hx
          have := (List.subperm_of_subset hn1 hs).length_le
          simp [keys] at this
          omega
        simp only [Option.isSome_none, Bool.false_eq_true, if_false, if_pos hlen]
        refine ⟨h1, ?_, fun k' => ?_⟩
        · intro x hx
          rcases List.mem_cons.1 hx with rfl | hx
          · exact hkk
          · exact h2 x hx
        · rw [lookup_cons, first_append]
          have e3 : Cache.lookup { capacity := c.capacity, items := c.items } k' = first k' cs := h3 k'
          rw [e3]
          by_cases e : k = k'
          · subst e
            rw [if_pos rfl, ← h3, hl]
            simp [first]
          · simp [first, e]
    | get k =>
      have hf : ∀ k', first k' (cs ++ [.get k]) = first k' cs := fun k' => by rw [first_append]; simp [first]
      simp only [Cache.step]
      cases hl : c.lookup k with
      | none => exact ⟨h1, h2, fun k' => by rw [hf]; exact h3 k'⟩
      | some w =>
        refine ⟨h1, ?_, fun k' => ?_⟩
        · intro x hx
          rcases List.mem_cons.1 hx with rfl | hx
          · exact h2 _ ((lookup_iff c _).1 (by simp [hl]))
          · obtain ⟨e, he, rfl⟩ := List.mem_map.1 hx
            exact h2 _ (List.mem_map.2 ⟨e, (List.mem_filter.1 he).1, rfl⟩)
        · rw [hf, lookup_cons]
          by_cases e : k = k'
          · subst e
            rw [if_pos rfl, ← h3, hl]
          · rw [if_neg e]
            have := lookup_without c k k'
            rw [if_neg e] at this
            exact this.trans (h3 k')
    | contains k => exact ⟨h1, h2, fun k' => by rw [first_append]; simpa [first, Cache.step] using h3 k'⟩
    | size => exact ⟨h1, h2, fun k' => by rw [first_append]; simpa [first, Cache.step] using h3 k'⟩
    | empty => exact ⟨h1, h2, fun k' => by rw [first_append]; simpa [first, Cache.step] using h3 k'⟩
    | capacity => exact ⟨h1, h2, fun k' => by rw [first_append]; simpa [first, Cache.step] using h3 k'⟩
    | _ => exact haa.elim

/-- What the call after `p` returns. -/
theorem table_result {n : Nat} {ks : List K} (hn : ks.length ≤ n) (p q : List (Call K V)) (a : Call K V)
    (ha : ∀ c ∈ p ++ a :: q, Adds c) (hk : ∀ k v, .insert k v ∈ p ++ a :: q → k ∈ ks) :
    ∃ r, (({ capacity := n, items := [] } : Cache K V).steps (p ++ a :: q)).2[p.length]? = some r ∧
      (∀ k v, a = .insert k v → r = .bool (first k p).isNone) ∧ (∀ k, a = .get k → r = .value (first k p)) ∧
      (∀ k, a = .contains k → r = .bool (first k p).isSome) := by
  obtain ⟨h1, h2, h3⟩ := table_state hn p (fun c hc => ha c (by simp [hc])) (fun k v h => hk k v (by simp [h]))
  rw [steps_append_snd, List.getElem?_append_right (by rw [steps_length]; exact Nat.le_refl _), steps_length, Nat.sub_self]
  generalize (({ capacity := n, items := [] } : Cache K V).steps p).1 = c at *
  refine ⟨(c.step a).2, rfl, ?_, ?_, ?_⟩
  · rintro k v rfl
    simp only [Cache.step, ← h3]
    cases c.lookup k with
    | some w => rfl
    | none =>
      simp only [Option.isSome_none, Bool.false_eq_true, if_false]
      split
      · rfl
      · split <;> rfl
  · rintro k rfl
    simp only [Cache.step, ← h3]
    cases c.lookup k <;> rfl
  · rintro k rfl
    simp only [Cache.step, ← h3]

end Pluto.Lru

namespace Pluto.SafeLru
variable {K V : Type}

theorem before_or {lin : List (Op K V)} {a b : Op K V} (ha : a ∈ lin) (hb : b ∈ lin) (h : a ≠ b) :
    (∃ p q, lin = p ++ a :: q ∧ b ∈ p) ∨ ∃ p q, lin = p ++ b :: q ∧ a ∈ p := by
  obtain ⟨p, q, rfl⟩ := List.append_of_mem ha
  simp only [List.mem_append, List.mem_cons] at hb
  rcases hb with hb | hb | hb
  · exact .inl ⟨p, q, rfl, hb⟩
  · exact (h hb.symm).elim
  · obtain ⟨q₁, q₂, rfl⟩ := List.append_of_mem hb
    exact .inr ⟨p ++ a :: q₁, q₂, by simp, by simp⟩

theorem before_of_sublist {A B : List Nat} {i j : Nat} (hn : (A ++ j :: B).Nodup) (h : [i, j].Sublist (A ++ j :: B)) :
    i ∈ A := by
  have hj : j ∉ A := fun hA => (List.nodup_append.1 hn).2.2 j hA j (by simp) rfl
  have hj' : j ∉ B := (List.nodup_cons.1 (List.nodup_append.1 hn).2.1).1
  obtain ⟨l₁, l₂, e, h1, h2⟩ := List.sublist_append_iff.1 h
  rcases l₁ with _ | ⟨x, l₁⟩
  · simp only [List.nil_append] at e
    subst e
    cases h2 with
    | cons _ h2 => exact (hj' (h2.subset (by simp))).elim
    | cons_cons _ h2 => exact (hj' (h2.subset (by simp))).elim
  · simp only [List.cons_append, List.cons.injEq] at e
    obtain ⟨rfl, -⟩ := e
    exact h1.subset (by simp)

end Pluto.SafeLru
