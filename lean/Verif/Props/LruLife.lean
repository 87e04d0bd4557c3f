import Verif.Proofs.LruLife

/-!
# C165: the cache destroys a value when its key leaves the cache or gets another value, and never twice
-/

namespace Pluto.Props
open Pluto.Lru Pluto.Spec.Lru
variable {K V : Type} [DecidableEq K] [DecidableEq V]

/-- C165: after any sequence of calls, any call destroys exactly the values of the pairs that are in the cache before it
and not after it: a value never outlives its pair, and none is destroyed on the way that stays. -/
theorem C165_destroyed {n : Nat} {cs : List (Call K V)} {s : State K V} {rs : List (Ret V)}
    (h : calls cs (init n) = some (s, rs)) (c : Call K V) :
    let before := (({ capacity := n, items := [] } : Cache K V).steps cs).1
    (destroyed (body noFaults c) s).Perm (gone before.items (before.step c).1.items) := by
  obtain ⟨T, h1, h2, _⟩ := reach_rel h
  have := parts_gone (parts_step h1 c)
  rw [h2] at this
  exact this

/-- Capacity 2: the third key evicts 20, since 10 was read; assigning to key 1 destroys 10; clearing destroys the rest. -/
example : destroyed (body noFaults (.insert 3 30)) (((calls [.insert 1 10, .insert 2 20, .get 1] (init 2 : State Nat Nat)).map
    (·.1)).getD (init 0)) = [20] := by decide
example : destroyedAll [.insert 1 10, .insert 2 20, .get 1, .insert 3 30, .insertOrAssign 1 11, .remove 3, .clear]
    (init 2 : State Nat Nat) = [20, 10, 30, 11] := by decide

/-- C165, lowering the capacity to `n ≠ 0` destroys the values beyond the `n` most recently used ones, in the order from the
least to the most recently used. -/
theorem C165_order {m : Nat} {cs : List (Call K V)} {s : State K V} {rs : List (Ret V)}
    (h : calls cs (init m) = some (s, rs)) {n : Nat} (hn : n ≠ 0) :
    destroyed (body noFaults (.setCapacity n)) s =
      (((({ capacity := m, items := [] } : Cache K V).steps cs).1.items.drop n).map (·.2)).reverse := by
  obtain ⟨T, h1, h2, _⟩ := reach_rel h
  have hr : Rel { s with capacity := n } T := ⟨h1.list, h1.map, h1.ids, h1.keys, h1.fresh⟩
  have hd : destroyed (body noFaults (.setCapacity n : Call K V)) s
      = destroyed (shrink noFaults s.list.length) { s with capacity := n } := by
    simp only [body]
    rw [destroyed_map]
    simp [setCapacity, hn]
  rw [hd, destroyed_shrink _ hr (by rw [h1.list]; simp), ← h2]
  simp [view, abs, Function.comp_def]

example : destroyed (body noFaults (.setCapacity 1))
    (((calls [.insert 1 10, .insert 2 20, .insert 3 30, .get 1] (init 3 : State Nat Nat)).map (·.1)).getD (init 0))
      = [20, 30] := by decide

/-- C165: if a value is offered to the cache at most once, the values destroyed by a sequence of calls and those the cache
still holds are, each once, the values it has taken.  So no value is destroyed twice or while it is held, and a final
`clear()` destroys what is left: nothing leaks. -/
theorem C165_once (n : Nat) (cs : List (Call K V)) (hnd : (cs.flatMap offered).Nodup) :
    let c0 : Cache K V := { capacity := n, items := [] }
    (destroyedAll cs (init n) ++ ((c0.steps cs).1.items.map (·.2))).Perm (takenAll c0 cs) ∧
    (destroyedAll cs (init n) ++ ((c0.steps cs).1.items.map (·.2))).Nodup ∧
    (destroyedAll (cs ++ [.clear]) (init n)).Perm (takenAll c0 cs) := by
  intro c0
  have hv : view (init n : State K V) [] = c0 := rfl
  have key : ∀ ds : List (Call K V), (ds.flatMap offered).Nodup →
      (destroyedAll ds (init n) ++ ((c0.steps ds).1.items.map (·.2))).Perm (takenAll c0 ds) := by
    intro ds hds
    have := balance_all (rel_init (K := K) (V := V) n) ds hds (by simp [abs])
    rw [hv] at this
    simpa [abs] using this
  have hsub : ∀ (ds : List (Call K V)) (c : Cache K V), (takenAll c ds).Sublist (ds.flatMap offered) := by
    intro ds
    induction ds with
    | nil => intro c; simp [takenAll]
    | cons d ds ih =>
      intro c
      rw [List.flatMap_cons]
      refine List.Sublist.append ?_ (ih _)
      cases d <;> simp only [taken, offered] <;> (repeat' split) <;> simp
  have happ : ∀ (ds : List (Call K V)) (c : Cache K V), takenAll c (ds ++ [.clear]) = takenAll c ds := by
    intro ds
    induction ds with
    | nil => intro c; rfl
    | cons d ds ih => intro c; simp [takenAll, ih]
  refine ⟨key cs hnd, (key cs hnd).nodup_iff.2 (hnd.sublist (hsub cs _)), ?_⟩
  have := key (cs ++ [.clear]) (by simpa [offered] using hnd)
  rw [happ, steps_append] at this
  simpa [Cache.steps, Cache.step] using this

/-- Capacity 1: 20 takes the place of 10 and 21 that of 20; the refused value 22 is not taken. -/
example : destroyedAll [.insert 1 10, .insert 2 20, .insertOrAssign 2 21, .insert 2 22] (init 1 : State Nat Nat) = [10, 20]
    ∧ takenAll ({ capacity := 1, items := [] } : Cache Nat Nat)
        [.insert 1 10, .insert 2 20, .insertOrAssign 2 21, .insert 2 22] = [10, 20, 21] := by decide

/-- C165: a call on a `safe_lru_cache` is defined exactly when no value that leaves the cache in it, and not the value that
`get` overwrites, has a destructor that uses the cache; then the call does what it always does.
Full property: the destructor of a value may use the cache.  Missing: that is undefined behaviour if the value is
destroyed by a call on the cache (`C165_fails_destructor`, `C165_fails_overwritten`). -/
theorem C165_destructor_partial {n : Nat} {cs : List (Call K V)} {s : State K V} {rs : List (Ret V)}
    (h : calls cs (init n) = some (s, rs)) (uses : V → Bool) (old : V) (c : Call K V) :
    ((callWith uses old c s).isSome ↔
      ∀ v ∈ loses old (({ capacity := n, items := [] } : Cache K V).steps cs).1 c, uses v = false) ∧
    ((callWith uses old c s).isSome → callWith uses old c s = call c s) := by
  obtain ⟨T, h1, h2, _⟩ := reach_rel h
  have hp := parts_gone (parts_step h1 c)
  obtain ⟨s', T', h3, _, _⟩ := step_sim h1 c
  have hover : overwritten old c s = replaced old ((view s T).step c).2 := by
    cases c with
    | insert k v =>
      simp only [overwritten, Cache.step]
      rw [apply_ite Prod.snd, apply_ite Prod.snd, apply_ite Prod.snd]
      simp only [ite_self]
      cases ((view s T).lookup k).isSome <;> rfl
    | insertOrAssign k v =>
      simp only [overwritten, Cache.step]
      rw [apply_ite Prod.snd, apply_ite Prod.snd, apply_ite Prod.snd]
      simp only [ite_self]
      cases ((view s T).lookup k).isSome <;> rfl
    | remove k =>
      simp only [overwritten, Cache.step]
      rw [apply_ite Prod.snd]
      cases ((view s T).lookup k).isSome <;> rfl
    | get k =>
      have hl : (view s T).lookup k = (mapFind s.map k).map (·.1) := by simp [view, abs_lookup h1]
      simp only [overwritten, Cache.step]
      rw [hl]
      cases mapFind s.map k <;> simp [replaced]
    | _ => rfl
  rw [← h2]
  have hany : (overwritten old c s ++ destroyed (body noFaults c) s).any uses = true ↔
      ∃ v ∈ loses old (view s T) c, uses v = true := by
    rw [List.any_eq_true]
    have hm : ∀ v, v ∈ overwritten old c s ++ destroyed (body noFaults c) s ↔ v ∈ loses old (view s T) c := by
      intro v
      unfold loses
      rw [List.mem_append, List.mem_append, ← hover, hp.mem_iff, or_comm]
    simp only [hm]
  unfold callWith
  constructor
  · by_cases ha : (overwritten old c s ++ destroyed (body noFaults c) s).any uses = true
    · rw [if_pos ha]
      obtain ⟨v, hv, hu⟩ := hany.1 ha
      simp only [Option.isSome_none, Bool.false_eq_true, false_iff]
      intro hall
      rw [hall v hv] at hu; cases hu
    · rw [if_neg ha, h3]
      simp only [Option.isSome_some, true_iff]
      intro v hv
      by_contra hne
      exact ha (hany.2 ⟨v, hv, by simpa using hne⟩)
  · intro hs
    split at hs
    · cases hs
    · rename_i ha; rw [if_neg ha]

/-- With capacity 1, values from 100 on use the cache: replacing 10 is harmless. -/
example : callWith (fun v => decide (100 ≤ v)) 0 (.insert 2 100) (((calls [.insert 1 10] (init 1 : State Nat Nat)).map
    (·.1)).getD (init 0)) ≠ none := by decide

/-- C165, negation of the full property: evicting a value whose destructor uses the cache is undefined behaviour. -/
theorem C165_fails_destructor : ∃ (uses : Nat → Bool) (cs : List (Call Nat Nat)) (s : State Nat Nat) (rs : List (Ret Nat))
    (c : Call Nat Nat), calls cs (init 1) = some (s, rs) ∧ call c s ≠ none ∧ callWith uses 0 c s = none :=
  ⟨fun v => decide (v = 10), [.insert 1 10], { capacity := 1, list := [(0, 1)], map := [(1, (10, 0))], next := 1 },
    [.bool true], .insert 2 20, by decide, by decide, by decide⟩

/-- C165, negation of the full property: even reading a value into a variable that holds such a value is, although the
cache loses nothing. -/
theorem C165_fails_overwritten : ∃ (uses : Nat → Bool) (old : Nat) (cs : List (Call Nat Nat)) (s : State Nat Nat)
    (rs : List (Ret Nat)) (k : Nat), calls cs (init 1) = some (s, rs) ∧ destroyed (body noFaults (.get k)) s = [] ∧
      (∀ v, uses v = true → v = old) ∧ callWith uses old (.get k) s = none :=
  ⟨fun v => decide (v = 7), 7, [.insert 1 10], { capacity := 1, list := [(0, 1)], map := [(1, (10, 0))], next := 1 },
    [.bool true], 1, by decide, by decide, by simp, by decide⟩

end Pluto.Props
