import Verif.Proofs.Lru

/-!
# Properties of `lru_cache` (C01-C08)

`calls cs (init n)` runs the call sequence `cs` on a new cache of capacity `n`; it is `none` if undefined behaviour
happens.  `Cache` (Spec/Lru.lean) is the abstract cache: a capacity and a list of pairs, most recently used first.
-/

namespace Pluto.Props
open Pluto.Lru Pluto.Spec.Lru
variable {K V : Type} [DecidableEq K]

/-- C01: every call sequence returns exactly the results of the abstract recency list. -/
theorem C01_refines (n : Nat) (cs : List (Call K V)) :
    (calls cs (init n)).map (·.2) = some (({ capacity := n, items := [] } : Cache K V).steps cs).2 := by
  obtain ⟨s, T, h1, _, _⟩ := steps_sim (rel_init (K := K) (V := V) n) cs
  rw [h1]; rfl

/-- Capacity 2: 1 is used again, so 2 is the one evicted. -/
example : (calls [.insert 1 10, .insert 2 20, .insert 1 11, .get 1, .insert 3 30, .contains 2, .get 1, .size]
      (init 2 : State Nat Nat)).map (·.2)
    = some [.bool true, .bool true, .bool false, .value (some 10), .bool true, .bool false, .value (some 10), .nat 2] := by
  decide

/-- C02: after any call sequence, `size()` and `capacity()` return `a` and `b` with `a ≤ b`, and `empty()` tells
whether `a = 0`; so a cache of capacity 0 is empty. -/
theorem C02_bounded (n : Nat) (cs : List (Call K V)) :
    ∃ rs a b, (calls (cs ++ [.size, .capacity, .empty]) (init n)).map (·.2) =
      some (rs ++ [.nat a, .nat b, .bool (decide (a = 0))]) ∧ rs.length = cs.length ∧ a ≤ b := by
  refine ⟨_, _, _, ?_, steps_length { capacity := n, items := [] } cs, steps_bound ({ capacity := n, items := [] } : Cache K V) (by simp) cs⟩
  rw [C01_refines, steps_append_snd]; rfl

/-- C02: with capacity 0 (initially, or after `capacity(0)`), nothing is stored until the capacity is changed. -/
theorem C02_zero (cs ds : List (Call K V)) (n : Nat) (h : ∀ c ∈ ds, ∀ m, c ≠ .setCapacity m) :
    ∃ rs, (calls (cs ++ .setCapacity 0 :: ds ++ [.size]) (init n)).map (·.2) = some (rs ++ [.nat 0]) := by
  have hz : ∀ (ds : List (Call K V)) (c : Cache K V), c.capacity = 0 → (∀ c ∈ ds, ∀ m, c ≠ .setCapacity m) →
      (c.steps ds).1.capacity = 0 := by
    intro ds
    induction ds with
    | nil => intro c hc _; exact hc
    | cons d ds ih =>
      intro c hc h
      refine ih _ ?_ (fun c hc => h c (List.mem_cons_of_mem _ hc))
      have := h d List.mem_cons_self
      cases d <;> simp only [Cache.step] <;> (try exact hc) <;> (try split) <;> (try split) <;>
        (try exact hc)
      exact absurd rfl (this _)
  refine ⟨(({ capacity := n, items := [] } : Cache K V).steps (cs ++ .setCapacity 0 :: ds)).2, ?_⟩
  rw [C01_refines, steps_append_snd]
  congr 2
  show [Ret.nat _] = _
  have h1 := steps_bound ({ capacity := n, items := [] } : Cache K V) (by simp) (cs ++ .setCapacity 0 :: ds)
  have h2 : (({ capacity := n, items := [] } : Cache K V).steps (cs ++ .setCapacity 0 :: ds)).1.capacity = 0 := by
    rw [steps_append]
    exact hz ds _ rfl h
  rw [h2] at h1
  rw [Nat.le_zero.1 h1]

example : (calls [.insert 1 10, .insert 2 20, .size, .capacity, .setCapacity 0, .insert 3 30, .size]
    (init 2 : State Nat Nat)).map (·.2) =
    some [.bool true, .bool true, .nat 2, .nat 2, .unit, .bool true, .nat 0] := by decide

/-- C03: no call sequence has undefined behaviour: no invalid list iterator is used. -/
theorem C03_no_undefined_behaviour (n : Nat) (cs : List (Call K V)) : (calls cs (init n)).isSome := by
  obtain ⟨s, T, h1, _, _⟩ := steps_sim (rel_init (K := K) (V := V) n) cs
  rw [h1]; rfl

/-- C03: the index and the recency list hold the same keys, once each, and every index entry refers to the list node
of its own key. -/
theorem C03_consistent (n : Nat) (cs : List (Call K V)) (s : State K V) (rs : List (Ret V))
    (h : calls cs (init n) = some (s, rs)) :
    (s.list.map (·.2)).Nodup ∧ (s.map.map (·.1)).Perm (s.list.map (·.2)) ∧
      (s.list.map (·.1)).Nodup ∧ ∀ k v node, (k, (v, node)) ∈ s.map → (node, k) ∈ s.list := by
  obtain ⟨T, h1, _, _⟩ := reach_rel h
  have e1 : s.list.map (·.2) = T.map (·.2.1) := by rw [h1.list]; simp
  have e2 : s.list.map (·.1) = T.map (·.1) := by rw [h1.list]; simp
  refine ⟨by rw [e1]; exact h1.keys, ?_, by rw [e2]; exact h1.ids, ?_⟩
  · rw [e1]
    have := h1.map.map (·.1)
    rw [List.map_map] at this
    exact this
  · intro k v node hm
    rw [h1.map.mem_iff, List.mem_map] at hm
    obtain ⟨t, ht, he⟩ := hm
    simp only [Prod.mk.injEq] at he
    obtain ⟨rfl, rfl, rfl⟩ := he
    rw [h1.list]
    exact List.mem_map.2 ⟨t, ht, rfl⟩

example : ∃ s rs, calls [.insert 1 10, .insert 2 20, .get 1, .insert 3 30] (init 2 : State Nat Nat) = some (s, rs) ∧
    s.list.map (·.2) = [3, 1] := ⟨_, _, rfl, rfl⟩

/-- C04: after assigning the keys of `kvs` one after the other, the keys in the cache, in order of use, are the `n` most
recently used distinct ones. -/
theorem C04_most_recent (n : Nat) (kvs : List (K × V)) :
    ∃ s rs, calls (kvs.map fun e => .insertOrAssign e.1 e.2) (init n) = some (s, rs) ∧
      (contents s).map (·.1) = mostRecent n (kvs.map (·.1)) := by
  obtain ⟨s, T, h1, h2, h3⟩ := steps_sim (rel_init (K := K) (V := V) n) (kvs.map fun e => .insertOrAssign e.1 e.2)
  refine ⟨s, _, h1, ?_⟩
  rw [contents_eq h2, ← (steps_assign n kvs).1]
  have : view (init n) ([] : List (Entry K V)) = { capacity := n, items := [] } := rfl
  rw [← this, ← h3]
  simp [view, abs]

/-- C04, through the public calls only: whatever smaller capacity `m` is set afterwards, exactly the `m` most recently
used keys are still there. -/
theorem C04_observed (n m : Nat) (kvs : List (K × V)) (k : K) (hm : m ≤ n) :
    ∃ rs, (calls ((kvs.map fun e => .insertOrAssign e.1 e.2) ++ [.setCapacity m, .contains k]) (init n)).map (·.2) =
      some (rs ++ [.unit, .bool (decide (k ∈ mostRecent m (kvs.map (·.1))))]) := by
  refine ⟨(({ capacity := n, items := [] } : Cache K V).steps (kvs.map fun e => .insertOrAssign e.1 e.2)).2, ?_⟩
  rw [C01_refines, steps_append_snd]
  congr 2
  obtain ⟨h1, _⟩ := steps_assign n kvs
  simp only [Cache.steps, Cache.step]
  congr 3
  rw [Bool.eq_iff_iff, decide_eq_true_iff]
  unfold Cache.lookup
  rw [Option.isSome_map, List.find?_isSome]
  have : mostRecent m (kvs.map (·.1)) = (mostRecent n (kvs.map (·.1))).take m := by
    unfold mostRecent; rw [List.take_take, Nat.min_eq_left hm]
  rw [this, ← h1, ← List.map_take, List.mem_map]
  simp

example : mostRecent 2 [1, 2, 3, 2, 1, 3, 3] = [3, 1] := by decide

/-- C05: a successful `get` returns the value given by the latest call that stored one for that key. -/
theorem C05_last_stored (n : Nat) (cs : List (Call K V)) (s s' : State K V) (rs : List (Ret V)) (k : K) (v : V)
    (h : calls cs (init n) = some (s, rs)) (hg : call (.get k) s = some (s', .value (some v))) :
    lastStored k (cs.zip rs) = some v := by
  obtain ⟨T, h1, h2, rfl⟩ := reach_rel h
  obtain ⟨s1, T1, h3, _, _⟩ := step_sim h1 (.get k)
  rw [hg] at h3
  simp only [Option.some.injEq, Prod.mk.injEq] at h3
  have h4 := h3.2
  rw [h2] at h4
  apply reach_lastStored
  simp only [Cache.step] at h4
  split at h4
  · simp at h4
  · rename_i w hw
    simp only [Ret.value.injEq, Option.some.injEq] at h4
    rw [h4]; exact hw

example : ∃ s rs s', calls [.insert 1 10, .insertOrAssign 1 11, .insert 1 12] (init 2 : State Nat Nat) = some (s, rs) ∧
    call (.get 1) s = some (s', .value (some 11)) := ⟨_, _, _, rfl, rfl⟩

/-- C06: calls that only observe, and calls that are refused, leave the cache as it is; so every later call sequence
behaves as if they had not been made. -/
theorem C06_no_effect (s s' : State K V) (c : Call K V) (r : Ret V) (h : call c s = some (s', r)) (hr : Refused c r) :
    s' = s ∧ ∀ cs, calls cs s' = calls cs s := by
  have hs : s' = s := refused_same h hr
  exact ⟨hs, fun cs => by rw [hs]⟩

/-- C06: on a cache that calls have reached, each of those calls is indeed executed that way: observers always, `get` and
`remove` of an absent key, `insert` of a present key. -/
theorem C06_refused (n : Nat) (cs : List (Call K V)) (s : State K V) (rs : List (Ret V)) (k : K) (v : V)
    (h : calls cs (init n) = some (s, rs)) :
    (∃ a, call .size s = some (s, .nat a)) ∧ (∃ a, call .capacity s = some (s, .nat a)) ∧
    (∃ b, call .empty s = some (s, .bool b)) ∧ ∃ b, call (.contains k) s = some (s, .bool b) ∧
      (b = false → call (.get k) s = some (s, .value none) ∧ call (.remove k) s = some (s, .bool false)) ∧
      (b = true → call (.insert k v) s = some (s, .bool false)) := by
  refine ⟨⟨_, rfl⟩, ⟨_, rfl⟩, ⟨_, rfl⟩, _, rfl, ?_, ?_⟩
  · intro hb
    obtain ⟨T, h1, _, _⟩ := reach_rel h
    have : mapFind s.map k = none := by simpa using hb
    constructor
    · simp [call, body, Lru.get, Prog.run_bind, this]
    · simp [call, body, Lru.remove, Prog.run_bind, this]
  · intro hb
    obtain ⟨x, hx⟩ := Option.isSome_iff_exists.1 hb
    simp [call, body, Lru.insert, insertImpl, Prog.run_bind, hx]

example : ∃ s rs, calls [.insert 1 10, .insert 2 20] (init 2 : State Nat Nat) = some (s, rs) ∧
    call (.insert 1 11) s = some (s, .bool false) ∧ Refused (.insert 1 11 : Call Nat Nat) (.bool false) :=
  ⟨_, _, rfl, rfl, trivial⟩

/-- C07: `capacity(m)` keeps exactly the `m` most recently used entries, with values and order; every entry listed has
a value; and nothing else is kept. -/
theorem C07_capacity_change (n m : Nat) (cs : List (Call K V)) (s : State K V) (rs : List (Ret V))
    (h : calls cs (init n) = some (s, rs)) :
    ∃ s', call (.setCapacity m) s = some (s', .unit) ∧ contents s' = (contents s).take m ∧
      (∀ e ∈ contents s', e.2.isSome) ∧ s'.map.length = min m s.map.length ∧ s'.list.length = min m s.map.length ∧
      call .capacity s' = some (s', .nat m) := by
  obtain ⟨T, h1, _, _⟩ := reach_rel h
  obtain ⟨s', T', h2, h3, h4⟩ := step_sim h1 (.setCapacity m)
  simp only [Cache.step, view, Cache.mk.injEq] at h4
  have hT : T'.map (fun t => (t.2.1, some t.2.2)) = (T.map (fun t => (t.2.1, some t.2.2))).take m := by
    have := congrArg (List.map (fun e : K × V => (e.1, some e.2))) h4.2
    rw [abs, abs, List.map_take, List.map_map, List.map_map] at this
    exact this
  have hlen : T'.length = min m T.length := by
    have := congrArg List.length h4.2
    simpa [abs] using this
  refine ⟨s', h2, ?_, ?_, ?_, ?_, ?_⟩
  · rw [contents_eq h3, contents_eq h1, hT]
  · rw [contents_eq h3]
    intro e he
    obtain ⟨t, _, rfl⟩ := List.mem_map.1 he
    rfl
  · rw [h3.length, h1.length, hlen]
  · rw [h3.list, List.length_map, h1.length, hlen]
  · show some (s', Ret.nat s'.capacity) = _
    rw [h4.1]

example : ∃ s rs s', calls [.insert 1 10, .insert 2 20, .insert 3 30, .get 1] (init 3 : State Nat Nat) = some (s, rs) ∧
    contents s = [(1, some 10), (3, some 30), (2, some 20)] ∧
    call (.setCapacity 2) s = some (s', .unit) ∧ contents s' = [(1, some 10), (3, some 30)] := ⟨_, _, _, rfl, rfl, rfl, rfl⟩

/-! ## C08: failures

The property fails: after an exception the cache may exceed its capacity or run into undefined behaviour. -/

/-- A fault set in which only one place throws. -/
def only (x : Fault) : Faults := fun y => decide (y = x)

/-- C08 fails: capacity 1, one failed `insert` (the index entry cannot be allocated), two good ones, and the size is 2. -/
theorem C08_capacity_exceeded :
    ∃ s os, faultyCalls [(only .emplace, .insert 1 10), (noFaults, .insert 2 20), (noFaults, .insert 3 30),
        (noFaults, .size), (noFaults, .capacity)] (init 1 : State Nat Nat) = some (s, os) ∧
      os = [.threw, .ok (.bool true), .ok (.bool true), .ok (.nat 2), .ok (.nat 1)] := ⟨_, _, rfl, rfl⟩

/-- C08 fails: capacity 2, a failed `get` (the list node cannot be allocated), and the next `get` of the same key has
undefined behaviour. -/
theorem C08_undefined_behaviour :
    faultyCalls [(noFaults, .insert 1 10), (noFaults, .insert 2 20), (only .pushFront, .get 1), (noFaults, .get 1)]
      (init 2 : State Nat Nat) = none ∧
    ∃ s os, faultyCalls [(noFaults, .insert 1 10), (noFaults, .insert 2 20), (only .pushFront, .get 1)]
      (init 2 : State Nat Nat) = some (s, os) ∧ os = [.ok (.bool true), .ok (.bool true), .threw] :=
  ⟨rfl, _, _, rfl, rfl⟩

/-- C08 fails: `capacity(n)` in which a comparison of keys throws has set the capacity, but the entries that were not yet
evicted stay. -/
theorem C08_shrink_throws (n : Nat) (hist : List (Faults × Call K V)) (hb : ∀ e ∈ hist, Benign e.1 e.2)
    {s : State K V} {os : List (Out (Ret V))} (hs : faultyCalls hist (init n) = some (s, os))
    (f : Faults) {m j : Nat} (hm : m ≠ 0) (hj : m < j) (hl : j ≤ (contents s).length) (hE : f (.erase j) = true)
    (hE' : ∀ i, j < i → i ≤ (contents s).length → f (.erase i) = false) :
    ∃ s', faultyCall f (.setCapacity m) s = some (s', .threw) ∧ contents s' = (contents s).take j ∧
      call .size s' = some (s', .nat j) ∧ call .capacity s' = some (s', .nat m) := by
  obtain ⟨s0, T, os0, h1, h2, h3⟩ := faulty_steps (rel_init (K := K) (V := V) n) (by simp) hist hb
  rw [hs] at h1
  cases h1
  have hlen : (contents s).length = T.length := by rw [contents_eq h2]; simp
  rw [hlen] at hl hE'
  obtain ⟨s', h4, h5, h6⟩ := setCapacity_threw h2 hm hj hl hE hE'
  refine ⟨s', h4, by rw [contents_eq h5, contents_eq h2, List.map_take], ?_, ?_⟩
  · have : s'.map.length = j := by rw [h5.length]; simp; omega
    rw [← this]; rfl
  · rw [← h6]; rfl

/-- C08 fails: the cache stays above its capacity. -/
theorem C08_capacity_comparison :
    ∃ s os, faultyCalls [(noFaults, .insert 1 10), (noFaults, .insert 2 20), (noFaults, .insert 3 30),
        (only (.erase 2), .setCapacity 1), (noFaults, .insert 4 40), (noFaults, .size), (noFaults, .capacity)]
        (init 3 : State Nat Nat) = some (s, os) ∧
      os = [.ok (.bool true), .ok (.bool true), .ok (.bool true), .threw, .ok (.bool true), .ok (.nat 2), .ok (.nat 1)] :=
  ⟨_, _, rfl, rfl⟩

/-- C08 without the bound: if also the evictions of `capacity(n)` may throw, there is still no undefined behaviour. -/
theorem C08_defined_partial (n : Nat) (hist : List (Faults × Call K V))
    (hb : ∀ e ∈ hist, Benign e.1 e.2 ∨ ∃ m, e.2 = .setCapacity m) : faultyCalls hist (init n) ≠ none := by
  obtain ⟨s, T, os, h, -⟩ := faulty_rel (rel_init (K := K) (V := V) n) hist hb
  rw [h]; simp

/-- C08 for the failures it does hold for (`Benign`: a value cannot be read out or assigned; the list node of a new
key cannot be allocated in `insert`; keys cannot be compared when a key is searched or `insert` and `insert_or_assign`
evict): whatever fails how often, there is no undefined behaviour and the bound holds.
Missing: a failing index allocation in `insert`/`insert_or_assign` and a failing list allocation in `get` and
`insert_or_assign`, and a failing comparison in `capacity(n)`, for which it is false (see above). -/
theorem C08_survives_partial (n : Nat) (hist : List (Faults × Call K V)) (hb : ∀ e ∈ hist, Benign e.1 e.2) :
    ∃ s os a b, faultyCalls hist (init n) = some (s, os) ∧ call .size s = some (s, .nat a) ∧
      call .capacity s = some (s, .nat b) ∧ a ≤ b := by
  obtain ⟨s, T, os, h1, h2, h3⟩ := faulty_steps (rel_init (K := K) (V := V) n) (by simp) hist hb
  exact ⟨s, os, _, _, h1, rfl, rfl, le_of_eq_of_le h2.length h3⟩

/-- C08, for the same failures: the failing call leaves the other entries as they were, except that the least recently
used one may have been evicted; a call that does not throw does what it should. -/
theorem C08_effect_partial (n : Nat) (hist : List (Faults × Call K V)) (hb : ∀ e ∈ hist, Benign e.1 e.2)
    (f : Faults) (c : Call K V) (hc : Benign f c) :
    ∃ s os s' o, faultyCalls hist (init n) = some (s, os) ∧ faultyCall f c s = some (s', o) ∧
      (o = .threw → contents s' = contents s ∨ contents s' = (contents s).dropLast) ∧
      (∀ r, o = .ok r → ∃ s0, call c s = some (s0, r) ∧ contents s' = contents s0) := by
  obtain ⟨s, T, os, h1, h2, h3⟩ := faulty_steps (rel_init (K := K) (V := V) n) (by simp) hist hb
  obtain ⟨s', T', o, h4, h5, h6⟩ := faulty_sim h2 f c hc
  refine ⟨s, os, s', o, h1, h4, ?_, ?_⟩
  · rintro rfl
    rcases h6 with ⟨h6, _⟩ | ⟨_, _, h6⟩
    · cases h6
    · rw [contents_eq h5, contents_eq h2]
      rcases h6 with rfl | rfl
      · exact Or.inl rfl
      · exact Or.inr List.map_dropLast
  · rintro r rfl
    rcases h6 with ⟨h6, h7⟩ | ⟨h6, _⟩
    · obtain ⟨s0, T0, h8, h9, h10⟩ := step_sim h2 c
      refine ⟨s0, ?_, ?_⟩
      · rw [h8]; cases h6; rfl
      · rw [contents_eq h5, contents_eq h9]
        rw [← h7] at h10
        simp only [view, Cache.mk.injEq] at h10
        have := congrArg (List.map (fun e : K × V => (e.1, some e.2))) h10.2
        rw [abs, abs, List.map_map, List.map_map] at this
        exact this.symm
    · cases h6

example : ∃ s os, faultyCalls [(noFaults, .insert 1 10), (only .pushFront, .insert 2 20), (only .copyOut, .get 1),
      (only .assign, .insertOrAssign 1 12), (noFaults, .insert 3 30), (noFaults, .size), (only .find, .remove 3),
      (only (.erase 2), .insert 4 40), (noFaults, .size)] (init 2 : State Nat Nat) = some (s, os) ∧
    os = [.ok (.bool true), .threw, .threw, .threw, .ok (.bool true), .ok (.nat 2), .threw, .threw, .ok (.nat 2)] :=
  ⟨_, _, rfl, rfl⟩

end Pluto.Props
