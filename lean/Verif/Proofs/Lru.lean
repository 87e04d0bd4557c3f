import Verif.Model.Lru
import Verif.Spec.Lru
import Mathlib.Data.List.Perm.Basic
import Mathlib.Data.List.Nodup

/-! # Simulation between the LRU cache model and the recency list -/

set_option linter.unusedSectionVars false

namespace Pluto.Prog
variable {σ ρ τ : Type}

@[simp] theorem run_pure (r : ρ) (s : σ) : (pure r : Prog σ ρ).run s = (.ok r, s) := rfl
@[simp] theorem run_ub (s : σ) : (Prog.ub : Prog σ ρ).run s = (.ub, s) := rfl
@[simp] theorem run_throw (s : σ) : (Prog.throw : Prog σ ρ).run s = (.threw, s) := rfl

theorem run_bind (p : Prog σ ρ) (f : ρ → Prog σ τ) (s : σ) :
    (p >>= f).run s = match p.run s with
      | (.ok r, s') => (f r).run s'
      | (.threw, s') => (.threw, s')
      | (.ub, s') => (.ub, s') := by
  show (Prog.bind p f).run s = _
  induction p generalizing s with
  | ret r => rfl
  | throw => rfl
  | ub => rfl
  | step u n ih => exact ih s (u s)

theorem run_bind_ok {p : Prog σ ρ} {f : ρ → Prog σ τ} {s s' : σ} {r : ρ} (h : p.run s = (.ok r, s')) :
    (p >>= f).run s = (f r).run s' := by rw [run_bind, h]

@[simp] theorem run_read (f : σ → ρ) (s : σ) : (Prog.read f).run s = (.ok (f s), s) := rfl
@[simp] theorem run_modify (f : σ → σ) (s : σ) : (Prog.modify f).run s = (.ok (), f s) := rfl
theorem run_guarded (ok : σ → Bool) (f : σ → σ) (s : σ) :
    (Prog.guarded ok f).run s = if ok s then (.ok (), f s) else (.ub, s) := by
  unfold Prog.guarded Prog.run
  by_cases h : ok s <;> simp [h, Prog.run]

@[simp] theorem run_read_bind (f : σ → ρ) (g : ρ → Prog σ τ) (s : σ) :
    (Prog.read f >>= g).run s = (g (f s)).run s := rfl
@[simp] theorem run_modify_bind (f : σ → σ) (g : Unit → Prog σ τ) (s : σ) :
    (Prog.modify f >>= g).run s = (g ()).run (f s) := rfl
@[simp] theorem run_throw_bind (g : ρ → Prog σ τ) (s : σ) :
    (Prog.throw >>= g).run s = (.threw, s) := rfl

end Pluto.Prog

namespace Pluto.Lru
open Pluto.Spec.Lru
variable {K V : Type} [DecidableEq K]

/-- One entry of the cache: node identity, key, value. -/
abbrev Entry (K V : Type) := Nat × K × V

/-- The state `s` represents the recency list `T`. -/
structure Rel (s : State K V) (T : List (Entry K V)) : Prop where
  list : s.list = T.map (fun t => (t.1, t.2.1))
  map : s.map.Perm (T.map fun t => (t.2.1, (t.2.2, t.1)))
  ids : (T.map (·.1)).Nodup
  keys : (T.map (·.2.1)).Nodup
  fresh : ∀ t ∈ T, t.1 < s.next

/-- The recency list without identities. -/
def abs (T : List (Entry K V)) : List (K × V) := T.map (·.2)

theorem rel_init (n : Nat) : Rel (init n : State K V) [] :=
  ⟨rfl, .nil, .nil, .nil, by simp⟩

theorem mapFind_some_iff {m : List (K × (V × Nat))} (h : (m.map (·.1)).Nodup) (k : K) (x : V × Nat) :
    mapFind m k = some x ↔ (k, x) ∈ m := by
  unfold mapFind
  constructor
  · intro hf
    obtain ⟨e, he, rfl⟩ := Option.map_eq_some_iff.1 hf
    have h1 := List.find?_some he
    have h2 := List.mem_of_find?_eq_some he
    simp at h1
    rw [← h1]; exact h2
  · intro hm
    induction m with
    | nil => cases hm
    | cons e m ih =>
      simp only [List.map_cons, List.nodup_cons] at h
      rcases List.mem_cons.1 hm with rfl | hm
      · simp
      · have : e.1 ≠ k := by
          rintro rfl
          exact h.1 (List.mem_map.2 ⟨_, hm, rfl⟩)
        rw [List.find?_cons_of_neg (by simpa using this)]
        exact ih h.2 hm

theorem Rel.mapKeys {s : State K V} {T : List (Entry K V)} (h : Rel s T) : (s.map.map (·.1)).Nodup := by
  have := h.map.map (·.1)
  rw [this.nodup_iff]
  have e : (T.map fun t => (t.2.1, (t.2.2, t.1))).map (·.1) = T.map (·.2.1) := by simp
  rw [e]; exact h.keys

theorem Rel.find_some {s : State K V} {T : List (Entry K V)} (h : Rel s T) (k : K) (v : V) (i : Nat) :
    mapFind s.map k = some (v, i) ↔ (i, k, v) ∈ T := by
  rw [mapFind_some_iff h.mapKeys, h.map.mem_iff, List.mem_map]
  constructor
  · rintro ⟨⟨i', k', v'⟩, hm, he⟩
    simp only [Prod.mk.injEq] at he
    obtain ⟨rfl, rfl, rfl⟩ := he
    exact hm
  · intro hm; exact ⟨_, hm, rfl⟩

theorem Rel.find_none {s : State K V} {T : List (Entry K V)} (h : Rel s T) (k : K) :
    mapFind s.map k = none ↔ ∀ t ∈ T, t.2.1 ≠ k := by
  constructor
  · rintro hn ⟨i, k', v⟩ ht rfl
    have := (h.find_some k' v i).2 ht
    rw [hn] at this; cases this
  · intro ha
    cases hf : mapFind s.map k with
    | none => rfl
    | some x =>
      obtain ⟨v, i⟩ := x
      exact absurd rfl (ha _ ((h.find_some k v i).1 hf))

theorem Rel.length {s : State K V} {T : List (Entry K V)} (h : Rel s T) : s.map.length = T.length := by
  rw [h.map.length_eq, List.length_map]

theorem Rel.split {s : State K V} {T : List (Entry K V)} (h : Rel s T) {k : K} {v : V} {i : Nat}
    (hm : (i, k, v) ∈ T) : ∃ A B, T = A ++ (i, k, v) :: B ∧ (∀ t ∈ A ++ B, t.2.1 ≠ k) ∧ (∀ t ∈ A ++ B, t.1 ≠ i) := by
  obtain ⟨A, B, rfl⟩ := List.append_of_mem hm
  refine ⟨A, B, rfl, ?_, ?_⟩
  · rintro t ht rfl
    have hk := h.keys
    rw [List.map_append, List.map_cons, List.nodup_middle, List.nodup_cons, ← List.map_append] at hk
    exact hk.1 (List.mem_map.2 ⟨t, ht, rfl⟩)
  · rintro t ht rfl
    have hk := h.ids
    rw [List.map_append, List.map_cons, List.nodup_middle, List.nodup_cons, ← List.map_append] at hk
    exact hk.1 (List.mem_map.2 ⟨t, ht, rfl⟩)

theorem Rel.others {s : State K V} {A B : List (Entry K V)} {i : Nat} {k : K} {v : V}
    (h : Rel s (A ++ (i, k, v) :: B)) : k ∉ (A ++ B).map (·.2.1) ∧ i ∉ (A ++ B).map (·.1) := by
  have hk := h.keys
  have hi := h.ids
  rw [List.map_append, List.map_cons, List.nodup_middle, List.nodup_cons, ← List.map_append] at hk hi
  exact ⟨hk.1, hi.1⟩

/-- Removing an entry from both structures. -/
theorem Rel.erase {s : State K V} {A B : List (Entry K V)} {i : Nat} {k : K} {v : V}
    (h : Rel s (A ++ (i, k, v) :: B)) :
    s.list.any (fun n => decide (n.1 = i)) = true ∧
    s.list.filter (fun n => decide (n.1 ≠ i)) = (A ++ B).map (fun t => (t.1, t.2.1)) ∧
    (mapErase s.map k).Perm ((A ++ B).map fun t => (t.2.1, (t.2.2, t.1))) := by
  have hk := h.keys
  have hi := h.ids
  rw [List.map_append, List.map_cons, List.nodup_middle, List.nodup_cons, ← List.map_append] at hk hi
  have hk' : ∀ t ∈ A ++ B, t.2.1 ≠ k := by
    rintro t ht rfl; exact hk.1 (List.mem_map.2 ⟨t, ht, rfl⟩)
  have hi' : ∀ t ∈ A ++ B, t.1 ≠ i := by
    rintro t ht rfl; exact hi.1 (List.mem_map.2 ⟨t, ht, rfl⟩)
  refine ⟨?_, ?_, ?_⟩
  · rw [h.list, List.any_eq_true]
    exact ⟨(i, k), by simp, by simp⟩
  · rw [h.list, List.filter_map, List.filter_append, List.filter_cons_of_neg (by simp), ← List.filter_append]
    congr 1
    rw [List.filter_eq_self]
    intro t ht; simpa using hi' t ht
  · unfold mapErase
    refine (h.map.filter _).trans (List.Perm.of_eq ?_)
    rw [List.filter_map, List.filter_append, List.filter_cons_of_neg (by simp), ← List.filter_append]
    congr 1
    rw [List.filter_eq_self]
    intro t ht; simpa using hk' t ht

theorem Rel.sub {s : State K V} {A B : List (Entry K V)} {t : Entry K V} (h : Rel s (A ++ t :: B)) :
    ((A ++ B).map (·.1)).Nodup ∧ ((A ++ B).map (·.2.1)).Nodup ∧ ∀ t ∈ A ++ B, t.1 < s.next := by
  have hk := h.keys
  have hi := h.ids
  rw [List.map_append, List.map_cons, List.nodup_middle, List.nodup_cons, ← List.map_append] at hk hi
  refine ⟨hi.2, hk.2, fun t ht => h.fresh t ?_⟩
  simp only [List.mem_append, List.mem_cons] at ht ⊢
  tauto

theorem run_listErase {s : State K V} {i : Nat} (h : s.list.any (fun n => decide (n.1 = i)) = true) :
    (listErase i).run s = (.ok (), { s with list := s.list.filter (fun n => decide (n.1 ≠ i)) }) := by
  unfold listErase
  rw [Prog.run_guarded, if_pos h]

@[simp] theorem orThrow_noFaults {ρ : Type} (x : Fault) (p : Prog (State K V) ρ) : Prog.orThrow (noFaults x) p = p := rfl

/-- `evict_lru` drops the last entry. -/
theorem run_evictLru {s : State K V} {T : List (Entry K V)} (f : Faults) (h : Rel s T) (hne : T ≠ [])
    (hE : f (.erase T.length) = false) :
    ∃ s', (evictLru f : Prog (State K V) Unit).run s = (.ok (), s') ∧ Rel s' T.dropLast ∧ s'.capacity = s.capacity ∧
      s'.next = s.next := by
  obtain ⟨A, ⟨i, k, v⟩, rfl⟩ : ∃ A t, T = A ++ [t] := ⟨T.dropLast, T.getLast hne, (List.dropLast_append_getLast hne).symm⟩
  obtain ⟨h1, h2, h3⟩ := h.erase
  obtain ⟨h4, h5, h6⟩ := h.sub
  have hl : s.list.getLast? = some (i, k) := by rw [h.list]; simp
  refine ⟨{ s with map := mapErase s.map k, list := s.list.filter (fun n => decide (n.1 ≠ i)) }, ?_, ?_, rfl, rfl⟩
  · unfold evictLru
    simp only [Prog.run_read_bind, hl, h.length, Prog.orThrow, hE, Bool.false_eq_true, if_false, Prog.run_modify_bind]
    exact run_listErase (by exact h1)
  · simp only [List.append_nil] at h2 h3 h4 h5 h6
    rw [List.dropLast_concat]
    exact ⟨h2, h3, h4, h5, h6⟩

/-- `move_to_front` for a present key, unless it has to allocate and the allocation fails. -/
theorem run_moveToFront {s : State K V} {A B : List (Entry K V)} {i : Nat} {k : K} {v : V} (f : Faults)
    (h : Rel s (A ++ (i, k, v) :: B)) (hf : A = [] ∨ f .pushFront = false) :
    ∃ s' j, (moveToFront f k).run s = (.ok (), s') ∧ Rel s' ((j, k, v) :: (A ++ B)) ∧ s'.capacity = s.capacity := by
  have hfind : mapFind s.map k = some (v, i) := (h.find_some k v i).2 (by simp)
  rcases A with _ | ⟨a, A⟩
  · refine ⟨s, i, ?_, h, rfl⟩
    unfold moveToFront listBegin
    have : s.list.head?.map (·.1) = some i := by rw [h.list]; simp
    simp only [Prog.run_read_bind, hfind, this, if_true, Prog.run_pure]
  · have hf : f .pushFront = false := by
      rcases hf with hf | hf
      · cases hf
      · exact hf
    obtain ⟨h1, h2, h3⟩ := h.erase
    obtain ⟨h4, h5, h6⟩ := h.sub
    have hai : a.1 ≠ i := by
      rintro rfl
      exact h.others.2 (by simp)
    have hhead : s.list.head?.map (·.1) ≠ some i := by rw [h.list]; simpa using hai
    have hk := And.intro h.others.1 h5
    refine ⟨{ s with list := (s.next, k) :: s.list.filter (fun n => decide (n.1 ≠ i)), next := s.next + 1,
                     map := mapUpdate s.map k (fun e => (e.1, s.next)) }, s.next, ?_, ?_, rfl⟩
    · unfold moveToFront listBegin
      simp only [Prog.run_read_bind, hfind, hhead, if_false]
      rw [Prog.run_bind_ok (run_listErase h1)]
      simp [hf, Prog.orThrow, listPushFront]
    · refine ⟨?_, ?_, ?_, ?_, ?_⟩
      · simp only [h2, List.map_cons]
      · unfold mapUpdate
        refine (h.map.map _).trans ?_
        rw [List.map_map]
        refine (List.perm_middle.map _).trans ?_
        rw [List.map_cons, List.map_cons (l := _ ++ _)]
        refine List.Perm.of_eq ?_
        congr 1
        · simp
        · apply List.map_congr_left
          intro t ht
          have : t.2.1 ≠ k := by
            rintro rfl; exact hk.1 (List.mem_map.2 ⟨t, ht, rfl⟩)
          simp [this]
      · simp only [List.map_cons, List.nodup_cons]
        refine ⟨?_, h4⟩
        intro hm
        obtain ⟨t, ht, he⟩ := List.mem_map.1 hm
        have := h6 t ht
        omega
      · simp only [List.map_cons, List.nodup_cons]
        exact ⟨hk.1, hk.2⟩
      · intro t ht
        rcases List.mem_cons.1 ht with rfl | ht
        · show s.next < s.next + 1; omega
        · have := h6 t ht; show t.1 < s.next + 1; omega

theorem abs_without {A B : List (Entry K V)} {i : Nat} {k : K} {v : V}
    (hk : ((A ++ (i, k, v) :: B).map (·.2.1)).Nodup) :
    (abs (A ++ (i, k, v) :: B)).filter (fun e => decide (e.1 ≠ k)) = abs (A ++ B) := by
  rw [List.map_append, List.map_cons, List.nodup_middle, List.nodup_cons, ← List.map_append] at hk
  have hk' : ∀ t ∈ A ++ B, t.2.1 ≠ k := by
    rintro t ht rfl; exact hk.1 (List.mem_map.2 ⟨t, ht, rfl⟩)
  unfold abs
  rw [List.filter_map, List.filter_append, List.filter_cons_of_neg (by simp), ← List.filter_append]
  congr 1
  rw [List.filter_eq_self]
  intro t ht; simpa using hk' t ht

theorem abs_lookup {T : List (Entry K V)} {s : State K V} (h : Rel s T) (c : Nat) (k : K) :
    (Cache.lookup { capacity := c, items := abs T } k) = (mapFind s.map k).map (·.1) := by
  unfold Cache.lookup
  cases hf : mapFind s.map k with
  | none =>
    have := (h.find_none k).1 hf
    rw [List.find?_eq_none.2]
    · rfl
    · intro e he
      obtain ⟨t, ht, rfl⟩ := List.mem_map.1 he
      simpa using this t ht
  | some x =>
    obtain ⟨v, i⟩ := x
    obtain ⟨A, B, rfl, hk, _⟩ := h.split ((h.find_some k v i).1 hf)
    have : (abs (A ++ (i, k, v) :: B)).find? (fun e => decide (e.1 = k)) = some (k, v) := by
      rw [List.find?_eq_some_iff_append]
      refine ⟨by simp, A.map (·.2), B.map (·.2), by simp [abs], ?_⟩
      intro e he
      obtain ⟨t, ht, rfl⟩ := List.mem_map.1 he
      simpa using hk t (List.mem_append_left _ ht)
    rw [this]; rfl

/-- Inserting a new entry at the front of a state with room for it. -/
theorem Rel.push {s : State K V} {T : List (Entry K V)} (h : Rel s T) (k : K) (v : V) (hk : ∀ t ∈ T, t.2.1 ≠ k) :
    Rel { s with list := (s.next, k) :: s.list, next := s.next + 1, map := mapEmplace s.map k (v, s.next) }
      ((s.next, k, v) :: T) := by
  have hfind := (h.find_none k).2 hk
  refine ⟨?_, ?_, ?_, ?_, ?_⟩
  · simp [h.list]
  · simp only [mapEmplace, hfind, Option.isSome_none, Bool.false_eq_true, if_false, List.map_cons]
    exact h.map.cons _
  · simp only [List.map_cons, List.nodup_cons]
    refine ⟨?_, h.ids⟩
    intro hm
    obtain ⟨t, ht, he⟩ := List.mem_map.1 hm
    have := h.fresh t ht
    omega
  · simp only [List.map_cons, List.nodup_cons]
    refine ⟨?_, h.keys⟩
    intro hm
    obtain ⟨t, ht, he⟩ := List.mem_map.1 hm
    exact hk t ht he
  · intro t ht
    rcases List.mem_cons.1 ht with rfl | ht
    · show s.next < s.next + 1; omega
    · have := h.fresh t ht; show t.1 < s.next + 1; omega

/-- What is left after making room for one more entry. -/
def room (c : Nat) (T : List (Entry K V)) : List (Entry K V) := if c ≤ T.length then T.dropLast else T

/-- `insert` of an absent key, in the three possible ways. -/
theorem run_insert_absent {s : State K V} {T : List (Entry K V)} (f : Faults) (h : Rel s T) (k : K) (v : V) (oa : Bool)
    (hk : ∀ t ∈ T, t.2.1 ≠ k) (hc : s.capacity ≠ 0) (hF : f .find = false)
    (hE : s.capacity ≤ T.length → f (.erase T.length) = false) :
    ∃ s1, Rel s1 (room s.capacity T) ∧ s1.capacity = s.capacity ∧
      (insertImpl f k v oa).run s =
        if f .pushFront then (.threw, s1)
        else if f .emplace then (.threw, { s1 with list := (s1.next, k) :: s1.list, next := s1.next + 1 })
        else (.ok true, { s1 with list := (s1.next, k) :: s1.list, next := s1.next + 1,
                                  map := mapEmplace s1.map k (v, s1.next) }) := by
  have hfind := (h.find_none k).2 hk
  unfold room insertImpl size
  rw [Prog.orThrow, if_neg (c := f .find = true) (by simp [hF])]
  simp only [Prog.run_read_bind, hfind, hc, ne_eq, not_false_eq_true, if_true, h.length]
  by_cases hl : s.capacity ≤ T.length
  · have hne : T ≠ [] := by rintro rfl; simp at hl; omega
    obtain ⟨s1, h1, h2, h3, _⟩ := run_evictLru f h hne (hE hl)
    refine ⟨s1, by rw [if_pos hl]; exact h2, h3, ?_⟩
    simp only [if_pos hl]
    rw [Prog.run_bind_ok h1]
    unfold Prog.orThrow
    cases hp : f .pushFront
    · cases he : f .emplace <;> simp [listPushFront, listBegin]
    · simp
  · refine ⟨s, by rw [if_neg hl]; exact h, rfl, ?_⟩
    simp only [if_neg hl]
    unfold Prog.orThrow
    cases hp : f .pushFront
    · cases he : f .emplace <;> simp [listPushFront, listBegin]
    · simp

theorem room_keys {T : List (Entry K V)} {c : Nat} {k : K} (hk : ∀ t ∈ T, t.2.1 ≠ k) :
    ∀ t ∈ room c T, t.2.1 ≠ k := by
  intro t ht
  unfold room at ht
  split at ht
  · exact hk t ((List.dropLast_sublist T).mem ht)
  · exact hk t ht

theorem Rel.take {s : State K V} {T : List (Entry K V)} (h : Rel s T) (n : Nat) :
    ((T.take n).map (·.1)).Nodup ∧ ((T.take n).map (·.2.1)).Nodup := by
  constructor
  · rw [List.map_take]; exact h.ids.sublist (List.take_sublist _ _)
  · rw [List.map_take]; exact h.keys.sublist (List.take_sublist _ _)

/-- The eviction loop keeps the first `capacity` entries. -/
theorem run_shrink (fuel : Nat) {s : State K V} {T : List (Entry K V)} (h : Rel s T) (hf : T.length ≤ fuel) :
    ∃ s', (shrink noFaults fuel : Prog (State K V) Unit).run s = (.ok (), s') ∧ Rel s' (T.take s.capacity) ∧
      s'.capacity = s.capacity := by
  induction fuel generalizing s T with
  | zero =>
    have : T = [] := List.length_eq_zero_iff.1 (by omega)
    subst this
    refine ⟨s, ?_, by simpa using h, rfl⟩
    unfold shrink size
    have := h.length
    simp only [Prog.run_read_bind, this, List.length_nil, Nat.not_lt_zero, if_false, Prog.run_pure]
  | succ fuel ih =>
    unfold shrink size
    simp only [Prog.run_read_bind, h.length]
    by_cases hc : s.capacity < T.length
    · have hne : T ≠ [] := by rintro rfl; simp at hc
      obtain ⟨s1, h1, h2, h3, _⟩ := run_evictLru noFaults h hne rfl
      simp only [hc, if_true]
      rw [Prog.run_bind_ok h1]
      obtain ⟨s2, h4, h5, h6⟩ := ih h2 (by simp; omega)
      refine ⟨s2, h4, ?_, by omega⟩
      rw [h3, List.dropLast_eq_take, List.take_take, Nat.min_eq_left (by omega)] at h5
      exact h5
    · refine ⟨s, by simp [hc], ?_, rfl⟩
      rw [List.take_of_length_le (by omega)]; exact h

/-- The abstract cache of a state. -/
def view (s : State K V) (T : List (Entry K V)) : Cache K V := { capacity := s.capacity, items := abs T }

theorem run_insert_present {s : State K V} {A B : List (Entry K V)} {i : Nat} {k : K} {v0 : V} (f : Faults)
    (h : Rel s (A ++ (i, k, v0) :: B)) (v : V) (hf : A = [] ∨ f .pushFront = false) (ha : f .assign = false)
    (hF : f .find = false) :
    ∃ s' j, (insertImpl f k v true).run s = (.ok false, s') ∧ Rel s' ((j, k, v) :: (A ++ B)) ∧
      s'.capacity = s.capacity := by
  have hfind : mapFind s.map k = some (v0, i) := (h.find_some k v0 i).2 (by simp)
  have hk := h.keys
  rw [List.map_append, List.map_cons, List.nodup_middle, List.nodup_cons, ← List.map_append] at hk
  have hrel : Rel { s with map := mapUpdate s.map k (fun e => (v, e.2)) } (A ++ (i, k, v) :: B) := by
    refine ⟨?_, ?_, ?_, ?_, ?_⟩
    · simp [h.list]
    · unfold mapUpdate
      refine (h.map.map _).trans (List.Perm.of_eq ?_)
      rw [List.map_map, List.map_append, List.map_append, List.map_cons, List.map_cons]
      have e : ∀ t ∈ A ++ B, ((fun e : K × (V × Nat) => if e.1 = k then (e.1, (v, e.2.2)) else e) ∘
          fun t : Entry K V => (t.2.1, (t.2.2, t.1))) t = (t.2.1, (t.2.2, t.1)) := by
        intro t ht
        have : t.2.1 ≠ k := by
          rintro rfl; exact hk.1 (List.mem_map.2 ⟨t, ht, rfl⟩)
        simp [this]
      congr 1
      · exact List.map_congr_left fun t ht => e t (List.mem_append_left _ ht)
      · congr 1
        · simp
        · exact List.map_congr_left fun t ht => e t (List.mem_append_right _ ht)
    · simpa using h.ids
    · simpa using h.keys
    · intro t ht
      rcases List.mem_append.1 ht with ht | ht
      · exact h.fresh t (List.mem_append_left _ ht)
      · rcases List.mem_cons.1 ht with rfl | ht
        · exact h.fresh (i, k, v0) (by simp)
        · exact h.fresh t (List.mem_append_right _ (List.mem_cons_of_mem _ ht))
  obtain ⟨s', j, h1, h2, h3⟩ := run_moveToFront f hrel hf
  refine ⟨s', j, ?_, h2, h3⟩
  unfold insertImpl
  simp only [Prog.run_read_bind, hfind, if_true, Prog.orThrow, ha, hF, Bool.false_eq_true, if_false, Prog.run_modify_bind]
  rw [Prog.run_bind_ok h1]; rfl

theorem run_remove {s : State K V} {A B : List (Entry K V)} {i : Nat} {k : K} {v0 : V}
    (h : Rel s (A ++ (i, k, v0) :: B)) :
    ∃ s', (remove noFaults k).run s = (.ok true, s') ∧ Rel s' (A ++ B) ∧ s'.capacity = s.capacity := by
  have hfind : mapFind s.map k = some (v0, i) := (h.find_some k v0 i).2 (by simp)
  obtain ⟨h1, h2, h3⟩ := h.erase
  obtain ⟨h4, h5, h6⟩ := h.sub
  refine ⟨{ s with map := mapErase s.map k, list := s.list.filter (fun n => decide (n.1 ≠ i)) }, ?_, ?_, rfl⟩
  · unfold remove
    simp only [orThrow_noFaults, Prog.run_read_bind, hfind]
    rw [Prog.run_bind_ok (run_listErase h1)]; rfl
  · exact ⟨h2, h3, h4, h5, h6⟩

theorem run_get {s : State K V} {A B : List (Entry K V)} {i : Nat} {k : K} {v : V} (f : Faults)
    (h : Rel s (A ++ (i, k, v) :: B)) (hf : A = [] ∨ f .pushFront = false) (hc : f .copyOut = false)
    (hF : f .find = false) :
    ∃ s' j, (get f k).run s = (.ok (some v), s') ∧ Rel s' ((j, k, v) :: (A ++ B)) ∧ s'.capacity = s.capacity := by
  have hfind : mapFind s.map k = some (v, i) := (h.find_some k v i).2 (by simp)
  obtain ⟨s', j, h1, h2, h3⟩ := run_moveToFront f h hf
  refine ⟨s', j, ?_, h2, h3⟩
  unfold get
  simp only [Prog.run_read_bind, hfind, Prog.orThrow, hc, hF, Bool.false_eq_true, if_false]
  show (moveToFront f k >>= fun _ => pure (some v)).run s = _
  rw [Prog.run_bind_ok h1]; rfl

/-- Every call simulates the abstract cache. -/
theorem step_sim {s : State K V} {T : List (Entry K V)} (h : Rel s T) (c : Call K V) :
    ∃ s' T', call c s = some (s', ((view s T).step c).2) ∧ Rel s' T' ∧ view s' T' = ((view s T).step c).1 := by
  suffices hs : ∃ s' T', (body noFaults c).run s = (.ok ((view s T).step c).2, s') ∧ Rel s' T' ∧
      view s' T' = ((view s T).step c).1 by
    obtain ⟨s', T', h1, h2, h3⟩ := hs
    exact ⟨s', T', by unfold call; rw [h1], h2, h3⟩
  have hlen : (abs T).length = T.length := by simp [abs]
  cases c with
  | size => exact ⟨s, T, by simp [body, size, view, Cache.step, h.length, hlen], h, rfl⟩
  | capacity => exact ⟨s, T, by simp [body, capacity, view, Cache.step], h, rfl⟩
  | empty =>
    refine ⟨s, T, ?_, h, rfl⟩
    have : s.map.isEmpty = decide (T.length = 0) := by
      rw [← h.length]; cases s.map <;> simp
    simp [body, empty, view, Cache.step, hlen, this]
  | contains k =>
    refine ⟨s, T, ?_, h, rfl⟩
    simp [body, contains, Cache.step, view, abs_lookup h]
  | clear =>
    refine ⟨{ s with map := [], list := [] }, [], ?_, ⟨rfl, .nil, .nil, .nil, by simp⟩, rfl⟩
    rfl
  | setCapacity n =>
    by_cases hn : n = 0
    · subst hn
      refine ⟨{ s with capacity := 0, map := [], list := [] }, [], ?_, ⟨rfl, .nil, .nil, .nil, by simp⟩, ?_⟩
      · rfl
      · simp [view, Cache.step, abs]
    · have hr : Rel { s with capacity := n } T := ⟨h.list, h.map, h.ids, h.keys, h.fresh⟩
      obtain ⟨s', h1, h2, h3⟩ := run_shrink s.list.length hr (by rw [h.list]; simp)
      refine ⟨s', T.take n, ?_, h2, ?_⟩
      · simp only [body]
        have : (setCapacity noFaults n).run s = (.ok (), s') := by
          unfold setCapacity
          simp only [Prog.run_modify_bind, Prog.run_read_bind, hn, if_false]
          exact h1
        rw [Prog.run_bind_ok this]; rfl
      · simp [view, Cache.step, abs, h3, List.map_take]
  | insert k v =>
    cases hf : mapFind s.map k with
    | some x =>
      refine ⟨s, T, ?_, h, ?_⟩
      · simp [Prog.run_bind, body, insert, insertImpl, hf, Cache.step, view, abs_lookup h]
      · simp [hf, Cache.step, view, abs_lookup h]
    | none =>
      have hk := (h.find_none k).1 hf
      by_cases hc : s.capacity = 0
      · refine ⟨s, T, ?_, h, ?_⟩
        · simp [Prog.run_bind, body, insert, insertImpl, hf, Cache.step, view, abs_lookup h, hc]
        · simp [hf, Cache.step, view, abs_lookup h, hc]
      · obtain ⟨s1, h1, h2, h3⟩ := run_insert_absent noFaults h k v false hk hc rfl fun _ => rfl
        refine ⟨_, _, ?_, h1.push k v (room_keys hk), ?_⟩
        · simp only [body, insert]
          rw [if_neg (by simp [noFaults]), if_neg (by simp [noFaults])] at h3
          rw [Prog.run_bind_ok h3]
          simp only [Prog.run_pure, Cache.step, view, abs_lookup h, hf, hlen, hc]
          by_cases hl : T.length < s.capacity <;> simp [hl]
        · simp only [Cache.step, view, abs_lookup h, hf, hlen, hc]
          by_cases hl : T.length < s.capacity
          · have : ¬ s.capacity ≤ T.length := by omega
            simp [hl, h2, abs, room, this]
          · have : s.capacity ≤ T.length := by omega
            simp [hl, h2, abs, room, this, List.map_dropLast]
  | insertOrAssign k v =>
    cases hf : mapFind s.map k with
    | some x =>
      obtain ⟨v0, i⟩ := x
      obtain ⟨A, B, rfl, hk, _⟩ := h.split ((h.find_some k v0 i).1 hf)
      obtain ⟨s', j, h1, h2, h3⟩ := run_insert_present noFaults h v (Or.inr rfl) rfl rfl
      refine ⟨s', _, ?_, h2, ?_⟩
      · simp only [body, insertOrAssign]
        rw [Prog.run_bind_ok h1]
        simp [hf, Cache.step, view, abs_lookup h]
      · simp only [Cache.step, view, abs_lookup h, hf, Cache.without, abs_without h.keys]
        simp [h3, abs]
    | none =>
      have hk := (h.find_none k).1 hf
      by_cases hc : s.capacity = 0
      · refine ⟨s, T, ?_, h, ?_⟩
        · simp [Prog.run_bind, body, insertOrAssign, insertImpl, hf, Cache.step, view, abs_lookup h, hc]
        · simp [hf, Cache.step, view, abs_lookup h, hc]
      · obtain ⟨s1, h1, h2, h3⟩ := run_insert_absent noFaults h k v true hk hc rfl fun _ => rfl
        refine ⟨_, _, ?_, h1.push k v (room_keys hk), ?_⟩
        · simp only [body, insertOrAssign]
          rw [if_neg (by simp [noFaults]), if_neg (by simp [noFaults])] at h3
          rw [Prog.run_bind_ok h3]
          simp only [Prog.run_pure, Cache.step, view, abs_lookup h, hf, hlen, hc]
          by_cases hl : T.length < s.capacity <;> simp [hl]
        · simp only [Cache.step, view, abs_lookup h, hf, hlen, hc]
          by_cases hl : T.length < s.capacity
          · have : ¬ s.capacity ≤ T.length := by omega
            simp [hl, h2, abs, room, this]
          · have : s.capacity ≤ T.length := by omega
            simp [hl, h2, abs, room, this, List.map_dropLast]
  | get k =>
    cases hf : mapFind s.map k with
    | none =>
      refine ⟨s, T, ?_, h, ?_⟩
      · simp [Prog.run_bind, body, get, hf, Cache.step, view, abs_lookup h]
      · simp [hf, Cache.step, view, abs_lookup h]
    | some x =>
      obtain ⟨v, i⟩ := x
      obtain ⟨A, B, rfl, hk, _⟩ := h.split ((h.find_some k v i).1 hf)
      obtain ⟨s', j, h1, h2, h3⟩ := run_get noFaults h (Or.inr rfl) rfl rfl
      refine ⟨s', _, ?_, h2, ?_⟩
      · simp only [body]
        rw [Prog.run_bind_ok h1]
        simp [hf, Cache.step, view, abs_lookup h]
      · simp only [Cache.step, view, abs_lookup h, hf, Option.map_some, Cache.without, abs_without h.keys]
        simp [h3, abs]
  | remove k =>
    cases hf : mapFind s.map k with
    | none =>
      refine ⟨s, T, ?_, h, ?_⟩
      · simp [Prog.run_bind, body, remove, hf, Cache.step, view, abs_lookup h]
      · simp [hf, Cache.step, view, abs_lookup h]
    | some x =>
      obtain ⟨v, i⟩ := x
      obtain ⟨A, B, rfl, hk, _⟩ := h.split ((h.find_some k v i).1 hf)
      obtain ⟨s', h1, h2, h3⟩ := run_remove h
      refine ⟨s', _, ?_, h2, ?_⟩
      · simp only [body]
        rw [Prog.run_bind_ok h1]
        simp [hf, Cache.step, view, abs_lookup h]
      · simp only [Cache.step, view, abs_lookup h, hf, Cache.without, abs_without h.keys]
        simp [h3]

/-- Every sequence of calls simulates the abstract cache. -/
theorem steps_sim {s : State K V} {T : List (Entry K V)} (h : Rel s T) (cs : List (Call K V)) :
    ∃ s' T', calls cs s = some (s', ((view s T).steps cs).2) ∧ Rel s' T' ∧ view s' T' = ((view s T).steps cs).1 := by
  induction cs generalizing s T with
  | nil => exact ⟨s, T, rfl, h, rfl⟩
  | cons c cs ih =>
    obtain ⟨s1, T1, h1, h2, h3⟩ := step_sim h c
    obtain ⟨s2, T2, h4, h5, h6⟩ := ih h2
    refine ⟨s2, T2, ?_, h5, ?_⟩
    · simp only [calls, h1, h4, Cache.steps, h3]
    · simp only [h6, Cache.steps, h3]

/-! ## Consequences -/

/-- States that call sequences reach represent some recency list. -/
theorem reach_rel {n : Nat} {cs : List (Call K V)} {s : State K V} {rs : List (Ret V)}
    (h : calls cs (init n) = some (s, rs)) :
    ∃ T, Rel s T ∧ view s T = (({ capacity := n, items := [] } : Cache K V).steps cs).1 ∧
      rs = (({ capacity := n, items := [] } : Cache K V).steps cs).2 := by
  obtain ⟨s', T, h1, h2, h3⟩ := steps_sim (rel_init n) cs
  rw [h] at h1
  simp only [Option.some.injEq, Prod.mk.injEq] at h1
  obtain ⟨rfl, rfl⟩ := h1
  exact ⟨T, h2, h3, rfl⟩

theorem contents_eq {s : State K V} {T : List (Entry K V)} (h : Rel s T) :
    contents s = T.map (fun t => (t.2.1, some t.2.2)) := by
  unfold contents
  rw [h.list, List.map_map]
  apply List.map_congr_left
  intro t ht
  have := (h.find_some t.2.1 t.2.2 t.1).2 ht
  simp [this]

theorem without_sub (c : Cache K V) (k : K) : (c.without k).length ≤ c.items.length := List.length_filter_le _ _

theorem without_lt {c : Cache K V} {k : K} (h : (c.lookup k).isSome) : (c.without k).length < c.items.length := by
  unfold Cache.lookup at h
  rw [Option.isSome_map, List.find?_isSome] at h
  obtain ⟨e, he, hk⟩ := h
  unfold Cache.without
  apply List.length_filter_lt_length_iff_exists.2
  exact ⟨e, he, by simpa using hk⟩

theorem step_bound (c : Cache K V) (h : c.items.length ≤ c.capacity) (a : Call K V) :
    (c.step a).1.items.length ≤ (c.step a).1.capacity := by
  cases a <;> simp only [Cache.step]
  case size => exact h
  case capacity => exact h
  case empty => exact h
  case contains => exact h
  case clear => simp
  case setCapacity n => simp; omega
  case insert k v =>
    split
    · exact h
    · split
      · simp; omega
      · split
        · exact h
        · simp; omega
  case insertOrAssign k v =>
    split
    · rename_i hs; have := without_lt hs; simp; omega
    · split
      · simp; omega
      · split
        · exact h
        · simp; omega
  case get k =>
    cases hl : c.lookup k with
    | none => exact h
    | some v => have := without_lt (c := c) (k := k) (by rw [hl]; rfl); simp; omega
  case remove k =>
    split
    · have := without_sub c k; simp; omega
    · exact h

theorem steps_bound (c : Cache K V) (h : c.items.length ≤ c.capacity) (cs : List (Call K V)) :
    (c.steps cs).1.items.length ≤ (c.steps cs).1.capacity := by
  induction cs generalizing c with
  | nil => exact h
  | cons a cs ih => exact ih _ (step_bound c h a)

theorem calls_append (cs ds : List (Call K V)) (s : State K V) :
    calls (cs ++ ds) s = (calls cs s).bind fun p => (calls ds p.1).map fun q => (q.1, p.2 ++ q.2) := by
  induction cs generalizing s with
  | nil => cases h : calls ds s <;> simp [calls, h]
  | cons c cs ih =>
    simp only [List.cons_append, calls]
    cases h : call c s with
    | none => rfl
    | some p =>
      simp only [ih]
      cases h1 : calls cs p.1 with
      | none => simp
      | some q =>
        simp only [Option.bind_some]
        cases h2 : calls ds q.1 <;> simp

theorem steps_append (c : Cache K V) (cs ds : List (Call K V)) :
    (c.steps (cs ++ ds)).1 = ((c.steps cs).1.steps ds).1 := by
  induction cs generalizing c with
  | nil => rfl
  | cons a cs ih => exact ih _

theorem steps_length (c : Cache K V) (cs : List (Call K V)) : (c.steps cs).2.length = cs.length := by
  induction cs generalizing c with
  | nil => rfl
  | cons a cs ih => simp [Cache.steps, ih]

theorem steps_append_snd (c : Cache K V) (cs ds : List (Call K V)) :
    (c.steps (cs ++ ds)).2 = (c.steps cs).2 ++ ((c.steps cs).1.steps ds).2 := by
  induction cs generalizing c with
  | nil => rfl
  | cons a cs ih => simp [Cache.steps, ih]

/-- Reached from reached. -/
theorem reach_append {n : Nat} {cs ds : List (Call K V)} {s s' : State K V} {rs rs' : List (Ret V)}
    (h : calls cs (init n) = some (s, rs)) (h' : calls ds s = some (s', rs')) :
    calls (cs ++ ds) (init n) = some (s', rs ++ rs') := by
  rw [calls_append, h]; simp [h']

/-! ### Assignments only -/

theorem distinct_nodup (l : List K) : (distinct l).Nodup := by
  induction l with
  | nil => exact List.nodup_nil
  | cons a l ih => simp only [distinct, List.nodup_cons]; exact ⟨by simp, ih.filter _⟩

theorem filter_notin {D : List K} {k : K} (h : k ∉ D) : D.filter (fun x => decide (x ≠ k)) = D := by
  rw [List.filter_eq_self]
  rintro x hx
  simp only [ne_eq, decide_eq_true_eq]
  rintro rfl; exact h hx

theorem take_filter_mem {D : List K} {k : K} {n : Nat} (hD : D.Nodup) (hk : k ∈ D.take n) :
    (k :: D.filter (fun x => decide (x ≠ k))).take n = k :: (D.take n).filter (fun x => decide (x ≠ k)) := by
  cases n with
  | zero => simp at hk
  | succ n =>
    rw [List.take_succ_cons]
    congr 1
    induction D generalizing n with
    | nil => simp at hk
    | cons a D ih =>
      rw [List.nodup_cons] at hD
      by_cases ha : a = k
      · subst ha
        rw [List.filter_cons_of_neg (by simp), filter_notin hD.1, List.take_succ_cons, List.filter_cons_of_neg (by simp),
          filter_notin (fun h => hD.1 (List.mem_of_mem_take h))]
      · rw [List.filter_cons_of_pos (by simpa using ha), List.take_succ_cons, List.filter_cons_of_pos (by simpa using ha)]
        rw [List.take_succ_cons, List.mem_cons] at hk
        have hk : k ∈ D.take n := hk.resolve_left (fun h => ha h.symm)
        cases n with
        | zero => simp at hk
        | succ n => rw [List.take_succ_cons, ih hD.2 n hk]

theorem take_filter_notmem {D : List K} {k : K} {n : Nat} (hk : k ∉ D.take n) :
    (D.filter (fun x => decide (x ≠ k))).take (n - 1) = D.take (n - 1) := by
  induction D generalizing n with
  | nil => rfl
  | cons a D ih =>
    cases n with
    | zero => simp
    | succ n =>
      rw [List.take_succ_cons, List.mem_cons, not_or] at hk
      rw [List.filter_cons_of_pos (by simpa using fun h => hk.1 h.symm)]
      cases n with
      | zero => simp
      | succ n =>
        have := ih hk.2
        simpa using this

theorem steps_assign (n : Nat) (kvs : List (K × V)) :
    (((({ capacity := n, items := [] } : Cache K V).steps (kvs.map fun e => .insertOrAssign e.1 e.2)).1).items.map (·.1)
      = mostRecent n (kvs.map (·.1))) ∧
    ((({ capacity := n, items := [] } : Cache K V).steps (kvs.map fun e => .insertOrAssign e.1 e.2)).1).capacity = n := by
  obtain ⟨r, rfl⟩ : ∃ r, kvs = r.reverse := ⟨kvs.reverse, by simp⟩
  induction r with
  | nil => simp [Cache.steps, mostRecent, distinct]
  | cons e r ih =>
    rw [List.reverse_cons, List.map_append, steps_append]
    generalize (({ capacity := n, items := [] } : Cache K V).steps
      (r.reverse.map fun e => .insertOrAssign e.1 e.2)).1 = c at ih ⊢
    obtain ⟨h1, h2⟩ := ih
    obtain ⟨k, v⟩ := e
    have hm : mostRecent n ((r.reverse ++ [(k, v)]).map (·.1)) =
        (k :: (distinct (r.map (·.1))).filter (fun x => decide (x ≠ k))).take n := by
      simp [mostRecent, distinct]
    rw [hm]
    have hmr : c.items.map (·.1) = (distinct (r.map (·.1))).take n := by rw [h1]; simp [mostRecent]
    have hD := distinct_nodup (r.map (·.1))
    have hlook : (c.lookup k).isSome ↔ k ∈ c.items.map (·.1) := by
      unfold Cache.lookup
      rw [Option.isSome_map, List.find?_isSome, List.mem_map]
      simp
    generalize distinct (r.map (·.1)) = D at *
    simp only [List.map_cons, List.map_nil, Cache.steps, Cache.step]
    rw [hmr] at hlook
    have hlen : c.items.length = min n D.length := by
      rw [← List.length_map (f := (·.1)), hmr, List.length_take]
    by_cases hk : k ∈ D.take n
    · rw [if_pos (hlook.2 hk), take_filter_mem hD hk, ← hmr]
      refine ⟨?_, h2⟩
      simp only [List.map_cons, Cache.without, List.filter_map]
      rfl
    · rw [if_neg (fun h => hk (hlook.1 h)), h2]
      have h3 := take_filter_notmem hk
      by_cases hl : c.items.length < n
      · rw [if_pos hl]
        refine ⟨?_, rfl⟩
        have hDn : D.length < n := by omega
        rw [List.take_of_length_le (by omega)] at hk hmr
        rw [filter_notin hk, List.take_of_length_le (by simp; omega)]
        simp [hmr]
      · rw [if_neg hl]
        by_cases hn : n = 0
        · subst hn
          rw [if_pos rfl]
          exact ⟨by simp [hmr], h2⟩
        · rw [if_neg hn]
          refine ⟨?_, rfl⟩
          obtain ⟨m, rfl⟩ : ∃ m, n = m + 1 := ⟨n - 1, by omega⟩
          rw [List.take_succ_cons]
          simp only [Nat.add_sub_cancel] at h3
          rw [h3]
          simp only [List.map_cons]
          congr 1
          rw [List.map_dropLast, hmr, List.dropLast_eq_take, List.length_take, List.take_take]
          congr 1
          omega

/-! ### The last stored value -/

theorem lastStored_append (k : K) (h : List (Call K V × Ret V)) (e : Call K V × Ret V) :
    lastStored k (h ++ [e]) = (lastStored k [e]).or (lastStored k h) := by
  induction h with
  | nil => simp [lastStored]
  | cons a h ih =>
    obtain ⟨c, r⟩ := a
    rw [List.cons_append]
    conv_lhs => unfold lastStored
    conv_rhs => arg 2; unfold lastStored
    rw [ih]
    cases h1 : lastStored k [e] with
    | none => simp
    | some v => simp

theorem lookup_cons (n : Nat) (k k' : K) (v : V) (l : List (K × V)) :
    Cache.lookup { capacity := n, items := (k', v) :: l } k = if k' = k then some v
      else Cache.lookup { capacity := n, items := l } k := by
  unfold Cache.lookup
  by_cases h : k' = k <;> simp [h]

theorem lookup_capacity (n m : Nat) (k : K) (l : List (K × V)) :
    Cache.lookup { capacity := n, items := l } k = Cache.lookup { capacity := m, items := l } k := rfl

theorem lookup_sublist {n : Nat} {l l' : List (K × V)} (hs : l.Sublist l') (hnd : (l'.map (·.1)).Nodup) {k : K} {v : V}
    (h : Cache.lookup { capacity := n, items := l } k = some v) :
    Cache.lookup { capacity := n, items := l' } k = some v := by
  have hm : (k, v) ∈ l := by
    unfold Cache.lookup at h
    obtain ⟨e, he, rfl⟩ := Option.map_eq_some_iff.1 h
    have h1 := List.find?_some he
    have h2 := List.mem_of_find?_eq_some he
    simp at h1
    rw [← h1]; exact h2
  have hm' := hs.mem hm
  unfold Cache.lookup
  rw [Option.map_eq_some_iff]
  refine ⟨(k, v), ?_, rfl⟩
  clear hs h hm l
  induction l' with
  | nil => cases hm'
  | cons e l ih =>
    rw [List.map_cons, List.nodup_cons] at hnd
    rcases List.mem_cons.1 hm' with rfl | hm
    · simp
    · have : e.1 ≠ k := by
        rintro rfl
        exact hnd.1 (List.mem_map.2 ⟨_, hm, rfl⟩)
      rw [List.find?_cons_of_neg (by simpa using this)]
      exact ih hnd.2 hm

/-- A value found after a call was stored by that call or found before. -/
theorem step_lookup {c : Cache K V} (hnd : (c.items.map (·.1)).Nodup) (a : Call K V) {k : K} {v : V}
    (h : (c.step a).1.lookup k = some v) :
    (lastStored k [(a, (c.step a).2)]).or (c.lookup k) = some v := by
  have hsub : ∀ {l : List (K × V)} {n : Nat}, l.Sublist c.items → Cache.lookup { capacity := n, items := l } k = some v →
      c.lookup k = some v := fun hs hl => lookup_sublist (n := c.capacity) hs hnd hl
  cases a with
  | size => simpa [Cache.step, lastStored] using h
  | capacity => simpa [Cache.step, lastStored] using h
  | empty => simpa [Cache.step, lastStored] using h
  | contains k' => simpa [Cache.step, lastStored] using h
  | clear => simp [Cache.step, Cache.lookup] at h
  | setCapacity n =>
    simp only [Cache.step, lastStored, Option.none_or] at h ⊢
    exact hsub (List.take_sublist _ _) h
  | insert k' v' =>
    simp only [Cache.step] at h ⊢
    split at h <;> rename_i h0
    · simp only [h0, if_true]; simpa [lastStored] using h
    · simp only [h0]
      split at h <;> rename_i h1
      · rw [lookup_cons] at h
        simp only [h1, if_true, lastStored]
        split at h
        · simp [*]
        · simp [*]
      · simp only [h1, if_false]
        split at h <;> rename_i h2
        · simp only [h2, if_true, lastStored]
          by_cases hk : k' = k
          · subst hk; rw [h] at h0; simp at h0
          · simpa [hk] using h
        · rw [lookup_cons] at h
          simp only [h2, if_false, lastStored]
          split at h <;> rename_i h3
          · simp [h3, h]
          · simp [h3]
            exact hsub (List.dropLast_sublist _) h
  | insertOrAssign k' v' =>
    simp only [Cache.step] at h ⊢
    have key : ∀ r : Ret V, lastStored k [((.insertOrAssign k' v' : Call K V), r)] = if k' = k then some v' else none := by
      intro r; simp [lastStored]
    rw [key]
    split at h <;> rename_i h0
    · rw [lookup_cons] at h
      split at h <;> rename_i h3
      · simpa [h3] using h
      · simp only [h3, if_false, Option.none_or]
        exact hsub List.filter_sublist h
    · split at h <;> rename_i h1
      · rw [lookup_cons] at h
        split at h <;> rename_i h3
        · simpa [h3] using h
        · simp only [h3, if_false, Option.none_or]; exact h
      · split at h <;> rename_i h2
        · by_cases hk : k' = k
          · subst hk; rw [h] at h0; simp at h0
          · simpa [hk] using h
        · rw [lookup_cons] at h
          split at h <;> rename_i h3
          · simpa [h3] using h
          · simp only [h3, if_false, Option.none_or]
            exact hsub (List.dropLast_sublist _) h
  | get k' =>
    have key : ∀ r : Ret V, lastStored k [((.get k' : Call K V), r)] = none := by
      intro r; simp [lastStored]
    rw [key, Option.none_or]
    simp only [Cache.step] at h
    cases hl : c.lookup k' with
    | none => rw [hl] at h; exact h
    | some v' =>
      rw [hl] at h
      simp only [lookup_cons] at h
      split at h <;> rename_i h3
      · subst h3; rw [hl]; exact h
      · exact hsub List.filter_sublist h
  | remove k' =>
    have key : ∀ r : Ret V, lastStored k [((.remove k' : Call K V), r)] = none := by
      intro r; simp [lastStored]
    rw [key, Option.none_or]
    simp only [Cache.step] at h
    split at h
    · exact hsub List.filter_sublist h
    · exact h

/-- Keys stay distinct. -/
theorem reach_nodup (n : Nat) (cs : List (Call K V)) :
    ((({ capacity := n, items := [] } : Cache K V).steps cs).1.items.map (·.1)).Nodup := by
  obtain ⟨s, T, h1, h2, h3⟩ := steps_sim (rel_init (K := K) (V := V) n) cs
  have : view (init n) ([] : List (Entry K V)) = { capacity := n, items := [] } := rfl
  rw [← this, ← h3]
  have e : (view s T).items.map (·.1) = T.map (·.2.1) := by simp [view, abs]
  rw [e]; exact h2.keys

theorem reach_lastStored (n : Nat) (cs : List (Call K V)) (k : K) (v : V)
    (h : (({ capacity := n, items := [] } : Cache K V).steps cs).1.lookup k = some v) :
    lastStored k (cs.zip (({ capacity := n, items := [] } : Cache K V).steps cs).2) = some v := by
  obtain ⟨r, rfl⟩ : ∃ r, cs = r.reverse := ⟨cs.reverse, by simp⟩
  induction r generalizing v with
  | nil => simp [Cache.steps, Cache.lookup] at h
  | cons a r ih =>
    rw [List.reverse_cons] at h ⊢
    rw [steps_append] at h
    rw [steps_append_snd, List.zip_append (by rw [steps_length])]
    have := step_lookup (reach_nodup n r.reverse) a h
    show lastStored k (_ ++ [(a, _)]) = some v
    rw [lastStored_append]
    cases h1 : lastStored k [(a, ((({ capacity := n, items := [] } : Cache K V).steps r.reverse).1.step a).2)] with
    | some w => rw [h1] at this; simpa using this
    | none => rw [h1] at this; simp only [Option.none_or] at this ⊢; exact ih v this

/-! ### Failures -/

theorem evictLru_same {f : Faults} (hE : ∀ n, f (.erase n) = false) :
    (evictLru f : Prog (State K V) Unit) = evictLru noFaults := by
  unfold evictLru
  simp only [hE]
  rfl

theorem shrink_same {f : Faults} (hE : ∀ n, f (.erase n) = false) (fuel : Nat) :
    (shrink f fuel : Prog (State K V) Unit) = shrink noFaults fuel := by
  induction fuel with
  | zero => rfl
  | succ n ih => unfold shrink; rw [ih, evictLru_same hE]

/-- An eviction whose comparisons throw changes nothing. -/
theorem run_evictLru_threw {s : State K V} {T : List (Entry K V)} {f : Faults} (h : Rel s T) (hne : T ≠ [])
    (hE : f (.erase T.length) = true) : (evictLru f : Prog (State K V) Unit).run s = (.threw, s) := by
  obtain ⟨x, hx⟩ : ∃ x, s.list.getLast? = some x := by
    rw [h.list]
    exact ⟨_, List.getLast?_eq_some_getLast (by simpa using hne)⟩
  unfold evictLru
  simp only [Prog.run_read_bind, hx, h.length, Prog.orThrow, hE, if_true, Prog.run_throw_bind]

/-- `insert` of an absent key when the eviction throws. -/
theorem run_insert_threw {s : State K V} {T : List (Entry K V)} {f : Faults} (h : Rel s T) {k : K} (v : V) (oa : Bool)
    (hf : mapFind s.map k = none) (hc : s.capacity ≠ 0) (hF : f .find = false) (hl : s.capacity ≤ T.length)
    (hE : f (.erase T.length) = true) : (insertImpl f k v oa).run s = (.threw, s) := by
  have hne : T ≠ [] := by rintro rfl; simp at hl; omega
  unfold insertImpl size
  rw [Prog.orThrow, if_neg (c := f .find = true) (by simp [hF])]
  simp only [Prog.run_read_bind, hf, hc, ne_eq, not_false_eq_true, if_true, h.length, if_pos hl]
  rw [Prog.run_bind, run_evictLru_threw h hne hE]

/-- `insert` of an absent key when nothing throws that matters. -/
theorem insert_same {s : State K V} {T : List (Entry K V)} {f : Faults} (h : Rel s T) {k : K} (v : V) (oa : Bool)
    (hf : mapFind s.map k = none) (hF : f .find = false) (hE : s.capacity ≤ T.length → f (.erase T.length) = false)
    (hp : f .pushFront = false) (he : f .emplace = false) :
    (insertImpl f k v oa).run s = (insertImpl noFaults k v oa).run s := by
  have h1 : ∀ x : Fault, f x = false → f x = noFaults x := fun _ hx => hx
  unfold insertImpl size
  rw [h1 _ hF, h1 _ hp, h1 _ he]
  simp only [orThrow_noFaults, Prog.run_read_bind, hf]
  by_cases hl : s.capacity ≤ T.length
  · have hev : (evictLru f : Prog (State K V) Unit).run s = (evictLru noFaults : Prog (State K V) Unit).run s := by
      unfold evictLru
      simp only [Prog.run_read_bind, h.length, h1 _ (hE hl)]
    split
    · simp only [hl, if_true, Prog.run_read_bind, h.length]
      rw [Prog.run_bind, Prog.run_bind, hev]
    · rfl
  · split
    · simp only [Prog.run_read_bind, h.length, hl, if_false]
    · rfl

/-- The eviction loop when an eviction throws: the entries that are left then stay. -/
theorem run_shrink_threw {f : Faults} (fuel : Nat) {s : State K V} {T : List (Entry K V)} (h : Rel s T)
    (hf : T.length ≤ fuel) {j : Nat} (hj : s.capacity < j) (hT : j ≤ T.length) (hE : f (.erase j) = true)
    (hE' : ∀ i, j < i → i ≤ T.length → f (.erase i) = false) :
    ∃ s', (shrink f fuel : Prog (State K V) Unit).run s = (.threw, s') ∧ Rel s' (T.take j) ∧ s'.capacity = s.capacity := by
  induction fuel generalizing s T with
  | zero => omega
  | succ fuel ih =>
    have hne : T ≠ [] := by rintro rfl; simp at hT; omega
    have hc : s.capacity < T.length := by omega
    unfold shrink size
    simp only [Prog.run_read_bind, h.length, hc, if_true]
    by_cases hl : T.length = j
    · refine ⟨s, ?_, by rw [List.take_of_length_le (by omega)]; exact h, rfl⟩
      rw [Prog.run_bind, run_evictLru_threw h hne (by rw [hl]; exact hE)]
    · obtain ⟨s1, h1, h2, h3, _⟩ := run_evictLru f h hne (hE' _ (by omega) (Nat.le_refl _))
      rw [Prog.run_bind_ok h1]
      obtain ⟨s2, h4, h5, h6⟩ := ih h2 (by simp; omega) (by omega) (by simp; omega)
        (fun i hi hi' => hE' i hi (by simp at hi'; omega))
      refine ⟨s2, h4, ?_, by omega⟩
      rw [List.dropLast_eq_take, List.take_take, Nat.min_eq_left (by omega)] at h5
      exact h5

/-- The eviction loop when none of its evictions throws. -/
theorem shrink_ok {f : Faults} (fuel : Nat) {s : State K V} {T : List (Entry K V)} (h : Rel s T)
    (hE : ∀ i, s.capacity < i → i ≤ T.length → f (.erase i) = false) :
    (shrink f fuel : Prog (State K V) Unit).run s = (shrink noFaults fuel).run s := by
  induction fuel generalizing s T with
  | zero => rfl
  | succ fuel ih =>
    unfold shrink size
    simp only [Prog.run_read_bind, h.length]
    by_cases hc : s.capacity < T.length
    · have hne : T ≠ [] := by rintro rfl; simp at hc
      simp only [hc, if_true]
      have hev : (evictLru f : Prog (State K V) Unit).run s = (evictLru noFaults : Prog (State K V) Unit).run s := by
        have : f (.erase T.length) = noFaults (.erase T.length) := hE _ hc (Nat.le_refl _)
        unfold evictLru
        simp only [Prog.run_read_bind, h.length, this]
      obtain ⟨s1, h1, h2, h3, _⟩ := run_evictLru noFaults h hne rfl
      rw [Prog.run_bind_ok (hev.trans h1), Prog.run_bind_ok h1]
      exact ih h2 fun i hi hi' => hE i (by omega) (by simp at hi'; omega)
    · simp only [hc, if_false]

/-- `capacity(n)` when an eviction throws. -/
theorem setCapacity_threw {s : State K V} {T : List (Entry K V)} {f : Faults} (h : Rel s T) {n j : Nat} (hn : n ≠ 0)
    (hj : n < j) (hT : j ≤ T.length) (hE : f (.erase j) = true)
    (hE' : ∀ i, j < i → i ≤ T.length → f (.erase i) = false) :
    ∃ s', faultyCall f (.setCapacity n) s = some (s', .threw) ∧ Rel s' (T.take j) ∧ s'.capacity = n := by
  have hr : Rel { s with capacity := n } T := ⟨h.list, h.map, h.ids, h.keys, h.fresh⟩
  obtain ⟨s', h1, h2, h3⟩ := run_shrink_threw s.list.length hr (by rw [h.list]; simp) hj hT hE hE'
  refine ⟨s', ?_, h2, h3⟩
  unfold faultyCall
  have : (body f (.setCapacity n)).run s = (.threw, s') := by
    simp only [body, setCapacity]
    rw [Prog.run_bind]
    simp only [Prog.run_modify_bind, Prog.run_read_bind, hn, if_false]
    rw [h1]
  rw [this]

/-- Every call of `capacity(n)` leaves a consistent cache. -/
theorem setCapacity_rel {s : State K V} {T : List (Entry K V)} (h : Rel s T) (f : Faults) (n : Nat) :
    ∃ s' T' o, faultyCall f (.setCapacity n) s = some (s', o) ∧ Rel s' T' := by
  by_cases hx : n ≠ 0 ∧ ∃ j, n < j ∧ j ≤ T.length ∧ f (.erase j) = true
  · obtain ⟨hn, hx⟩ := hx
    obtain ⟨j, hj, hT, hE, hmax⟩ : ∃ j, n < j ∧ j ≤ T.length ∧ f (.erase j) = true ∧
        ∀ i, j < i → i ≤ T.length → f (.erase i) = false := by
      obtain ⟨j, hj, hT, hE⟩ := hx
      have key : ∀ m j, T.length = j + m → n < j → f (.erase j) = true → ∃ j, n < j ∧ j ≤ T.length ∧
          f (.erase j) = true ∧ ∀ i, j < i → i ≤ T.length → f (.erase i) = false := by
        intro m
        induction m using Nat.strongRecOn with
        | ind m ih =>
          intro j hm hj hE
          by_cases hy : ∃ i, j < i ∧ i ≤ T.length ∧ f (.erase i) = true
          · obtain ⟨i, h1, h2, h3⟩ := hy
            exact ih (T.length - i) (by omega) i (by omega) (by omega) h3
          · refine ⟨j, hj, by omega, hE, fun i h1 h2 => ?_⟩
            cases h3 : f (.erase i) with
            | false => rfl
            | true => exact absurd ⟨i, h1, h2, h3⟩ hy
      exact key (T.length - j) j (by omega) hj hE
    obtain ⟨s', h1, h2, -⟩ := setCapacity_threw h hn hj hT hE hmax
    exact ⟨s', _, _, h1, h2⟩
  · obtain ⟨s', T', h1, h2, h3⟩ := step_sim h (.setCapacity n)
    refine ⟨s', T', .ok ((view s T).step (.setCapacity n)).2, ?_, h2⟩
    have : (body f (.setCapacity n)).run s = (body noFaults (.setCapacity n)).run s := by
      suffices hs : (setCapacity f n : Prog (State K V) Unit).run s = (setCapacity noFaults n).run s by
        simp only [body]
        rw [Prog.run_bind, Prog.run_bind, hs]
      simp only [setCapacity, Prog.run_modify_bind, Prog.run_read_bind]
      by_cases hn : n = 0
      · simp only [hn, if_true]
      · have hr : Rel { s with capacity := n } T := ⟨h.list, h.map, h.ids, h.keys, h.fresh⟩
        simp only [hn, if_false, Prog.run_read_bind]
        rw [shrink_ok _ hr]
        intro i hi hi'
        cases h3 : f (.erase i) with
        | false => rfl
        | true => exact absurd ⟨hn, i, hi, hi', h3⟩ hx
    unfold faultyCall
    rw [this]
    unfold call at h1
    generalize (body noFaults (.setCapacity n)).run s = x at h1 ⊢
    obtain ⟨o, s''⟩ := x
    cases o <;> simp_all

/-- A call either has its specified effect or throws and leaves the entries alone, except that the least recently
used one may be gone. -/
theorem faulty_sim {s : State K V} {T : List (Entry K V)} (h : Rel s T) (f : Faults) (c : Call K V) (hb : Benign f c) :
    ∃ s' T' o, faultyCall f c s = some (s', o) ∧ Rel s' T' ∧
      ((o = .ok ((view s T).step c).2 ∧ view s' T' = ((view s T).step c).1) ∨
       (o = .threw ∧ s'.capacity = s.capacity ∧ (T' = T ∨ T' = T.dropLast))) := by
  have hok : (body f c).run s = (body noFaults c).run s →
      ∃ s' T' o, faultyCall f c s = some (s', o) ∧ Rel s' T' ∧
      ((o = .ok ((view s T).step c).2 ∧ view s' T' = ((view s T).step c).1) ∨
       (o = .threw ∧ s'.capacity = s.capacity ∧ (T' = T ∨ T' = T.dropLast))) := by
    intro he
    obtain ⟨s', T', h1, h2, h3⟩ := step_sim h c
    refine ⟨s', T', .ok ((view s T).step c).2, ?_, h2, Or.inl ⟨rfl, h3⟩⟩
    unfold faultyCall
    rw [he]
    unfold call at h1
    generalize (body noFaults c).run s = x at h1 ⊢
    obtain ⟨o, s''⟩ := x
    cases o <;> simp_all
  have hthrew : (body f c).run s = (.threw, s) →
      ∃ s' T' o, faultyCall f c s = some (s', o) ∧ Rel s' T' ∧
      ((o = .ok ((view s T).step c).2 ∧ view s' T' = ((view s T).step c).1) ∨
       (o = .threw ∧ s'.capacity = s.capacity ∧ (T' = T ∨ T' = T.dropLast))) := by
    intro he
    exact ⟨s, T, .threw, by unfold faultyCall; rw [he], h, Or.inr ⟨rfl, rfl, Or.inl rfl⟩⟩
  by_cases hF : f .find = true
  · cases c with
    | size => exact hok rfl
    | capacity => exact hok rfl
    | empty => exact hok rfl
    | clear => exact hok rfl
    | setCapacity n => apply hok; simp only [body, setCapacity, shrink_same hb]
    | contains k => apply hthrew; simp only [body, contains, Prog.orThrow, hF, if_true, Prog.run_throw_bind]
    | remove k => apply hthrew; simp only [body, remove, Prog.orThrow, hF, if_true, Prog.run_bind, Prog.run_throw]
    | insert k v => apply hthrew; simp only [body, insert, insertImpl, Prog.orThrow, hF, if_true, Prog.run_bind, Prog.run_throw]
    | insertOrAssign k v =>
      apply hthrew; simp only [body, insertOrAssign, insertImpl, Prog.orThrow, hF, if_true, Prog.run_bind, Prog.run_throw]
    | get k => apply hthrew; simp only [body, get, Prog.orThrow, hF, if_true, Prog.run_bind, Prog.run_throw]
  replace hF : f .find = false := by simpa using hF
  have hFn : f .find = noFaults .find := hF
  cases c with
  | size => exact hok rfl
  | capacity => exact hok rfl
  | empty => exact hok rfl
  | contains k => apply hok; simp only [body, contains, hFn]
  | clear => exact hok rfl
  | setCapacity n => apply hok; simp only [body, setCapacity, shrink_same hb]
  | remove k => apply hok; simp only [body, remove, hFn]
  | insert k v =>
    have he : f .emplace = false := hb
    cases hf : mapFind s.map k with
    | some x =>
      apply hok
      simp [body, insert, insertImpl, Prog.run_bind, hf, hFn]
    | none =>
      have hk := (h.find_none k).1 hf
      by_cases hc : s.capacity = 0
      · apply hok
        simp [body, insert, insertImpl, Prog.run_bind, hf, hc, hFn]
      · by_cases hE : s.capacity ≤ T.length ∧ f (.erase T.length) = true
        · apply hthrew
          simp only [body, insert]
          rw [Prog.run_bind, run_insert_threw h v false hf hc hF hE.1 hE.2]
        · replace hE : s.capacity ≤ T.length → f (.erase T.length) = false := by simpa using hE
          by_cases hp : f .pushFront = true
          · obtain ⟨s1, h1, h2, h3⟩ := run_insert_absent f h k v false hk hc hF hE
            rw [if_pos hp] at h3
            refine ⟨s1, _, .threw, ?_, h1, Or.inr ⟨rfl, h2, ?_⟩⟩
            · simp [faultyCall, body, insert, Prog.run_bind, h3]
            · unfold room; split <;> simp
          · apply hok
            simp only [body, insert]
            rw [Prog.run_bind, Prog.run_bind, insert_same h v false hf hF hE (by simpa using hp) he]
  | insertOrAssign k v =>
    obtain ⟨he, hp⟩ : f .emplace = false ∧ f .pushFront = false := hb
    cases hf : mapFind s.map k with
    | none =>
      by_cases hc : s.capacity = 0
      · apply hok
        simp [body, insertOrAssign, insertImpl, Prog.run_bind, hf, hc, hFn]
      · by_cases hE : s.capacity ≤ T.length ∧ f (.erase T.length) = true
        · apply hthrew
          simp only [body, insertOrAssign]
          rw [Prog.run_bind, run_insert_threw h v true hf hc hF hE.1 hE.2]
        · replace hE : s.capacity ≤ T.length → f (.erase T.length) = false := by simpa using hE
          apply hok
          simp only [body, insertOrAssign]
          rw [Prog.run_bind, Prog.run_bind, insert_same h v true hf hF hE hp he]
    | some x =>
      by_cases ha : f .assign = true
      · apply hthrew
        simp [body, insertOrAssign, insertImpl, Prog.run_bind, hf, Prog.orThrow, ha, hF]
      · apply hok
        simp [body, insertOrAssign, insertImpl, moveToFront, Prog.run_bind, hf, Prog.orThrow, hp, hF, noFaults, ha]
  | get k =>
    have hp : f .pushFront = false := hb
    cases hf : mapFind s.map k with
    | none =>
      apply hok
      simp [body, get, Prog.run_bind, hf, hFn]
    | some x =>
      by_cases ha : f .copyOut = true
      · apply hthrew
        simp [body, get, Prog.run_bind, hf, Prog.orThrow, ha, hF]
      · apply hok
        simp [body, get, moveToFront, Prog.orThrow, hp, noFaults, ha, hF]

theorem faulty_steps {s : State K V} {T : List (Entry K V)} (h : Rel s T) (hl : T.length ≤ s.capacity)
    (hist : List (Faults × Call K V)) (hb : ∀ e ∈ hist, Benign e.1 e.2) :
    ∃ s' T' os, faultyCalls hist s = some (s', os) ∧ Rel s' T' ∧ T'.length ≤ s'.capacity := by
  induction hist generalizing s T with
  | nil => exact ⟨s, T, [], rfl, h, hl⟩
  | cons e hist ih =>
    obtain ⟨f, c⟩ := e
    obtain ⟨s1, T1, o, h1, h2, h3⟩ := faulty_sim h f c (hb _ List.mem_cons_self)
    have hl1 : T1.length ≤ s1.capacity := by
      rcases h3 with ⟨_, h3⟩ | ⟨_, h3, h4⟩
      · have := step_bound (view s T) (by simpa [view, abs] using hl) c
        rw [← h3] at this
        simpa [view, abs] using this
      · rw [h3]
        rcases h4 with rfl | rfl
        · exact hl
        · simp; omega
    obtain ⟨s2, T2, os, h4, h5, h6⟩ := ih h2 hl1 (fun e he => hb e (List.mem_cons_of_mem _ he))
    exact ⟨s2, T2, o :: os, by simp [faultyCalls, h1, h4], h5, h6⟩

theorem faulty_rel {s : State K V} {T : List (Entry K V)} (h : Rel s T) (hist : List (Faults × Call K V))
    (hb : ∀ e ∈ hist, Benign e.1 e.2 ∨ ∃ n, e.2 = .setCapacity n) :
    ∃ s' T' os, faultyCalls hist s = some (s', os) ∧ Rel s' T' := by
  induction hist generalizing s T with
  | nil => exact ⟨s, T, [], rfl, h⟩
  | cons e hist ih =>
    obtain ⟨f, c⟩ := e
    obtain ⟨s1, T1, o, h1, h2⟩ : ∃ s1 T1 o, faultyCall f c s = some (s1, o) ∧ Rel s1 T1 := by
      rcases hb _ List.mem_cons_self with hb | ⟨n, hn⟩
      · obtain ⟨s1, T1, o, h1, h2, -⟩ := faulty_sim h f c hb
        exact ⟨s1, T1, o, h1, h2⟩
      · simp only at hn
        subst hn
        exact setCapacity_rel h f n
    obtain ⟨s2, T2, os, h4, h5⟩ := ih h2 (fun e he => hb e (List.mem_cons_of_mem _ he))
    exact ⟨s2, T2, o :: os, by simp [faultyCalls, h1, h4], h5⟩

/-! ### Refused calls -/

theorem refused_same {s s' : State K V} {c : Call K V} {r : Ret V} (h : call c s = some (s', r)) (hr : Refused c r) :
    s' = s := by
  have huniq : (body noFaults c).run s = (.ok r, s') := by
    unfold call at h
    generalize (body noFaults c).run s = x at h
    obtain ⟨o, s''⟩ := x
    cases o <;> simp_all
  cases c with
  | size => cases huniq; rfl
  | capacity => cases huniq; rfl
  | empty => cases huniq; rfl
  | contains k => cases huniq; rfl
  | clear => cases hr
  | setCapacity n => cases hr
  | insertOrAssign k v => cases hr
  | insert k v =>
    cases r with
    | unit => cases hr
    | nat n => cases hr
    | value v => cases hr
    | bool b =>
      cases b with
      | true => cases hr
      | false =>
        simp only [body, insert, insertImpl, orThrow_noFaults, Prog.run_bind, Prog.run_read] at huniq
        cases hf : mapFind s.map k with
        | some x => simp [hf] at huniq; exact huniq.symm
        | none =>
          exfalso
          simp only [hf] at huniq
          simp only [Prog.run_bind, Prog.run_read, listPushFront, listBegin] at huniq
          by_cases hc : s.capacity = 0
          · simp [hc] at huniq
          · simp only [hc, ne_eq, not_false_eq_true, if_true] at huniq
            simp only [Prog.run_bind, Prog.run_read, size] at huniq
            by_cases hl : s.capacity ≤ s.map.length
            · simp only [hl, if_true, Prog.run_bind] at huniq
              generalize (evictLru noFaults : Prog (State K V) Unit).run s = x at huniq
              obtain ⟨o, s1⟩ := x
              cases o <;> simp [Prog.run_bind] at huniq
            · simp [hl, Prog.run_bind] at huniq
  | get k =>
    cases r with
    | unit => cases hr
    | nat n => cases hr
    | bool v => cases hr
    | value b =>
      cases b with
      | some _ => cases hr
      | none =>
        simp only [body, get, orThrow_noFaults, Prog.run_bind, Prog.run_read] at huniq
        cases hf : mapFind s.map k with
        | none => simp [hf] at huniq; exact huniq.symm
        | some x =>
          exfalso
          simp only [hf, Prog.run_bind, Prog.run_pure] at huniq
          generalize (moveToFront noFaults k : Prog (State K V) Unit).run s = y at huniq
          obtain ⟨o, s1⟩ := y
          cases o <;> simp at huniq
  | remove k =>
    cases r with
    | unit => cases hr
    | nat n => cases hr
    | value v => cases hr
    | bool b =>
      cases b with
      | true => cases hr
      | false =>
        simp only [body, remove, orThrow_noFaults, Prog.run_bind, Prog.run_read] at huniq
        cases hf : mapFind s.map k with
        | none => simp [hf] at huniq; exact huniq.symm
        | some x =>
          exfalso
          simp only [hf, Prog.run_bind, listErase, Prog.run_guarded] at huniq
          by_cases ha : (s.list.any fun n => decide (n.1 = x.2)) = true <;> simp [ha] at huniq

end Pluto.Lru
