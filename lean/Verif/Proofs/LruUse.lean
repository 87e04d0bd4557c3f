import Verif.Model.LruUse
import Verif.Proofs.Lru

/-! # Proofs about caches of different capacities -/

namespace Pluto.Lru
open Pluto.Spec.Lru
variable {K V : Type} [DecidableEq K]

/-- All keys but `k`. -/
def others (k : K) (l : List K) : List K := l.filter (fun x => decide (x ≠ k))

/-- The keys after `k` was stored. -/
def touch (cap : Nat) (k : K) (l : List K) : List K :=
  if k ∈ l then k :: others k l
  else if l.length < cap then k :: l
  else if cap = 0 then l
  else k :: l.dropLast

def keys (c : Cache K V) : List K := c.items.map (·.1)

theorem lookup_iff (c : Cache K V) (k : K) : (c.lookup k).isSome = true ↔ k ∈ keys c := by
  unfold Cache.lookup keys
  rw [Option.isSome_map, List.find?_isSome]
  simp

theorem keys_without (c : Cache K V) (k : K) : (c.without k).map (·.1) = others k (keys c) := by
  unfold Cache.without others keys
  rw [List.filter_map]
  rfl

omit [DecidableEq K] in
theorem keys_length (c : Cache K V) : (keys c).length = c.items.length := by simp [keys]

theorem assign_keys (c : Cache K V) (k : K) (v : V) :
    keys (c.step (.insertOrAssign k v)).1 = touch c.capacity k (keys c) ∧
      (c.step (.insertOrAssign k v)).1.capacity = c.capacity ∧
      (c.step (.insertOrAssign k v)).2 = .bool (decide (k ∉ keys c)) := by
  unfold touch
  rw [keys_length]
  by_cases h : k ∈ keys c
  · have h' := (lookup_iff c k).2 h
    simp only [Cache.step, h', if_true, h, not_true_eq_false, decide_false, and_self, and_true]
    unfold keys at *
    rw [List.map_cons]
    exact congrArg _ (keys_without c k)
  · have h' : ¬ (c.lookup k).isSome = true := fun e => h ((lookup_iff c k).1 e)
    simp only [Cache.step, if_neg h', if_neg h]
    split
    · exact ⟨rfl, rfl, by rw [decide_eq_true h]⟩
    · split
      · exact ⟨rfl, rfl, by rw [decide_eq_true h]⟩
      · exact ⟨by simp [keys, List.map_dropLast], rfl, by rw [decide_eq_true h]⟩

theorem insert_keys (c : Cache K V) (k : K) (v : V) (h : k ∉ keys c) :
    keys (c.step (.insert k v)).1 = touch c.capacity k (keys c) ∧ (c.step (.insert k v)).1.capacity = c.capacity := by
  have h' : ¬ (c.lookup k).isSome = true := fun e => h ((lookup_iff c k).1 e)
  have := assign_keys c k v
  simp only [Cache.step, if_neg h'] at this ⊢
  exact ⟨this.1, this.2.1⟩

theorem get_keys (c : Cache K V) (k : K) :
    keys (c.step (.get k)).1 = (if k ∈ keys c then k :: others k (keys c) else keys c) ∧
      (c.step (.get k)).1.capacity = c.capacity ∧
      ∃ v, (c.step (.get k)).2 = .value v ∧ (v.isSome = true ↔ k ∈ keys c) := by
  have h := lookup_iff c k
  cases hl : c.lookup k with
  | none =>
    rw [hl] at h
    have h' : k ∉ keys c := fun e => by simpa using h.2 e
    rw [if_neg h']
    simp only [Cache.step, hl]
    exact ⟨trivial, trivial, none, rfl, by simp [h']⟩
  | some v =>
    rw [hl] at h
    have h' : k ∈ keys c := h.1 rfl
    rw [if_pos h']
    simp only [Cache.step, hl]
    refine ⟨?_, trivial, some v, rfl, by simp [h']⟩
    unfold keys at *
    rw [List.map_cons]
    exact congrArg _ (keys_without c k)

theorem others_absent {k : K} {l : List K} (h : k ∉ l) : others k l = l := by
  unfold others
  rw [List.filter_eq_self]
  intro a ha
  simp only [decide_eq_true_eq]
  rintro rfl
  exact h ha

theorem remove_keys (c : Cache K V) (k : K) :
    keys (c.step (.remove k)).1 = others k (keys c) ∧ (c.step (.remove k)).1.capacity = c.capacity ∧
      (c.step (.remove k)).2 = .bool (decide (k ∈ keys c)) := by
  by_cases h : k ∈ keys c
  · have h' := (lookup_iff c k).2 h
    simp only [Cache.step, h', if_true, h, decide_true, and_self, and_true]
    exact keys_without c k
  · have h' : ¬ (c.lookup k).isSome = true := fun e => h ((lookup_iff c k).1 e)
    simp only [Cache.step, if_neg h', h, decide_false, and_self, and_true]
    exact (others_absent h).symm

/-- The keys of the smaller cache are among those of the larger one, in the same order, and the larger one is not fuller. -/
structure Incl (n m : Nat) (a b : List K) : Prop where
  le : n ≤ m
  small : a.length ≤ n
  large : b.length ≤ m
  slack : b.length + n ≤ a.length + m
  nodup : b.Nodup
  sub : a.Sublist b

omit [DecidableEq K] in
theorem dropLast_sub {a b : List K} (h : a.Sublist b) : a.dropLast.Sublist b.dropLast := by
  have := (List.reverse_sublist.2 h).tail
  rw [← List.reverse_sublist]
  rwa [List.tail_reverse, List.tail_reverse] at this

theorem others_sub {a b : List K} (k : K) (h : a.Sublist b) : (others k a).Sublist (others k b) := h.filter _

theorem others_length {k : K} {l : List K} (hn : l.Nodup) (h : k ∈ l) : (others k l).length + 1 = l.length := by
  have e : others k l = l.erase k := by
    unfold others
    rw [hn.erase_eq_filter]
    congr 1
    funext x
    simp [bne, BEq.beq]
  rw [e, List.length_erase_of_mem h]
  have := List.length_pos_of_mem h
  omega

theorem not_mem_others (k : K) (l : List K) : k ∉ others k l := by simp [others]

theorem touch_length {cap : Nat} {k : K} {l : List K} (hn : l.Nodup) (hl : l.length ≤ cap) :
    (touch cap k l).length = if k ∈ l then l.length else min (l.length + 1) cap := by
  unfold touch
  split
  · rename_i h; simp [others_length hn h]
  · split
    · simp; omega
    · split
      · omega
      · simp; omega

theorem touch_nodup {cap : Nat} {k : K} {l : List K} (hn : l.Nodup) : (touch cap k l).Nodup := by
  unfold touch
  split
  · exact List.nodup_cons.2 ⟨not_mem_others k l, hn.filter _⟩
  · rename_i h
    split
    · exact List.nodup_cons.2 ⟨h, hn⟩
    · split
      · exact hn
      · exact List.nodup_cons.2 ⟨fun h' => h ((List.dropLast_sublist l).subset h'), hn.sublist (List.dropLast_sublist l)⟩

theorem incl_touch {n m : Nat} {a b : List K} (h : Incl n m a b) (k : K) : Incl n m (touch n k a) (touch m k b) := by
  have hna := h.nodup.sublist h.sub
  have la := touch_length (k := k) hna h.small
  have lb := touch_length (k := k) h.nodup h.large
  have hsub : k ∈ a → k ∈ b := fun hk => h.sub.subset hk
  obtain ⟨h1, h2, h3, h4, h5, h6⟩ := h
  refine ⟨h1, ?_, ?_, ?_, touch_nodup h5, ?_⟩
  · rw [la]; split <;> omega
  · rw [lb]; split <;> omega
  · rw [la, lb]
    split <;> split <;> first | omega | (rename_i x y; exact absurd (hsub y) x)
  · unfold touch
    by_cases ha : k ∈ a
    · rw [if_pos ha, if_pos (hsub ha)]
      exact (others_sub k h6).cons_cons k
    · rw [if_neg ha]
      have h6' : a.Sublist (others k b) := by
        have := others_sub k h6
        rwa [others_absent ha] at this
      by_cases hb : k ∈ b
      · rw [if_pos hb]
        split
        · exact h6'.cons_cons k
        · split
          · exact h6'.cons k
          · exact ((List.dropLast_sublist a).trans h6').cons_cons k
      · rw [if_neg hb]
        by_cases hm : b.length < m
        · rw [if_pos hm]
          split
          · exact h6.cons_cons k
          · split
            · exact h6.cons k
            · exact ((List.dropLast_sublist a).trans h6).cons_cons k
        · have hn : ¬ a.length < n := by omega
          rw [if_neg hm, if_neg hn]
          by_cases hm0 : m = 0
          · rw [if_pos hm0, if_pos (by omega)]
            exact h6
          · rw [if_neg hm0]
            split
            · have : a = [] := List.eq_nil_of_length_eq_zero (by omega)
              rw [this]
              exact List.nil_sublist _
            · exact (dropLast_sub h6).cons_cons k

theorem incl_get {n m : Nat} {a b : List K} (h : Incl n m a b) (k : K) :
    Incl n m (if k ∈ a then k :: others k a else a) (if k ∈ b then k :: others k b else b) := by
  have hna := h.nodup.sublist h.sub
  have hsub : k ∈ a → k ∈ b := fun hk => h.sub.subset hk
  by_cases ha : k ∈ a
  · have := incl_touch h k
    unfold touch at this
    rw [if_pos ha, if_pos (hsub ha)] at *
    exact this
  · rw [if_neg ha]
    split
    · rename_i hb
      have l := others_length h.nodup hb
      obtain ⟨h1, h2, h3, h4, h5, h6⟩ := h
      refine ⟨h1, h2, by simp; omega, by simp; omega, List.nodup_cons.2 ⟨not_mem_others k b, h5.filter _⟩, ?_⟩
      have := others_sub k h6
      rw [others_absent ha] at this
      exact this.cons k
    · exact h

theorem incl_remove {n m : Nat} {a b : List K} (h : Incl n m a b) (k : K) : Incl n m (others k a) (others k b) := by
  have hna := h.nodup.sublist h.sub
  have hsub : k ∈ a → k ∈ b := fun hk => h.sub.subset hk
  have hla : (others k a).length ≤ a.length := List.length_filter_le ..
  have hlb : (others k b).length ≤ b.length := List.length_filter_le ..
  obtain ⟨h1, h2, h3, h4, h5, h6⟩ := h
  refine ⟨h1, by omega, by omega, ?_, h5.filter _, others_sub k h6⟩
  by_cases ha : k ∈ a
  · have := others_length hna ha
    have := others_length h5 (hsub ha)
    omega
  · rw [others_absent ha]
    omega

/-- The state `s` has capacity `n` and the keys `a`. -/
def Has (n : Nat) (a : List K) (s : State K V) : Prop :=
  ∃ T, Rel s T ∧ (view s T).capacity = n ∧ keys (view s T) = a

theorem has_step {n : Nat} {a : List K} {s : State K V} (h : Has n a s) (c : Call K V) :
    ∃ (ca : Cache K V) (s' : State K V), ca.capacity = n ∧ keys ca = a ∧ call c s = some (s', (ca.step c).2) ∧
      Has (ca.step c).1.capacity (keys (ca.step c).1) s' := by
  obtain ⟨T, h1, h2, h3⟩ := h
  obtain ⟨s', T', h4, h5, h6⟩ := step_sim h1 c
  exact ⟨_, s', h2, h3, h4, T', h5, by rw [h6], by rw [h6]⟩

/-- The keys after a use. -/
def useKeys (n : Nat) (a : List K) : Use K V → List K
  | .get k => if k ∈ a then k :: others k a else a
  | .fetch k _ => touch n k a
  | .assign k _ => touch n k a
  | .contains _ => a
  | .remove k => others k a
  | .clear => []

/-- Whether a use is a hit. -/
def useHit (a : List K) : Use K V → Bool
  | .get k => decide (k ∈ a)
  | .fetch k _ => decide (k ∈ a)
  | .assign k _ => decide (k ∈ a)
  | .contains k => decide (k ∈ a)
  | .remove k => decide (k ∈ a)
  | .clear => false

theorem use_spec {n : Nat} {a : List K} {s : State K V} (h : Has n a s) (u : Use K V) :
    ∃ s', use s u = some (s', useHit a u) ∧ Has n (useKeys n a u) s' := by
  cases u with
  | get k =>
    obtain ⟨ca, s', rfl, rfl, h1, h2⟩ := has_step h (.get k)
    obtain ⟨g1, g2, v, g3, g4⟩ := get_keys ca k
    rw [g3] at h1
    rw [g1, g2] at h2
    refine ⟨s', ?_, h2⟩
    simp only [use, h1, useHit]
    congr 2
    rw [Bool.eq_iff_iff, g4]; simp
  | fetch k v =>
    obtain ⟨ca, s', rfl, rfl, h1, h2⟩ := has_step h (.get k)
    obtain ⟨g1, g2, w, g3, g4⟩ := get_keys ca k
    rw [g3] at h1
    rw [g1, g2] at h2
    by_cases hk : k ∈ keys ca
    · rw [if_pos hk] at h2
      obtain ⟨w, rfl⟩ := Option.isSome_iff_exists.1 (g4.2 hk)
      refine ⟨s', ?_, ?_⟩
      · simp only [use, h1, useHit, hk, decide_true]
      · simp only [useKeys, touch, if_pos hk]; exact h2
    · rw [if_neg hk] at h2
      have hw : w = none := by
        cases w with
        | none => rfl
        | some w => exact absurd (g4.1 rfl) hk
      subst hw
      obtain ⟨cb, s'', e1, e2, h3, h4⟩ := has_step h2 (.insert k v)
      obtain ⟨i1, i2⟩ := insert_keys cb k v (by rw [e2]; exact hk)
      rw [i1, i2, e1, e2] at h4
      refine ⟨s'', ?_, h4⟩
      simp only [use, h1, h3, useHit, hk, decide_false]
  | assign k v =>
    obtain ⟨ca, s', rfl, rfl, h1, h2⟩ := has_step h (.insertOrAssign k v)
    obtain ⟨g1, g2, g3⟩ := assign_keys ca k v
    rw [g3] at h1
    rw [g1, g2] at h2
    refine ⟨s', ?_, h2⟩
    simp only [use, h1, useHit]
    congr 2
    simp
  | contains k =>
    obtain ⟨ca, s', rfl, rfl, h1, h2⟩ := has_step h (.contains k)
    refine ⟨s', ?_, h2⟩
    simp only [use, h1, useHit, Cache.step]
    congr 2
    rw [Bool.eq_iff_iff, lookup_iff]; simp
  | remove k =>
    obtain ⟨ca, s', rfl, rfl, h1, h2⟩ := has_step h (.remove k)
    obtain ⟨g1, g2, g3⟩ := remove_keys ca k
    rw [g3] at h1
    rw [g1, g2] at h2
    exact ⟨s', by simp only [use, h1, useHit], h2⟩
  | clear =>
    obtain ⟨ca, s', rfl, rfl, h1, h2⟩ := has_step h .clear
    exact ⟨s', by simp only [use, h1, useHit], h2⟩

theorem incl_use {n m : Nat} {a b : List K} (h : Incl n m a b) (u : Use K V) :
    Incl n m (useKeys n a u) (useKeys m b u) ∧ (useHit a u = true → useHit b u = true) := by
  have hsub : ∀ k, decide (k ∈ a) = true → decide (k ∈ b) = true := fun k hk => by
    simp only [decide_eq_true_eq] at *
    exact h.sub.subset hk
  cases u with
  | get k => exact ⟨incl_get h k, hsub k⟩
  | fetch k v => exact ⟨incl_touch h k, hsub k⟩
  | assign k v => exact ⟨incl_touch h k, hsub k⟩
  | contains k => exact ⟨h, hsub k⟩
  | remove k => exact ⟨incl_remove h k, hsub k⟩
  | clear => exact ⟨⟨h.le, by simp [useKeys], by simp [useKeys], by simpa [useKeys] using h.le, .nil, .slnil⟩, fun e => e⟩

theorem incl_uses {n m : Nat} {a b : List K} {s t : State K V} (hs : Has n a s) (ht : Has m b t) (h : Incl n m a b)
    (us : List (Use K V)) :
    ∃ s' hs' t' ht' a' b', uses s us = some (s', hs') ∧ uses t us = some (t', ht') ∧ HitsToo hs' ht' ∧
      Has n a' s' ∧ Has m b' t' ∧ Incl n m a' b' := by
  induction us generalizing s t a b with
  | nil => exact ⟨s, [], t, [], a, b, rfl, rfl, ⟨rfl, fun i hi => hi⟩, hs, ht, h⟩
  | cons u us ih =>
    obtain ⟨s1, e1, hs1⟩ := use_spec hs u
    obtain ⟨t1, e2, ht1⟩ := use_spec ht u
    obtain ⟨h1, h2⟩ := incl_use h u
    obtain ⟨s', hs', t', ht', a', b', e3, e4, h3, h4, h5, h6⟩ := ih hs1 ht1 h1
    refine ⟨s', useHit a u :: hs', t', useHit b u :: ht', a', b', by simp only [uses, e1, e3], by simp only [uses, e2, e4], ?_, h4, h5, h6⟩
    refine ⟨by simp [h3.1], fun i hi => ?_⟩
    cases i with
    | zero => simpa using h2 (by simpa using hi)
    | succ i => simpa using h3.2 i (by simpa using hi)

theorem has_contents {n : Nat} {a : List K} {s : State K V} (h : Has n a s) : (contents s).map (·.1) = a := by
  obtain ⟨T, h1, -, rfl⟩ := h
  rw [contents_eq h1]
  simp [keys, view, abs]

theorem has_init (n : Nat) : Has n [] (init n : State K V) := ⟨[], rel_init n, rfl, rfl⟩

omit [DecidableEq K] in
theorem incl_init {n m : Nat} (h : n ≤ m) : Incl n m ([] : List K) [] :=
  ⟨h, by simp, by simp, by simpa using h, .nil, .slnil⟩

/-! ## Plain `insert` -/

/-- The first `j` numbers, each inserted. -/
theorem insert_range (f : Nat → V) (n j : Nat) :
    let c := ({ capacity := n, items := [] } : Cache Nat V).steps ((List.range j).map fun k => .insert k (f k))
    c.1.capacity = n ∧ keys c.1 = (List.range j).reverse.take n := by
  induction j with
  | zero => exact ⟨rfl, by simp [keys, Cache.steps]⟩
  | succ j ih =>
    obtain ⟨h1, h2⟩ := ih
    simp only
    rw [List.range_succ, List.map_append, steps_append]
    simp only [List.map_cons, List.map_nil, Cache.steps]
    have hk : j ∉ keys (Cache.steps ({ capacity := n, items := [] } : Cache Nat V) ((List.range j).map fun k => .insert k (f k))).1 := by
      rw [h2]
      intro h
      have := List.mem_of_mem_take h
      simp at this
    obtain ⟨h3, h4⟩ := insert_keys _ j (f j) hk
    refine ⟨by rw [h4, h1], ?_⟩
    rw [h3, h1]
    unfold touch
    rw [if_neg hk, h2, List.reverse_append]
    simp only [List.reverse_cons, List.reverse_nil, List.nil_append, List.singleton_append, List.length_take,
      List.length_reverse, List.length_range]
    cases n with
    | zero => simp
    | succ n =>
      rw [List.take_succ_cons]
      split
      · rename_i hlt
        rw [List.take_of_length_le (by simp; omega), List.take_of_length_le (by simp; omega)]
      · rename_i hlt
        rw [if_neg (by omega), List.dropLast_eq_take, List.take_take, List.length_take, List.length_reverse,
          List.length_range]
        congr 2
        omega

/-- `contains` on the abstract cache. -/
theorem contains_keys (c : Cache K V) (k : K) : (c.step (.contains k)).2 = .bool (decide (k ∈ keys c)) := by
  simp only [Cache.step]
  congr 1
  rw [Bool.eq_iff_iff, lookup_iff]; simp

theorem touch_full {cap : Nat} {k : K} {l : List K} (h : k ∉ l) (hl : l.length = cap) (hc : cap ≠ 0) :
    touch cap k l = k :: l.dropLast := by
  unfold touch
  rw [if_neg h, if_neg (by omega), if_neg hc]

/-- `0` is stored again when it is no longer in the smaller cache and the next to go in the larger one. -/
theorem insert_again (f : Nat → V) {n m : Nat} (hn : 2 ≤ n) (hm : n < m) (cap : Nat) (hcap : cap = n ∨ cap = m) :
    ((({ capacity := cap, items := [] } : Cache Nat V).steps ((List.range m).map fun k => .insert k (f k))).1.steps
      [.insert 0 (f 0), .insert m (f m), .contains 0]).2.getLast? = some (.bool (decide (cap = n))) := by
  obtain ⟨h1, h2⟩ := insert_range f cap m
  generalize (({ capacity := cap, items := [] } : Cache Nat V).steps ((List.range m).map fun k => .insert k (f k))).1 = c at *
  simp only [Cache.steps]
  rcases hcap with rfl | rfl
  · have hk : ∀ x ∈ keys c, m - cap ≤ x ∧ x < m := by
      intro x hx
      rw [h2, List.mem_iff_getElem?] at hx
      obtain ⟨i, hi⟩ := hx
      rw [List.getElem?_take] at hi
      split at hi
      · rename_i hlt
        rw [List.getElem?_reverse (by simp; omega), List.length_range, List.getElem?_range (by omega)] at hi
        injection hi with hi
        omega
      · cases hi
    have h0 : 0 ∉ keys c := fun h => by have := hk 0 h; omega
    have hl : (keys c).length = cap := by rw [h2]; simp; omega
    obtain ⟨a1, a2⟩ := insert_keys c 0 (f 0) h0
    rw [h1, touch_full h0 hl (by omega)] at a1
    have hm' : m ∉ keys (c.step (.insert 0 (f 0))).1 := by
      rw [a1]
      intro h
      rcases List.mem_cons.1 h with h | h
      · omega
      · have := hk m ((List.dropLast_sublist _).subset h)
        omega
    obtain ⟨b1, b2⟩ := insert_keys _ m (f m) hm'
    rw [a2, h1, touch_full hm' (by rw [a1]; simp; omega) (by omega), a1] at b1
    simp only [List.getLast?_cons_cons, List.getLast?_singleton]
    rw [contains_keys, b1]
    congr 2
    simp only [decide_true, decide_eq_true_eq]
    have : 1 ≤ (keys c).dropLast.length := by simp; omega
    obtain ⟨x, l, e⟩ := List.exists_cons_of_length_pos this
    rw [e]
    simp
  · have h2' : keys c = (List.range cap).reverse := by rw [h2, List.take_of_length_le (by simp)]
    have h0 : 0 ∈ keys c := by rw [h2']; simp; omega
    have a : c.step (.insert 0 (f 0)) = (c, .bool false) := by
      simp only [Cache.step, (lookup_iff c 0).2 h0, if_true]
    rw [a]
    have hm' : cap ∉ keys c := by rw [h2']; simp
    obtain ⟨b1, b2⟩ := insert_keys c cap (f cap) hm'
    rw [h1, touch_full hm' (by rw [h2']; simp) (by omega), h2'] at b1
    simp only [List.getLast?_cons_cons, List.getLast?_singleton]
    rw [contains_keys, b1]
    congr 2
    have hne : ¬ cap = n := by omega
    simp only [hne, decide_false, decide_eq_false_iff_not, List.mem_cons, not_or]
    refine ⟨by omega, ?_⟩
    obtain ⟨j, rfl⟩ : ∃ j, cap = j + 1 := ⟨cap - 1, by omega⟩
    rw [List.range_succ_eq_map, List.reverse_cons, List.dropLast_concat]
    simp

end Pluto.Lru
