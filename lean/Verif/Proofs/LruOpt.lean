import Mathlib.Algebra.Order.BigOperators.Group.Finset
import Mathlib.Data.Nat.ModEq
import Mathlib.Tactic.Ring
import Mathlib.Tactic.Linarith
import Verif.Spec.LruOpt
import Verif.Proofs.LruUse

/-! # Lemmas for C159: the misses of a cache compared with those of any other store -/

namespace Pluto.Lru
open Pluto.Spec.Lru
variable {K V : Type} [DecidableEq K]

/-- The sum of the numbers up to `n`. -/
def upTo : Nat → Nat
  | 0 => 0
  | n + 1 => n + 1 + upTo n

/-- The sum of the ranks (`n` for the first key) of the keys that are not in `S`; a place that is not taken counts as such. -/
def debt (S : Finset K) : Nat → List K → Nat
  | n, [] => upTo n
  | n, x :: l => (if x ∈ S then 0 else n) + debt S (n - 1) l

/-- How many keys are in `S`. -/
def shared (S : Finset K) (l : List K) : Nat := (l.filter (fun x => decide (x ∈ S))).length

theorem shared_cons (S : Finset K) (x : K) (l : List K) : shared S (x :: l) = (if x ∈ S then 1 else 0) + shared S l := by
  unfold shared
  by_cases h : x ∈ S <;> simp [h]; omega

theorem shared_le {S : Finset K} {l : List K} (hn : l.Nodup) : shared S l ≤ S.card := by
  unfold shared
  have : ((l.filter (fun x => decide (x ∈ S))).toFinset).card ≤ S.card :=
    Finset.card_le_card (fun x hx => by simp at hx; exact hx.2)
  rwa [List.toFinset_card_of_nodup (hn.filter _)] at this

theorem shared_lt {S : Finset K} {l : List K} {k : K} (hn : l.Nodup) (hk : k ∉ l) (hs : k ∈ S) : shared S l + 1 ≤ S.card := by
  have := shared_le (S := S) (l := k :: l) (List.nodup_cons.2 ⟨hk, hn⟩)
  rw [shared_cons, if_pos hs] at this
  omega

theorem debt_ge (S : Finset K) {n : Nat} {l : List K} (hl : l.length ≤ n) : upTo n ≤ debt S n l + n * shared S l := by
  induction l generalizing n with
  | nil => simp [debt]
  | cons x l ih =>
    cases n with
    | zero => simp at hl
    | succ n =>
      have := ih (n := n) (by simpa using hl)
      rw [shared_cons]
      simp only [debt, Nat.add_sub_cancel, upTo]
      split <;> nlinarith

theorem debt_change (S S' : Finset K) {n : Nat} {l : List K} (hl : l.length ≤ n) :
    debt S' n l ≤ debt S n l + n * shared (S \ S') l := by
  induction l generalizing n with
  | nil => simp [debt]
  | cons x l ih =>
    cases n with
    | zero => simp at hl
    | succ n =>
      have := ih (n := n) (by simpa using hl)
      rw [shared_cons]
      simp only [debt, Nat.add_sub_cancel, Finset.mem_sdiff]
      by_cases h1 : x ∈ S <;> by_cases h2 : x ∈ S' <;> simp [h1, h2] <;> nlinarith

theorem debt_hit (S : Finset K) {k : K} (hs : k ∈ S) {n : Nat} {l : List K} (hn : l.Nodup) (hl : l.length ≤ n) (hk : k ∈ l) :
    debt S (n - 1) (others k l) ≤ debt S n l := by
  induction l generalizing n with
  | nil => cases hk
  | cons x l ih =>
    obtain ⟨hx, hn'⟩ := List.nodup_cons.1 hn
    by_cases hxk : x = k
    · subst hxk
      have : others x (x :: l) = l := by
        have := others_absent hx
        simpa [others] using this
      rw [this]
      simp [debt]
    · have hk' : k ∈ l := by
        rcases List.mem_cons.1 hk with h | h
        · exact absurd h.symm hxk
        · exact h
      have e : others k (x :: l) = x :: others k l := by simp [others, hxk]
      have := ih (n := n - 1) hn' (by simp at hl; omega) hk'
      rw [e]
      simp only [debt]
      split <;> omega

theorem debt_room (S : Finset K) {n : Nat} {l : List K} (hl : l.length < n) :
    debt S n l + shared S l = debt S (n - 1) l + n := by
  induction l generalizing n with
  | nil =>
    cases n with
    | zero => simp at hl
    | succ n => simp [debt, shared, upTo]; omega
  | cons x l ih =>
    simp only [List.length_cons] at hl
    have := ih (n := n - 1) (by omega)
    rw [shared_cons]
    simp only [debt]
    split <;> omega

theorem debt_full (S : Finset K) {n : Nat} {l : List K} (hl : l.length = n) (h0 : n ≠ 0) :
    debt S n l + shared S l = debt S (n - 1) l.dropLast + n := by
  induction l generalizing n with
  | nil => simp at hl; omega
  | cons x l ih =>
    simp only [List.length_cons] at hl
    cases l with
    | nil =>
      simp at hl
      subst hl
      rw [shared_cons]
      simp only [debt, shared, List.dropLast_singleton]
      split <;> simp [upTo]
    | cons y l =>
      have := ih (n := n - 1) (by omega) (by simp at hl; omega)
      rw [shared_cons, List.dropLast_cons_cons]
      simp only [debt] at this ⊢
      simp at hl
      split <;> omega

theorem debt_miss (S : Finset K) {k : K} (hs : k ∈ S) {n h : Nat} {l : List K} (hn : l.Nodup) (hl : l.length ≤ n) (hk : k ∉ l)
    (hc : S.card ≤ h) (hh : h ≤ n) : debt S n (touch n k l) + (n + 1 - h) ≤ debt S n l := by
  have hlt := shared_lt hn hk hs
  unfold touch
  rw [if_neg hk]
  split
  · rename_i hr
    have := debt_room S hr
    simp only [debt, if_pos hs]
    omega
  · have h0 : n ≠ 0 := by omega
    rw [if_neg h0]
    have := debt_full S (n := n) (l := l) (by omega) h0
    simp only [debt, if_pos hs]
    omega

theorem card_swap (S S' : Finset K) : (S \ S').card + S'.card = S.card + (S' \ S).card := by
  rw [Finset.card_sdiff_add_card, Nat.add_comm, Finset.card_sdiff_add_card, Finset.union_comm]

theorem debt_step {n h : Nat} (hh : h ≤ n) {S S' : Finset K} {k : K} {l : List K} (hs : k ∈ S') (hc : S'.card ≤ h)
    (hn : l.Nodup) (hl : l.length ≤ n) :
    (if k ∈ l then 0 else n + 1 - h) + debt S' n (touch n k l) + n * S'.card ≤
      n * (S' \ S).card + debt S n l + n * S.card := by
  have h1 : debt S' n l + n * S'.card ≤ n * (S' \ S).card + debt S n l + n * S.card := by
    have a := debt_change S S' hl
    have b := Nat.mul_le_mul_left n (shared_le (S := S \ S') hn)
    have c : n * (S \ S').card + n * S'.card = n * S.card + n * (S' \ S).card := by
      rw [← Nat.mul_add, ← Nat.mul_add, card_swap]
    omega
  split
  · rename_i hk
    have : debt S' n (touch n k l) ≤ debt S' n l := by
      unfold touch
      rw [if_pos hk]
      simpa [debt, hs] using debt_hit S' hs hn hl hk
    omega
  · rename_i hk
    have := debt_miss S' hs hn hl hk hc hh
    omega

theorem fetches {n h : Nat} (hh : h ≤ n) {S : Finset K} (ks : List (K × V)) {loads : Nat} (hv : Serves h S (ks.map (·.1)) loads)
    {l : List K} {s : State K V} (hs : Has n l s) (hn : l.Nodup) (hl : l.length ≤ n) :
    ∃ s' hits, uses s (ks.map fun p => .fetch p.1 p.2) = some (s', hits) ∧
      hits.count false * (n + 1 - h) + upTo n ≤ n * loads + debt S n l + n * S.card := by
  induction ks generalizing S loads l s with
  | nil =>
    refine ⟨s, [], rfl, ?_⟩
    have a := debt_ge S hl
    have b := Nat.mul_le_mul_left n (shared_le (S := S) hn)
    simp
    omega
  | cons p ks ih =>
    cases hv with
    | cons _ S' _ _ m hk hc hv =>
    obtain ⟨s1, h1, h2⟩ := use_spec hs (.fetch p.1 p.2)
    have hn' := touch_nodup (cap := n) (k := p.1) hn
    have hl' : (touch n p.1 l).length ≤ n := by
      rw [touch_length hn hl]
      split <;> omega
    obtain ⟨s2, hits, h3, h4⟩ := ih hv (show Has n (touch n p.1 l) s1 from h2) hn' hl'
    refine ⟨s2, useHit l (.fetch p.1 p.2 : Use K V) :: hits, ?_, ?_⟩
    · simp only [List.map_cons, uses, h1, h3]
    · have hd := debt_step hh (S := S) (k := p.1) hk hc hn hl
      rw [List.count_cons, Nat.add_mul, Nat.mul_add]
      have : (if (useHit l (.fetch p.1 p.2 : Use K V) == false) = true then 1 else 0) * (n + 1 - h) =
          if p.1 ∈ l then 0 else n + 1 - h := by
        by_cases hm : p.1 ∈ l <;> simp [useHit, hm]
      rw [this]
      omega

theorem touch_mem {n : Nat} (h0 : n ≠ 0) (k : K) (l : List K) : k ∈ touch n k l := by
  unfold touch
  split
  · simp
  · split
    · simp
    · simp

theorem touch_new (n : Nat) (k : K) (l : List K) : ∀ x ∈ touch n k l, x = k ∨ x ∈ l := by
  intro x
  unfold touch
  split
  · simp only [List.mem_cons, others, List.mem_filter]
    rintro (h | h)
    · exact .inl h
    · exact .inr h.1
  · split
    · simp
    · split
      · exact fun h => .inr h
      · simp only [List.mem_cons]
        rintro (h | h)
        · exact .inl h
        · exact .inr (List.mem_of_mem_dropLast h)

theorem fetches_serve {n : Nat} (h0 : n ≠ 0) (ks : List (K × V)) {l : List K} {s : State K V} (hs : Has n l s) (hn : l.Nodup)
    (hl : l.length ≤ n) :
    ∃ s' hits, uses s (ks.map fun p => .fetch p.1 p.2) = some (s', hits) ∧
      Serves n l.toFinset (ks.map (·.1)) (hits.count false) := by
  induction ks generalizing l s with
  | nil => exact ⟨s, [], rfl, .nil _⟩
  | cons p ks ih =>
    obtain ⟨s1, h1, h2⟩ := use_spec hs (.fetch p.1 p.2)
    have hn' := touch_nodup (cap := n) (k := p.1) hn
    have hl' : (touch n p.1 l).length ≤ n := by
      rw [touch_length hn hl]
      split <;> omega
    obtain ⟨s2, hits, h3, h4⟩ := ih (show Has n (touch n p.1 l) s1 from h2) hn' hl'
    refine ⟨s2, useHit l (.fetch p.1 p.2 : Use K V) :: hits, ?_, ?_⟩
    · simp only [List.map_cons, uses, h1, h3]
    · have hc : ((touch n p.1 l).toFinset \ l.toFinset).card = if p.1 ∈ l then 0 else 1 := by
        split
        · rename_i hk
          rw [Finset.card_eq_zero, Finset.sdiff_eq_empty_iff_subset]
          intro x hx
          rw [List.mem_toFinset] at *
          rcases touch_new n p.1 l x hx with rfl | h
          · exact hk
          · exact h
        · rename_i hk
          rw [Finset.card_eq_one]
          refine ⟨p.1, Finset.ext fun x => ?_⟩
          simp only [Finset.mem_sdiff, List.mem_toFinset, Finset.mem_singleton]
          refine ⟨fun h => (touch_new n p.1 l x h.1).resolve_right h.2, ?_⟩
          rintro rfl
          exact ⟨touch_mem h0 _ l, hk⟩
      have := Serves.cons l.toFinset (touch n p.1 l).toFinset p.1 (ks.map (·.1)) _ (List.mem_toFinset.2 (touch_mem h0 _ l))
        (by rw [List.toFinset_card_of_nodup hn']; exact hl') h4
      rw [hc] at this
      rw [List.map_cons, List.count_cons]
      have e : (if (useHit l (.fetch p.1 p.2 : Use K V) == false) = true then 1 else 0) = if p.1 ∈ l then 0 else 1 := by
        by_cases hm : p.1 ∈ l <;> simp [useHit, hm]
      rw [e, Nat.add_comm]
      exact this

/-- The keys after `i` requests for the keys from 0 to `n` in turn. -/
def turn (n i : Nat) : List Nat := ((List.range i).reverse.take n).map (· % (n + 1))

theorem turn_absent (n i : Nat) : i % (n + 1) ∉ turn n i := by
  unfold turn
  intro h
  obtain ⟨j, hj, e⟩ := List.mem_map.1 h
  obtain ⟨a, ha, rfl⟩ := List.mem_iff_getElem.1 hj
  simp only [List.length_take, List.length_reverse, List.length_range] at ha
  simp only [List.getElem_take, List.getElem_reverse, List.length_range, List.getElem_range] at e
  have h1 : i = i - 1 - a + (a + 1) := by omega
  have h2 : (i - 1 - a) % (n + 1) = (i - 1 - a + (a + 1)) % (n + 1) := by rw [← h1]; exact e
  have h3 : (a + 1) % (n + 1) = 0 := by
    have : (i - 1 - a + (a + 1)) ≡ (i - 1 - a) + 0 [MOD n + 1] := h2.symm
    exact Nat.ModEq.add_left_cancel' _ this
  rw [Nat.mod_eq_of_lt (by omega)] at h3
  omega

theorem turn_touch (n i : Nat) : touch n (i % (n + 1)) (turn n i) = turn n (i + 1) := by
  have hl : (turn n i).length = min n i := by simp [turn]
  unfold touch
  rw [if_neg (turn_absent n i)]
  cases n with
  | zero => simp [turn]
  | succ n =>
    have e : turn (n + 1) (i + 1) = i % (n + 1 + 1) :: ((List.range i).reverse.take n).map (· % (n + 1 + 1)) := by
      simp [turn, List.range_succ, List.reverse_append]
    rw [e]
    split
    · congr 1
      have : i ≤ n := by omega
      unfold turn
      rw [List.take_of_length_le (by simp; omega), List.take_of_length_le (by simp; omega)]
    · rw [if_neg (by omega)]
      congr 1
      have hi : n + 1 ≤ i := by omega
      unfold turn
      rw [← List.map_dropLast, List.dropLast_eq_take, List.take_take]
      congr 2
      simp
      omega

theorem turn_misses (n m : Nat) {i : Nat} {s : State Nat V} (hs : Has n (turn n i) s) (v : Nat → V) :
    ∃ s', uses s ((List.range' i m).map fun j => .fetch (j % (n + 1)) (v j)) = some (s', List.replicate m false) := by
  induction m generalizing i s with
  | zero => exact ⟨s, rfl⟩
  | succ m ih =>
    obtain ⟨s1, h1, h2⟩ := use_spec hs (.fetch (i % (n + 1)) (v i))
    rw [show useKeys n (turn n i) (.fetch (i % (n + 1)) (v i)) = turn n (i + 1) from turn_touch n i] at h2
    obtain ⟨s2, h3⟩ := ih h2
    refine ⟨s2, ?_⟩
    rw [List.range'_succ, List.map_cons, List.replicate_succ]
    simp only [uses, h1, h3, useHit, decide_eq_false (turn_absent n i)]

end Pluto.Lru
