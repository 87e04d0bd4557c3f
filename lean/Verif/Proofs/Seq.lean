import Mathlib.Data.List.Induction
import Mathlib.Data.List.Forall2
import Mathlib.Data.List.Perm.Basic
import Mathlib.Tactic.ByContra
import Mathlib.Order.Basic
import Verif.Model.Seq
import Verif.Spec.Seq

/-! # Lemmas about searching and containers -/

set_option linter.unusedSectionVars false

namespace Pluto.Seq

open SeqSpec

variable {α β : Type}

theorem allMatch_iff {p : α → β → Bool} {xs : List α} {ys : List β} :
    allMatch p xs ys = true ↔ List.Forall₂ (fun l r => p l r = true) xs ys := by
  induction xs generalizing ys with
  | nil => cases ys <;> simp [allMatch]
  | cons x xs ih => cases ys <;> simp [allMatch, ih]

theorem forall₂_eq {xs ys : List α} : List.Forall₂ (fun l r => l = r) xs ys ↔ xs = ys := by
  induction xs generalizing ys with
  | nil => cases ys <;> simp
  | cons x xs ih => cases ys <;> simp [ih]

theorem matchesAt_iff {p : α → β → Bool} {left : List α} {right : List β} {i : Nat} :
    MatchesAt p left right i ↔ i ≤ left.length ∧ matchesAt p left right i = true := by
  unfold MatchesAt matchesAt
  rw [allMatch_iff]
  constructor
  · rintro ⟨a, m, b, rfl, rfl, h⟩
    refine ⟨by simp, ?_⟩
    rw [List.append_assoc, List.drop_left, ← h.length_eq, List.take_left]
    exact h
  · rintro ⟨hi, h⟩
    refine ⟨left.take i, (left.drop i).take right.length, (left.drop i).drop right.length, ?_,
      by simp; omega, h⟩
    rw [List.append_assoc, List.take_append_drop, List.take_append_drop]

theorem find?_range' {n : Nat} {p : Nat → Bool} {j : Nat} :
    (List.range n).find? p = some j ↔ j < n ∧ p j = true ∧ ∀ i < j, p i = false := by
  rw [List.find?_range_eq_some]
  simp only [List.mem_range, Bool.not_eq_true']
  constructor
  · rintro ⟨a, b, c⟩; exact ⟨b, a, c⟩
  · rintro ⟨a, b, c⟩; exact ⟨b, a, c⟩

theorem find?_range_reverse {n : Nat} {p : Nat → Bool} {j : Nat} :
    (List.range n).reverse.find? p = some j ↔ j < n ∧ p j = true ∧ ∀ i, j < i → i < n → p i = false := by
  induction n with
  | zero => simp
  | succ n ih =>
    rw [List.range_succ, List.reverse_append, List.reverse_singleton, List.singleton_append,
      List.find?_cons]
    cases hn : p n with
    | true =>
      simp only [Option.some.injEq]
      constructor
      · rintro rfl; exact ⟨by omega, hn, by omega⟩
      · rintro ⟨h1, h2, h3⟩
        by_contra hne
        have := h3 n (by omega) (by omega)
        simp [hn] at this
    | false =>
      simp only [ih]
      constructor
      · rintro ⟨h1, h2, h3⟩
        refine ⟨by omega, h2, fun i hi hin => ?_⟩
        by_cases h : i = n
        · exact h ▸ hn
        · exact h3 i hi (by omega)
      · rintro ⟨h1, h2, h3⟩
        refine ⟨?_, h2, fun i hi hin => h3 i hi (by omega)⟩
        by_cases h : j = n
        · subst h; simp [hn] at h2
        · omega

theorem stdSearch_spec (p : α → β → Bool) (left : List α) (right : List β) :
    FirstOr (MatchesAt p left right) left.length (stdSearch p left right) := by
  unfold stdSearch
  cases h : (List.range (left.length + 1)).find? (matchesAt p left right) with
  | none =>
    right
    refine ⟨rfl, fun j hj => ?_⟩
    obtain ⟨h1, h2⟩ := matchesAt_iff.1 hj
    have := List.find?_eq_none.1 h j (by simp; omega)
    exact this h2
  | some j =>
    left
    obtain ⟨h1, h2, h3⟩ := find?_range'.1 h
    refine ⟨matchesAt_iff.2 ⟨by simp; omega, h2⟩, fun k hk hm => ?_⟩
    have := h3 k hk
    rw [(matchesAt_iff.1 hm).2] at this
    cases this

theorem stdFindEnd_spec (p : α → β → Bool) (left : List α) (right : List β) :
    LastOr (MatchesAt p left right) left.length (stdFindEnd p left right) := by
  unfold stdFindEnd
  cases right with
  | nil =>
    left
    rw [List.isEmpty_nil, if_pos rfl]
    refine ⟨⟨left, [], [], by simp, rfl, .nil⟩, ?_⟩
    intro j hj hm
    have := (matchesAt_iff.1 hm).1
    omega
  | cons r right =>
    rw [if_neg (by simp)]
    cases h : (List.range (left.length + 1)).reverse.find? (matchesAt p left (r :: right)) with
    | none =>
      right
      refine ⟨rfl, fun j hj => ?_⟩
      obtain ⟨h1, h2⟩ := matchesAt_iff.1 hj
      have := List.find?_eq_none.1 h j (by simp; omega)
      exact this h2
    | some j =>
      left
      obtain ⟨h1, h2, h3⟩ := find?_range_reverse.1 h
      refine ⟨matchesAt_iff.2 ⟨by simp; omega, h2⟩, fun k hk hm => ?_⟩
      obtain ⟨h4, h5⟩ := matchesAt_iff.1 hm
      have := h3 k hk (by omega)
      rw [h5] at this
      cases this

theorem stdFindIf_spec (p : α → Bool) (xs : List α) :
    FirstOr (ElemAt p xs) xs.length (stdFindIf p xs) ∧ stdFindIf p xs ≤ xs.length := by
  induction xs with
  | nil => exact ⟨.inr ⟨rfl, by rintro j ⟨x, h, -⟩; simp at h⟩, Nat.le_refl _⟩
  | cons x xs ih =>
    rw [stdFindIf]
    cases hx : p x with
    | true =>
      simp only [if_true]
      exact ⟨.inl ⟨⟨x, rfl, hx⟩, by intro j hj; omega⟩, by simp⟩
    | false =>
      simp only [Bool.false_eq_true, if_false, List.length_cons]
      refine ⟨?_, by omega⟩
      have h0 : ¬ ElemAt p (x :: xs) 0 := by
        rintro ⟨y, hy, hp⟩
        simp at hy; subst hy; simp [hx] at hp
      have hs : ∀ j, ElemAt p (x :: xs) (j + 1) ↔ ElemAt p xs j := by
        intro j; simp [ElemAt]
      rcases ih.1 with ⟨h1, h2⟩ | ⟨h1, h2⟩
      · left
        refine ⟨(hs _).2 h1, fun j hj => ?_⟩
        cases j with
        | zero => exact h0
        | succ j => rw [hs]; exact h2 j (by omega)
      · right
        refine ⟨by omega, fun j => ?_⟩
        cases j with
        | zero => exact h0
        | succ j => rw [hs]; exact h2 j

theorem elemAt_reverse {p : α → Bool} {xs : List α} {i : Nat} (h : i < xs.length) :
    ElemAt p xs.reverse i ↔ ElemAt p xs (xs.length - i - 1) := by
  unfold ElemAt
  rw [List.getElem?_reverse h, show xs.length - 1 - i = xs.length - i - 1 by omega]

theorem elemAt_lt {p : α → Bool} {xs : List α} {i : Nat} (h : ElemAt p xs i) : i < xs.length := by
  obtain ⟨x, hx, -⟩ := h
  exact (List.getElem?_eq_some_iff.1 hx).1

theorem fromReverse_spec (p : α → Bool) (xs : List α) :
    LastOr (ElemAt p xs) xs.length (fromReverse xs.length (stdFindIf p xs.reverse)) := by
  obtain ⟨h, hle⟩ := stdFindIf_spec p xs.reverse
  rw [List.length_reverse] at h hle
  unfold fromReverse
  rcases h with ⟨h1, h2⟩ | ⟨h1, h2⟩
  · have hlt := elemAt_lt h1
    rw [List.length_reverse] at hlt
    left
    rw [if_neg (by omega)]
    refine ⟨(elemAt_reverse hlt).1 h1, fun j hj hm => ?_⟩
    have hj' := elemAt_lt hm
    refine h2 (xs.length - j - 1) (by omega) ((elemAt_reverse (by omega)).2 ?_)
    rwa [show xs.length - (xs.length - j - 1) - 1 = j by omega]
  · right
    rw [if_pos h1]
    refine ⟨rfl, fun j hm => ?_⟩
    have hj' := elemAt_lt hm
    refine h2 (xs.length - j - 1) ((elemAt_reverse (by omega)).2 ?_)
    rwa [show xs.length - (xs.length - j - 1) - 1 = j by omega]

theorem startsWith_iff {p : α → β → Bool} {left : List α} {right : List β} :
    startsWith p left right = true ↔
      ∃ m b, left = m ++ b ∧ List.Forall₂ (fun l r => p l r = true) m right := by
  induction right generalizing left with
  | nil => cases left <;> simp [startsWith]
  | cons r rs ih =>
    cases left with
    | nil =>
      simp only [startsWith, Bool.false_eq_true, false_iff]
      rintro ⟨m, b, h, hm⟩
      have : m = [] := by simp at h; exact h.1
      subst this
      cases hm
    | cons l ls =>
      rw [startsWith]
      cases hp : p l r with
      | false =>
        simp only [Bool.not_false, if_true, Bool.false_eq_true, false_iff]
        rintro ⟨m, b, h, hm⟩
        cases hm with
        | cons h1 h2 =>
          simp at h
          rw [← h.1, hp] at h1
          cases h1
      | true =>
        simp only [Bool.not_true, Bool.false_eq_true, if_false, ih]
        constructor
        · rintro ⟨m, b, rfl, hm⟩
          exact ⟨l :: m, b, rfl, .cons hp hm⟩
        · rintro ⟨m, b, h, hm⟩
          cases hm with
          | cons h1 h2 =>
            simp at h
            exact ⟨_, b, h.2, h2⟩

theorem forall₂_flip {p : α → β → Prop} {xs : List α} {ys : List β} :
    List.Forall₂ p xs ys ↔ List.Forall₂ (fun b a => p a b) ys xs := by
  induction xs generalizing ys with
  | nil => cases ys <;> simp
  | cons x xs ih => cases ys <;> simp [ih]

theorem startsWithRandom_iff {p : α → α → Bool} {left right : List α} :
    ∃ b, startsWithRandom p left right = .ok b ∧ (b = true ↔
      ∃ m t, left = m ++ t ∧ List.Forall₂ (fun l r => p r l = true) m right) := by
  unfold startsWithRandom stdEqual3
  by_cases h : right.length ≤ left.length
  · rw [if_pos h, if_neg (by omega)]
    refine ⟨_, rfl, ?_⟩
    rw [allMatch_iff, forall₂_flip]
    constructor
    · intro h; exact ⟨_, _, (List.take_append_drop right.length left).symm, h⟩
    · rintro ⟨m, t, rfl, hm⟩
      rw [← hm.length_eq, List.take_left]
      exact hm
  · rw [if_neg h]
    refine ⟨false, rfl, ?_⟩
    simp only [Bool.false_eq_true, false_iff]
    rintro ⟨m, t, rfl, hm⟩
    have := hm.length_eq
    simp at h
    omega

theorem endsWithRandom_iff {p : α → α → Bool} {left right : List α} :
    ∃ b, endsWithRandom p left right = .ok b ∧ (b = true ↔
      ∃ t m, left = t ++ m ∧ List.Forall₂ (fun l r => p r l = true) m right) := by
  unfold endsWithRandom stdEqual3
  by_cases h : right.length ≤ left.length
  · rw [if_pos h, if_neg (by simp; omega)]
    refine ⟨_, rfl, ?_⟩
    rw [allMatch_iff, forall₂_flip, List.take_of_length_le (by simp; omega)]
    constructor
    · intro h; exact ⟨_, _, (List.take_append_drop (left.length - right.length) left).symm, h⟩
    · rintro ⟨t, m, rfl, hm⟩
      rw [← hm.length_eq, show (t ++ m).length - m.length = t.length by simp, List.drop_left]
      exact hm
  · rw [if_neg h]
    refine ⟨false, rfl, ?_⟩
    simp only [Bool.false_eq_true, false_iff]
    rintro ⟨t, m, rfl, hm⟩
    have := hm.length_eq
    simp at h
    omega

theorem forall₂_append_last {p : α → β → Prop} {xs : List α} {ys : List β} {x : α} {y : β} :
    List.Forall₂ p (xs ++ [x]) (ys ++ [y]) ↔ List.Forall₂ p xs ys ∧ p x y := by
  induction xs generalizing ys with
  | nil => cases ys <;> simp
  | cons a xs ih =>
    cases ys with
    | nil => simp
    | cons b ys => simp [ih, and_assoc]

theorem take_succ {xs : List α} {i : Nat} (h : i < xs.length) :
    xs.take (i + 1) = xs.take i ++ [xs[i]] := by
  rw [List.take_add_one, List.getElem?_eq_getElem h]; rfl

theorem endsWithLoop_iff {p : α → β → Bool} {left : List α} {right : List β} :
    ∀ itR itL, itL ≤ left.length → itR ≤ right.length →
      ∃ b, endsWithLoop p left right itL itR = .ok b ∧ (b = true ↔
        ∃ t m, left.take itL = t ++ m ∧
          List.Forall₂ (fun l r => p l r = true) m (right.take itR)) := by
  intro itR
  induction itR with
  | zero =>
    intro itL _ _
    refine ⟨true, by cases itL <;> rfl, ?_⟩
    simp only [true_iff, List.take_zero]
    exact ⟨left.take itL, [], by simp, .nil⟩
  | succ itR ih =>
    intro itL hL hR
    cases itL with
    | zero =>
      refine ⟨false, rfl, ?_⟩
      simp only [Bool.false_eq_true, false_iff, List.take_zero]
      rintro ⟨t, m, h, hm⟩
      have : m = [] := by simp at h; exact h.2
      subst this
      have := hm.length_eq
      simp at this
      omega
    | succ itL =>
      rw [endsWithLoop, List.getElem?_eq_getElem (by omega), List.getElem?_eq_getElem (by omega)]
      simp only
      rw [take_succ (by omega : itL < left.length), take_succ (by omega : itR < right.length)]
      obtain ⟨b, hb, hiff⟩ := ih itL (by omega) (by omega)
      have key : (∃ t m, left.take itL ++ [left[itL]] = t ++ m ∧
          List.Forall₂ (fun l r => p l r = true) m (right.take itR ++ [right[itR]])) ↔
          (∃ t m, left.take itL = t ++ m ∧
          List.Forall₂ (fun l r => p l r = true) m (right.take itR)) ∧
            p left[itL] right[itR] = true := by
        constructor
        · rintro ⟨t, m, h, hm⟩
          obtain ⟨m', x, rfl⟩ : ∃ m' x, m = m' ++ [x] := by
            rcases List.eq_nil_or_concat m with h0 | ⟨m', x, h0⟩
            · subst h0
              have := hm.length_eq
              rw [List.length_append] at this
              simp at this
            · exact ⟨m', x, by simpa using h0⟩
          rw [← List.append_assoc] at h
          obtain ⟨h1, h2⟩ := List.append_inj' h rfl
          have h2 : left[itL] = x := by simpa using h2
          rw [forall₂_append_last] at hm
          exact ⟨⟨t, m', h1, hm.1⟩, h2 ▸ hm.2⟩
        · rintro ⟨⟨t, m, h, hm⟩, hp⟩
          exact ⟨t, m ++ [left[itL]], by rw [h, List.append_assoc], forall₂_append_last.2 ⟨hm, hp⟩⟩
      rw [key]
      cases hp : p left[itL] right[itR] with
      | false => exact ⟨false, rfl, by simp⟩
      | true => exact ⟨b, hb, by simpa using hiff⟩

theorem endsWith_iff {p : α → β → Bool} {left : List α} {right : List β} :
    ∃ b, endsWith p left right = .ok b ∧ (b = true ↔
      ∃ t m, left = t ++ m ∧ List.Forall₂ (fun l r => p l r = true) m right) := by
  obtain ⟨b, h1, h2⟩ := endsWithLoop_iff (p := p) (left := left) (right := right) right.length
    left.length (Nat.le_refl _) (Nat.le_refl _)
  rw [List.take_length, List.take_length] at h2
  exact ⟨b, h1, h2⟩

theorem contains_iff {p : α → β → Bool} {left : List α} {right : List β} :
    contains p left right = true ↔ ∃ i, MatchesAt p left right i := by
  unfold contains find
  cases right with
  | nil =>
    simp only [List.isEmpty_nil, Bool.true_or, true_iff]
    exact ⟨0, [], [], left, rfl, rfl, .nil⟩
  | cons r right =>
    simp only [List.isEmpty_cons, Bool.false_or, bne_iff_ne]
    rcases stdSearch_spec p left (r :: right) with ⟨h1, h2⟩ | ⟨h1, h2⟩
    · refine ⟨fun _ => ⟨_, h1⟩, fun _ heq => ?_⟩
      rw [heq] at h1
      obtain ⟨a, m, b, h, hl, hm⟩ := h1
      have h3 := congrArg List.length h
      have h4 := hm.length_eq
      simp at h3 h4
      omega
    · refine ⟨fun h => absurd h1 h, fun ⟨i, hi⟩ => absurd hi (h2 i)⟩

/-! ## Counting and sums -/

theorem countIfLoop_eq (p : α → Bool) (xs : List α) (n : Nat) :
    countIfLoop p xs n = n + xs.countP p := by
  induction xs generalizing n with
  | nil => simp [countIfLoop]
  | cons x xs ih =>
    rw [countIfLoop, ih, List.countP_cons]
    cases p x <;> (simp; try omega)

theorem mapInto_eq (d : List β) (f : α → β) (xs : List α) : mapInto d f xs = d ++ xs.map f := by
  induction xs generalizing d with
  | nil => simp [mapInto]
  | cons x xs ih => simp [mapInto, ih]

/-! ## Minimum and maximum -/

/-- The element at position `j` of `xs` is minimal, and no earlier one is. -/
def IsMin (less : α → α → Bool) (xs : List α) (j : Nat) (y : α) : Prop :=
  xs[j]? = some y ∧ (∀ x ∈ xs, less x y = false) ∧ ∀ i x, i < j → xs[i]? = some x → less y x = true

theorem swo_lt_of_lt_of_not {less : α → α → Bool} (h : StrictWeakOrder less) {a b c : α}
    (h1 : less a b = true) (h2 : less c b = false) : less a c = true := by
  by_contra h3
  have h3 : less a c = false := by simpa using h3
  cases hca : less c a with
  | true => rw [h.trans c a b hca h1] at h2; cases h2
  | false =>
    cases hbc : less b c with
    | true => rw [h.trans a b c h1 hbc] at h3; cases h3
    | false =>
      have := (h.incomp a c b h3 hca h2 hbc).1
      rw [h1] at this; cases this

theorem swo_not_trans {less : α → α → Bool} (h : StrictWeakOrder less) {a b c : α}
    (h1 : less b a = false) (h2 : less c b = false) : less c a = false := by
  by_contra h3
  have h3 : less c a = true := by simpa using h3
  have := swo_lt_of_lt_of_not h h3 h1
  rw [this] at h2
  cases h2

theorem minLoop_isMin {less : α → α → Bool} (h : StrictWeakOrder less) :
    ∀ (rest pre : List α) (j : Nat) (y : α), IsMin less pre j y →
      ∃ k z, minLoop less rest pre.length (some (j, y)) = some (k, z) ∧
        IsMin less (pre ++ rest) k z := by
  intro rest
  induction rest with
  | nil => intro pre j y hm; exact ⟨j, y, rfl, by simpa using hm⟩
  | cons x rest ih =>
    intro pre j y hm
    obtain ⟨h1, h2, h3⟩ := hm
    have hj : j < pre.length := (List.getElem?_eq_some_iff.1 h1).1
    rw [minLoop]
    have hl : pre.length + 1 = (pre ++ [x]).length := by simp
    rw [hl, List.append_cons pre x rest]
    cases hx : less x y with
    | true =>
      simp only [if_true]
      refine ih (pre ++ [x]) pre.length x ⟨by simp, ?_, ?_⟩
      · intro z hz
        rcases List.mem_append.1 hz with hz | hz
        · cases hzx : less z x with
          | false => rfl
          | true =>
            have := h.trans z x y hzx hx
            rw [h2 z hz] at this; cases this
        · obtain rfl := List.mem_singleton.1 hz
          exact h.irrefl _
      · intro i z hi hz
        rw [List.getElem?_append_left hi] at hz
        exact swo_lt_of_lt_of_not h hx (h2 z (List.mem_of_getElem? hz))
    | false =>
      simp only [Bool.false_eq_true, if_false]
      refine ih (pre ++ [x]) j y ⟨by rw [List.getElem?_append_left hj]; exact h1, ?_, ?_⟩
      · intro z hz
        rcases List.mem_append.1 hz with hz | hz
        · exact h2 z hz
        · obtain rfl := List.mem_singleton.1 hz
          exact hx
      · intro i z hi hz
        rw [List.getElem?_append_left (by omega)] at hz
        exact h3 i z hi hz

theorem minOf_isMin {less : α → α → Bool} (h : StrictWeakOrder less) {xs : List α} (hne : xs ≠ []) :
    ∃ k z, minOf less xs = .ok (k, z) ∧ IsMin less xs k z := by
  obtain ⟨x, xs, rfl⟩ := List.exists_cons_of_ne_nil hne
  obtain ⟨k, z, h1, h2⟩ := minLoop_isMin h xs [x] 0 x ⟨rfl, by simp [h.irrefl], by intro i z hi; omega⟩
  refine ⟨k, z, ?_, h2⟩
  unfold minOf
  rw [minLoop]
  rw [List.length_singleton] at h1
  rw [h1]

theorem maxLoop_eq (less : α → α → Bool) (xs : List α) (i : Nat) (r : Option (Nat × α)) :
    maxLoop less xs i r = minLoop (fun a b => less b a) xs i r := by
  induction xs generalizing i r with
  | nil => cases r <;> rfl
  | cons x xs ih =>
    cases r with
    | none => rw [maxLoop, minLoop, ih]
    | some r => obtain ⟨j, y⟩ := r; rw [maxLoop, minLoop, ih]

theorem maxOf_eq (less : α → α → Bool) (xs : List α) :
    maxOf less xs = minOf (fun a b => less b a) xs := by
  unfold maxOf minOf; rw [maxLoop_eq]

theorem swo_flip {less : α → α → Bool} (h : StrictWeakOrder less) :
    StrictWeakOrder (fun a b => less b a) where
  irrefl a := h.irrefl a
  trans a b c h1 h2 := h.trans c b a h2 h1
  incomp a b c h1 h2 h3 h4 := ⟨(h.incomp a b c h2 h1 h4 h3).2, (h.incomp a b c h2 h1 h4 h3).1⟩

/-! ## Slices -/

theorem filter_zipIdx (xs : List α) (k lo n : Nat) :
    ((xs.zipIdx k).filter fun (_, i) => decide (lo ≤ i ∧ i < lo + n)).map (·.1) =
      (xs.drop (lo - k)).take (n - (k - lo)) := by
  induction xs generalizing k with
  | nil => simp
  | cons x xs ih =>
    rw [List.zipIdx_cons, List.filter_cons]
    by_cases h : lo ≤ k ∧ k < lo + n
    · simp only [h, and_self, decide_true, if_true, List.map_cons, ih]
      rw [show lo - (k + 1) = 0 by omega, show lo - k = 0 by omega,
        show n - (k - lo) = (n - (k + 1 - lo)) + 1 by omega]
      simp
    · simp only [h, decide_false, Bool.false_eq_true, if_false, ih]
      by_cases h1 : k < lo
      · rw [show lo - k = (lo - (k + 1)) + 1 by omega, List.drop_succ_cons]
        rw [show k - lo = 0 by omega, show k + 1 - lo = 0 by omega]
      · rw [show n - (k - lo) = 0 by omega, show n - (k + 1 - lo) = 0 by omega]
        simp

/-! ## Sets and maps -/

theorem mem_setInsert {less : β → β → Bool} (hl : StrictWeakOrder less) {v : β} {xs : List β}
    (hs : xs.Pairwise fun a b => less a b = true) (e : β) :
    e ∈ stdSetInsert less v xs ↔ e ∈ xs ∨ (e = v ∧ ∀ x ∈ xs, ¬ Equivalent less x v) := by
  induction xs with
  | nil => simp [stdSetInsert]
  | cons x xs ih =>
    have hs' := List.pairwise_cons.1 hs
    unfold stdSetInsert
    split
    · rename_i h
      rw [List.mem_cons, ih hs'.2]
      have : ¬ Equivalent less x v := fun hx => by rw [hx.1] at h; cases h
      simp [this, or_assoc]
    · rename_i h
      have h : less x v = false := by simpa using h
      split
      · rename_i h2
        have hne : ∀ y ∈ x :: xs, ¬ Equivalent less y v := by
          intro y hy he
          rcases List.mem_cons.1 hy with rfl | hy
          · rw [he.2] at h2; cases h2
          · have := hl.trans v x y h2 (hs'.1 y hy)
            rw [he.2] at this; cases this
        constructor
        · intro h
          rcases List.mem_cons.1 h with rfl | h
          · exact .inr ⟨rfl, hne⟩
          · exact .inl h
        · rintro (h | ⟨rfl, -⟩)
          · exact List.mem_cons_of_mem _ h
          · exact List.mem_cons_self ..
      · rename_i h2
        have h2 : less v x = false := by simpa using h2
        constructor
        · exact .inl
        · rintro (h3 | ⟨-, h3⟩)
          · exact h3
          · exact absurd ⟨h, h2⟩ (h3 x (List.mem_cons_self ..))

theorem sorted_setInsert {less : β → β → Bool} (hl : StrictWeakOrder less) {v : β} {xs : List β}
    (hs : xs.Pairwise fun a b => less a b = true) :
    (stdSetInsert less v xs).Pairwise fun a b => less a b = true := by
  induction xs with
  | nil => simp [stdSetInsert]
  | cons x xs ih =>
    have hs' := List.pairwise_cons.1 hs
    unfold stdSetInsert
    split
    · rename_i h
      refine List.pairwise_cons.2 ⟨fun y hy => ?_, ih hs'.2⟩
      rcases (mem_setInsert hl hs'.2 y).1 hy with hy | ⟨rfl, -⟩
      · exact hs'.1 y hy
      · exact h
    · split
      · rename_i h2
        refine List.pairwise_cons.2 ⟨fun y hy => ?_, hs⟩
        rcases List.mem_cons.1 hy with rfl | hy
        · exact h2
        · exact hl.trans v x y h2 (hs'.1 y hy)
      · exact hs

theorem isFirst_append {less : β → β → Bool} (xs : List β) (v e : β) :
    IsFirst less (xs ++ [v]) e ↔ IsFirst less xs e ∨ (e = v ∧ ∀ x ∈ xs, ¬ Equivalent less x v) := by
  constructor
  · rintro ⟨b, a, h1, h2⟩
    rcases List.eq_nil_or_concat a with rfl | ⟨a', z, rfl⟩
    · have := List.append_inj' h1 rfl
      obtain ⟨rfl, h3⟩ := this
      cases h3
      exact .inr ⟨rfl, h2⟩
    · refine .inl ⟨b, a', ?_, h2⟩
      have : xs ++ [v] = (b ++ e :: a') ++ [z] := by rw [h1]; simp
      exact (List.append_inj' this rfl).1
  · rintro (⟨b, a, rfl, h2⟩ | ⟨rfl, h⟩)
    · exact ⟨b, a ++ [v], by simp, h2⟩
    · exact ⟨xs, [], rfl, h⟩

theorem isFirst_sorted {less : β → β → Bool} {xs : List β}
    (hs : xs.Pairwise fun a b => less a b = true) (e : β) : IsFirst less xs e ↔ e ∈ xs := by
  constructor
  · rintro ⟨b, a, rfl, -⟩; simp
  · intro h
    obtain ⟨b, a, rfl⟩ := List.append_of_mem h
    refine ⟨b, a, rfl, fun x hx he => ?_⟩
    have := (List.pairwise_append.1 hs).2.2 x hx e (List.mem_cons_self ..)
    rw [he.1] at this; cases this

theorem mapIntoSet_snoc (less : β → β → Bool) (d : List β) (f : α → β) (xs : List α) (x : α) :
    mapIntoSet less d f (xs ++ [x]) = stdSetInsert less (f x) (mapIntoSet less d f xs) := by
  induction xs generalizing d with
  | nil => rfl
  | cons y ys ih => exact ih _

theorem exists_isFirst {less : β → β → Bool} (hl : StrictWeakOrder less) {xs : List β} {y : β} (h : y ∈ xs) :
    ∃ z, IsFirst less xs z ∧ Equivalent less z y := by
  cases hf : xs.find? (fun x => !less x y && !less y x) with
  | none =>
    have := List.find?_eq_none.1 hf y h
    simp [hl.irrefl] at this
  | some z =>
    obtain ⟨hz, b, a, rfl, hb⟩ := List.find?_eq_some_iff_append.1 hf
    simp only [Bool.and_eq_true, Bool.not_eq_eq_eq_not, Bool.not_true] at hz
    refine ⟨z, ⟨b, a, rfl, fun x hx he => ?_⟩, hz⟩
    have h1 := hl.incomp x z y he.1 he.2 hz.1 hz.2
    have h2 := hb x hx
    rw [h1.1, h1.2] at h2
    cases h2

theorem mapIntoSet_spec {less : β → β → Bool} (hl : StrictWeakOrder less) (f : α → β) {d : List β}
    (hd : d.Pairwise fun a b => less a b = true) (xs : List α) :
    (mapIntoSet less d f xs).Pairwise (fun a b => less a b = true) ∧
      ∀ e, e ∈ mapIntoSet less d f xs ↔ IsFirst less (d ++ xs.map f) e := by
  induction xs using List.reverseRecOn with
  | nil => exact ⟨hd, fun e => by simpa [mapIntoSet] using (isFirst_sorted hd e).symm⟩
  | append_singleton xs x ih =>
    rw [mapIntoSet_snoc]
    refine ⟨sorted_setInsert hl ih.1, fun e => ?_⟩
    rw [mem_setInsert hl ih.1, List.map_append, ← List.append_assoc]
    simp only [List.map_cons, List.map_nil]
    rw [isFirst_append, ih.2 e]
    refine or_congr Iff.rfl (and_congr Iff.rfl ?_)
    constructor
    · intro h y hy he
      obtain ⟨z, hz, hzy⟩ := exists_isFirst hl hy
      exact h z ((ih.2 z).2 hz) (hl.incomp z y (f x) hzy.1 hzy.2 he.1 he.2)
    · intro h y hy
      obtain ⟨b, a, h1, -⟩ := (ih.2 y).1 hy
      exact h y (by rw [h1]; simp)

end Pluto.Seq
