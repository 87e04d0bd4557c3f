import Verif.Model.Seq
import Verif.Spec.Seq
import Verif.Proofs.Seq
import Mathlib.Order.Defs.LinearOrder
import Mathlib.Algebra.BigOperators.Group.List.Basic

/-! # Properties of comparing, searching and containers (C62-C69) -/

namespace Pluto.Props

open Pluto.Seq SeqSpec

variable {α β : Type}

/-! ## C62: comparison without case -/

/-- C62.  `iequals` is equality of the upper-cased strings, in every locale. -/
theorem C62_iequals [DecidableEq α] (ct : Str.Ctype α) (l r : List α) :
    iequals ct l r = true ↔ Str.upper ct l = Str.upper ct r := by
  unfold iequals equals stdEqual4 Str.upper
  induction l generalizing r with
  | nil => cases r <;> simp [allMatch]
  | cons a l ih =>
    cases r with
    | nil => simp [allMatch]
    | cons b r =>
      rw [allMatch, Bool.and_eq_true, ih]
      simp only [isIequal, Bool.or_eq_true, beq_iff_eq, List.map_cons, List.cons.injEq]
      constructor
      · rintro ⟨rfl | h, h2⟩
        · exact ⟨rfl, h2⟩
        · exact ⟨h, h2⟩
      · rintro ⟨h1, h2⟩; exact ⟨.inr h1, h2⟩

/-- C62.  `iequals` is an equivalence relation. -/
theorem C62_equivalence [DecidableEq α] (ct : Str.Ctype α) :
    Equivalence fun l r => iequals ct l r = true where
  refl l := (C62_iequals ct l l).2 rfl
  symm h := (C62_iequals ct _ _).2 ((C62_iequals ct _ _).1 h).symm
  trans h1 h2 := (C62_iequals ct _ _).2 (((C62_iequals ct _ _).1 h1).trans ((C62_iequals ct _ _).1 h2))

/-- C62.  `is_iless` is a strict weak order whose equivalence is `is_iequal`, and the other
comparisons are the ones it determines. -/
theorem C62_order [LinearOrder α] (ct : Str.Ctype α) :
    StrictWeakOrder (isIless ct) ∧
      (∀ a b, isIequal ct a b = true ↔ isIless ct a b = false ∧ isIless ct b a = false) ∧
      (∀ a b, isNotIequal ct a b = !isIequal ct a b) ∧
      (∀ a b, isIgreater ct a b = isIless ct b a) ∧
      (∀ a b, isIlessEqual ct a b = !isIless ct b a) ∧
      ∀ a b, isIgreaterEqual ct a b = !isIless ct a b := by
  refine ⟨⟨?_, ?_, ?_⟩, ?_, ?_, ?_, ?_, ?_⟩
  · intro a; simp [isIless]
  · intro a b c h1 h2
    simp only [isIless, decide_eq_true_eq] at *
    exact lt_trans h1 h2
  · intro a b c h1 h2 h3 h4
    simp only [isIless, decide_eq_false_iff_not, not_lt] at *
    exact ⟨le_trans h3 h1, le_trans h2 h4⟩
  · intro a b
    simp only [isIequal, isIless, Bool.or_eq_true, beq_iff_eq, decide_eq_false_iff_not, not_lt]
    constructor
    · rintro (rfl | h)
      · exact ⟨le_refl _, le_refl _⟩
      · exact ⟨h.ge, h.le⟩
    · rintro ⟨h1, h2⟩; exact .inr (le_antisymm h2 h1)
  · intro a b; simp [isNotIequal, isIequal, bne]
  · intro a b; rfl
  · intro a b
    simp only [isIlessEqual, isIless]
    by_cases h : a = b
    · subst h; simp
    · have : (a == b) = false := by simpa using h
      rw [this, Bool.false_or, ← decide_not]
      congr 1; simp
  · intro a b
    simp only [isIgreaterEqual, isIless]
    by_cases h : a = b
    · subst h; simp
    · have : (a == b) = false := by simpa using h
      rw [this, Bool.false_or, ← decide_not]
      congr 1; simp

/-! ## C63: searching -/

/-- C63.  `equals` with the default predicate is equality. -/
theorem C63_equals [DecidableEq α] (l r : List α) : equals (· == ·) l r = true ↔ l = r := by
  unfold equals stdEqual4
  rw [allMatch_iff]
  simp only [beq_iff_eq]
  exact forall₂_eq

/-- C63.  With the default predicate, `starts_with`, `ends_with` and `contains` are true
exactly if the right sequence is a prefix, a suffix, a contiguous part of the left one;
this holds for both implementations of the first two. -/
theorem C63_predicates [DecidableEq α] (l r : List α) :
    (startsWith (· == ·) l r = true ↔ ∃ y, l = r ++ y) ∧
      (startsWithRandom (· == ·) l r = .ok true ↔ ∃ y, l = r ++ y) ∧
      (endsWith (· == ·) l r = .ok true ↔ ∃ x, l = x ++ r) ∧
      (endsWithRandom (· == ·) l r = .ok true ↔ ∃ x, l = x ++ r) ∧
      (Seq.contains (· == ·) l r = true ↔ ∃ x y, l = x ++ r ++ y) := by
  have hf : ∀ m : List α, List.Forall₂ (fun l r => (l == r) = true) m r ↔ m = r := by
    intro m; simp only [beq_iff_eq]; exact forall₂_eq
  have hf' : ∀ m : List α, List.Forall₂ (fun l r => (r == l) = true) m r ↔ m = r := by
    intro m
    have : (fun l r : α => (r == l) = true) = fun l r => (l == r) = true := by
      funext l r; rw [beq_iff_eq, beq_iff_eq]; exact propext eq_comm
    rw [this]; exact hf m
  refine ⟨?_, ?_, ?_, ?_, ?_⟩
  · rw [startsWith_iff]
    constructor
    · rintro ⟨m, b, h, hm⟩; exact ⟨b, (hf m).1 hm ▸ h⟩
    · rintro ⟨y, h⟩; exact ⟨r, y, h, (hf r).2 rfl⟩
  · obtain ⟨b, hb, hiff⟩ := startsWithRandom_iff (p := fun a b : α => a == b) (left := l) (right := r)
    rw [hb, Except.ok.injEq, hiff]
    constructor
    · rintro ⟨m, b, h, hm⟩; exact ⟨b, (hf' m).1 hm ▸ h⟩
    · rintro ⟨y, h⟩; exact ⟨r, y, h, (hf' r).2 rfl⟩
  · obtain ⟨b, hb, hiff⟩ := endsWith_iff (p := fun a b : α => a == b) (left := l) (right := r)
    rw [hb, Except.ok.injEq, hiff]
    constructor
    · rintro ⟨t, m, h, hm⟩; exact ⟨t, (hf m).1 hm ▸ h⟩
    · rintro ⟨y, h⟩; exact ⟨y, r, h, (hf r).2 rfl⟩
  · obtain ⟨b, hb, hiff⟩ := endsWithRandom_iff (p := fun a b : α => a == b) (left := l) (right := r)
    rw [hb, Except.ok.injEq, hiff]
    constructor
    · rintro ⟨t, m, h, hm⟩; exact ⟨t, (hf' m).1 hm ▸ h⟩
    · rintro ⟨y, h⟩; exact ⟨y, r, h, (hf' r).2 rfl⟩
  · rw [contains_iff]
    constructor
    · rintro ⟨i, a, m, b, h, -, hm⟩; exact ⟨a, b, (hf m).1 hm ▸ h⟩
    · rintro ⟨x, y, h⟩; exact ⟨x.length, x, r, y, h, rfl, (hf r).2 rfl⟩

/-- C63.  `find` of a sequence gives the first position at which it matches and `rfind`
the last, for every predicate; the end if it does not match. -/
theorem C63_find_sequence (p : α → β → Bool) (l : List α) (r : List β) :
    FirstOr (MatchesAt p l r) l.length (Seq.find p l r) ∧
      LastOr (MatchesAt p l r) l.length (rfind p l r) :=
  ⟨stdSearch_spec p l r, stdFindEnd_spec p l r⟩

/-- C63.  `contains` with any predicate is true exactly if the sequence matches
somewhere. -/
theorem C63_contains_sequence (p : α → β → Bool) (l : List α) (r : List β) :
    Seq.contains p l r = true ↔ ∃ i, MatchesAt p l r i := contains_iff

/-- C63.  `find_if`, `find_if_not` and `find` of an element give the first position with
the property, `rfind_if`, `rfind_if_not` and `rfind` the last; the end if there is
none. -/
theorem C63_find_elem [DecidableEq α] (p : α → Bool) (xs : List α) (e : α) :
    FirstOr (ElemAt p xs) xs.length (findIf p xs) ∧
      FirstOr (ElemAt (fun x => !p x) xs) xs.length (findIfNot p xs) ∧
      FirstOr (fun i => xs[i]? = some e) xs.length (findElem xs e) ∧
      LastOr (ElemAt p xs) xs.length (rfindIf p xs) ∧
      LastOr (ElemAt (fun x => !p x) xs) xs.length (rfindIfNot p xs) ∧
      LastOr (fun i => xs[i]? = some e) xs.length (rfindElem xs e) ∧
      (containsElem xs e = true ↔ e ∈ xs) := by
  have he : (fun i => xs[i]? = some e) = ElemAt (· == e) xs := by
    funext i
    simp [ElemAt]
  have hfirst := (stdFindIf_spec (· == e) xs).1
  refine ⟨(stdFindIf_spec p xs).1, (stdFindIf_spec _ xs).1, ?_, fromReverse_spec p xs,
    fromReverse_spec _ xs, ?_, ?_⟩
  · rw [he]; exact hfirst
  · rw [he]; exact fromReverse_spec (· == e) xs
  · unfold containsElem findElem
    rw [bne_iff_ne]
    rcases hfirst with ⟨h1, -⟩ | ⟨h1, h2⟩
    · have hlt := elemAt_lt h1
      obtain ⟨x, hx, hp⟩ := h1
      have : x = e := by simpa using hp
      refine ⟨fun _ => this ▸ List.mem_of_getElem? hx, fun _ => by omega⟩
    · refine ⟨fun h => absurd h1 h, fun h => ?_⟩
      obtain ⟨i, hi, hx⟩ := List.mem_iff_getElem.1 h
      exact absurd ⟨e, by rw [List.getElem?_eq_getElem hi, hx], by simp⟩ (h2 i)

example : Seq.find (· == ·) [1, 2, 1, 2, 3] [1, 2] = 0 ∧ rfind (· == ·) [1, 2, 1, 2, 3] [1, 2] = 2 ∧
    rfindElem [1, 2, 1] 1 = 2 ∧ rfindElem [1, 2, 1] 5 = 3 ∧
    endsWith (· == ·) [1, 2, 3] [2, 3] = .ok true := by decide

/-! ## C64: the order of the arguments of the predicate -/

/-- C64, partial: for symmetric predicates both implementations of `starts_with` and both
of `ends_with` give the same answer.  What is missing is asymmetric predicates: see
`C64_differ`. -/
theorem C64_same_partial (p : α → α → Bool) (hsym : ∀ a b, p a b = p b a) (l r : List α) :
    startsWithRandom p l r = .ok (startsWith p l r) ∧
      endsWithRandom p l r = endsWith p l r := by
  have hfun : (fun l r : α => p r l = true) = fun l r => p l r = true := by
    funext a b; rw [hsym]
  constructor
  · obtain ⟨b, hb, hiff⟩ := startsWithRandom_iff (p := p) (left := l) (right := r)
    rw [hb, Except.ok.injEq]
    rw [hfun, ← startsWith_iff] at hiff
    cases b <;> cases h : startsWith p l r <;> simp_all
  · obtain ⟨b, hb, hiff⟩ := endsWithRandom_iff (p := p) (left := l) (right := r)
    obtain ⟨c, hc, hiff'⟩ := endsWith_iff (p := p) (left := l) (right := r)
    rw [hb, hc, Except.ok.injEq]
    rw [hfun, ← hiff'] at hiff
    cases b <;> cases c <;> simp_all

/-- C64.  What each implementation computes: the one for other iterators passes the left
element first, the one for random access iterators passes the right element first. -/
theorem C64_meaning (p : α → α → Bool) (l r : List α) :
    (startsWith p l r = true ↔ ∃ m y, l = m ++ y ∧ List.Forall₂ (fun a b => p a b = true) m r) ∧
      (startsWithRandom p l r = .ok true ↔
        ∃ m y, l = m ++ y ∧ List.Forall₂ (fun a b => p b a = true) m r) ∧
      (endsWith p l r = .ok true ↔ ∃ x m, l = x ++ m ∧ List.Forall₂ (fun a b => p a b = true) m r) ∧
      (endsWithRandom p l r = .ok true ↔
        ∃ x m, l = x ++ m ∧ List.Forall₂ (fun a b => p b a = true) m r) := by
  obtain ⟨b, hb, h1⟩ := startsWithRandom_iff (p := p) (left := l) (right := r)
  obtain ⟨c, hc, h2⟩ := endsWith_iff (p := p) (left := l) (right := r)
  obtain ⟨d, hd, h3⟩ := endsWithRandom_iff (p := p) (left := l) (right := r)
  refine ⟨startsWith_iff, ?_, ?_, ?_⟩
  · rw [hb, Except.ok.injEq]; exact h1
  · rw [hc, Except.ok.injEq]; exact h2
  · rw [hd, Except.ok.injEq]; exact h3

/-- C64 fails: with `<` as the predicate the implementations differ. -/
theorem C64_differ :
    startsWith (fun a b : Nat => decide (a < b)) [1] [2] = true ∧
      startsWithRandom (fun a b : Nat => decide (a < b)) [1] [2] = .ok false ∧
      endsWith (fun a b : Nat => decide (a < b)) [1] [2] = .ok true ∧
      endsWithRandom (fun a b : Nat => decide (a < b)) [1] [2] = .ok false := by decide

/-! ## C65: slice -/

/-- C65.  `slice` is the slice of Python, for all bounds; no iterator leaves the
container. -/
theorem C65_slice (xs : List α) (start stop : Int) :
    slice xs start stop = .ok (pySlice xs start stop) ∧
      sliceTo xs stop = .ok (pySlice xs 0 stop) := by
  have key : ∀ start stop : Int, slice xs start stop = .ok (pySlice xs start stop) := by
    intro start stop
    unfold slice
    simp only
    generalize hs : (if start < 0 then if start + (xs.length : Int) < 0 then 0 else start + xs.length
      else start) = s
    generalize ht : (if stop < 0 then stop + (xs.length : Int)
      else if (xs.length : Int) < stop then (xs.length : Int) else stop) = t
    have hs0 : 0 ≤ s := by
      subst hs; split
      · split <;> omega
      · omega
    have ht1 : t ≤ xs.length := by
      subst ht; split
      · omega
      · split <;> omega
    have hlo : pyBound xs.length start = min s xs.length := by
      unfold pyBound; subst hs
      split
      · split <;> omega
      · rfl
    have hhi : pyBound xs.length stop = max 0 t := by
      unfold pyBound; subst ht
      split
      · rfl
      · split <;> omega
    by_cases hle : t ≤ s
    · rw [if_pos hle]
      unfold pySlice
      rw [hlo, hhi]
      have : (xs.zipIdx.filter fun x : α × Nat => decide (min s (xs.length : Int) ≤ (x.2 : Int) ∧
          (x.2 : Int) < max 0 t)) = [] := by
        rw [List.filter_eq_nil_iff]
        intro x _
        simp only [decide_eq_true_eq]
        omega
      rw [this]; rfl
    · rw [if_neg hle]
      have h1 : stdAdvance xs.length 0 s = .ok s.toNat := by
        unfold stdAdvance
        simp only
        rw [if_neg (by omega), show ((0 : Nat) : Int) + s = s by omega]
      have h2 : stdAdvance xs.length s.toNat (t - s) = .ok t.toNat := by
        unfold stdAdvance
        simp only
        rw [if_neg (by omega), show (s.toNat : Int) + (t - s) = t by omega]
      rw [h1]
      show (stdAdvance xs.length s.toNat (t - s) >>= _) = _
      rw [h2]
      show Except.ok _ = _
      unfold pySlice
      have := filter_zipIdx xs 0 s.toNat (t.toNat - s.toNat)
      rw [Nat.sub_zero, Nat.zero_sub, Nat.sub_zero] at this
      rw [← this, hlo, hhi]
      congr 2
      apply List.filter_congr
      rintro ⟨x, i⟩ _
      simp only [decide_eq_decide]
      omega
  exact ⟨key start stop, key 0 stop⟩

example : slice [0, 1, 2, 3, 4] (-3) (-1) = .ok [2, 3] ∧ slice [0, 1, 2] (-10) 10 = .ok [0, 1, 2] ∧
    slice [0, 1, 2] 5 7 = .ok [] ∧ slice [0, 1, 2] 1 (-5) = .ok [] := by decide

/-- Iterators that leave the container are undefined in the model. -/
example : stdAdvance 3 0 4 = .error .undefined ∧ stdAdvance 3 1 (-2) = .error .undefined ∧
    stdAdvance 3 1 2 = .ok 3 := by decide

/-! ## C66: minimum and maximum of a container -/

/-- C66.  For every strict weak order and non-empty container, `min` refers to the first
minimal element: it is the element at that position, none is less, and all earlier ones
are greater. -/
theorem C66_min (less : α → α → Bool) (h : StrictWeakOrder less) (xs : List α) (hne : xs ≠ []) :
    ∃ i m, minOf less xs = .ok (i, m) ∧ xs[i]? = some m ∧ (∀ x ∈ xs, less x m = false) ∧
      ∀ j x, j < i → xs[j]? = some x → less m x = true := by
  obtain ⟨k, z, h1, h2, h3, h4⟩ := minOf_isMin h hne
  exact ⟨k, z, h1, h2, h3, h4⟩

/-- C66.  Likewise `max` refers to the first maximal element. -/
theorem C66_max (less : α → α → Bool) (h : StrictWeakOrder less) (xs : List α) (hne : xs ≠ []) :
    ∃ i m, maxOf less xs = .ok (i, m) ∧ xs[i]? = some m ∧ (∀ x ∈ xs, less m x = false) ∧
      ∀ j x, j < i → xs[j]? = some x → less x m = true := by
  obtain ⟨k, z, h1, h2, h3, h4⟩ := minOf_isMin (swo_flip h) hne
  exact ⟨k, z, by rw [maxOf_eq]; exact h1, h2, h3, h4⟩

/-- C66.  For an empty container both are undefined. -/
theorem C66_empty (less : α → α → Bool) :
    minOf less [] = .error .undefined ∧ maxOf less [] = .error .undefined := ⟨rfl, rfl⟩

/-- The usual order of numbers is a strict weak order, so that `C66_min` applies. -/
example : StrictWeakOrder (fun a b : Int => decide (a < b)) where
  irrefl := by simp
  trans := by simp only [decide_eq_true_eq]; intros; omega
  incomp := by simp only [decide_eq_false_iff_not]; intros; omega

example : minOf (fun a b : Int => decide (a < b)) [3, 1, 2, 1] = .ok (1, 1) ∧
    maxOf (fun a b : Int => decide (a < b)) [3, 1, 3] = .ok (0, 3) := by decide

/-! ## C67: counting and sums -/

/-- C67.  `count_if` is the number of elements with the property (the length of the list
of those elements), `count` that of equal elements, `any` and `all` are the
quantifiers. -/
theorem C67_count [DecidableEq α] (p : α → Bool) (v : α) (xs : List α) :
    countIf p xs = (xs.filter p).length ∧ Seq.count xs v = (xs.filter (· = v)).length ∧
      (any p xs = true ↔ ∃ x ∈ xs, p x = true) ∧ (all p xs = true ↔ ∀ x ∈ xs, p x = true) := by
  refine ⟨?_, ?_, ?_, ?_⟩
  · rw [countIf, countIfLoop_eq, List.countP_eq_length_filter, Nat.zero_add]
  · rw [Seq.count, countIfLoop_eq, List.countP_eq_length_filter, Nat.zero_add]
    congr 1
  · induction xs with
    | nil => simp [any]
    | cons x xs ih => rw [any]; cases h : p x <;> simp [h, ih]
  · induction xs with
    | nil => simp [all]
    | cons x xs ih => rw [all]; cases h : p x <;> simp [h, ih]

/-- C67.  `sum` in any commutative monoid is the initial value plus the sum. -/
theorem C67_sum [AddCommMonoid α] (xs : List α) (v : α) :
    Seq.sum (· + ·) xs v = v + xs.sum := by
  induction xs generalizing v with
  | nil => simp [Seq.sum]
  | cons x xs ih => rw [Seq.sum, ih, List.sum_cons, add_assoc]

/-- C67.  All are additive over concatenation. -/
theorem C67_append [DecidableEq α] [AddCommMonoid β] (p : α → Bool) (v : α) (xs ys : List α)
    (us vs : List β) (init : β) :
    countIf p (xs ++ ys) = countIf p xs + countIf p ys ∧
      Seq.count (xs ++ ys) v = Seq.count xs v + Seq.count ys v ∧
      any p (xs ++ ys) = (any p xs || any p ys) ∧ all p (xs ++ ys) = (all p xs && all p ys) ∧
      Seq.sum (· + ·) (us ++ vs) init = Seq.sum (· + ·) vs (Seq.sum (· + ·) us init) := by
  refine ⟨?_, ?_, ?_, ?_, ?_⟩
  · simp [(C67_count p v _).1]
  · simp [(C67_count p v _).2.1]
  · induction xs with
    | nil => simp [any]
    | cons x xs ih => rw [List.cons_append, any, any, ih]; cases p x <;> simp
  · induction xs with
    | nil => simp [all]
    | cons x xs ih => rw [List.cons_append, all, all, ih]; cases p x <;> simp
  · simp [C67_sum, add_assoc]

/-- C67.  For signed integers: if all partial sums fit, the sum is returned; if one does
not, the behaviour is undefined, even if the total fits. -/
theorem C67_sum_overflow (bits : Nat) (xs : List Int) (v : Int) :
    ((∀ k, 0 < k → k ≤ xs.length →
        -2 ^ (bits - 1) ≤ v + (xs.take k).sum ∧ v + (xs.take k).sum < 2 ^ (bits - 1)) →
      sumInt bits xs v = .ok (v + xs.sum)) ∧
    ((∃ k, 0 < k ∧ k ≤ xs.length ∧
        ¬ (-2 ^ (bits - 1) ≤ v + (xs.take k).sum ∧ v + (xs.take k).sum < 2 ^ (bits - 1))) →
      sumInt bits xs v = .error .undefined) := by
  induction xs generalizing v with
  | nil =>
    refine ⟨fun _ => by simp [sumInt]; rfl, ?_⟩
    rintro ⟨k, h1, h2, -⟩
    simp at h2; omega
  | cons x xs ih =>
    obtain ⟨ih1, ih2⟩ := ih (v + x)
    rw [sumInt]
    constructor
    · intro h
      have h1 := h 1 (by omega) (by simp)
      simp only [List.take_succ_cons, List.take_zero, List.sum_cons, List.sum_nil, add_zero] at h1
      rw [if_neg (by omega), ih1, List.sum_cons, add_assoc]
      intro k hk hkl
      have := h (k + 1) (by omega) (by simpa using hkl)
      rwa [List.take_succ_cons, List.sum_cons, ← add_assoc] at this
    · rintro ⟨k, hk, hkl, hbad⟩
      split
      · rfl
      · rename_i hok
        apply ih2
        obtain ⟨k, rfl⟩ : ∃ j, k = j + 1 := ⟨k - 1, by omega⟩
        rw [List.take_succ_cons, List.sum_cons, ← add_assoc] at hbad
        refine ⟨k, ?_, by simpa using hkl, hbad⟩
        by_contra h0
        have : k = 0 := by omega
        subst this
        simp only [List.take_zero, List.sum_nil, add_zero] at hbad
        omega

example : sumInt 32 [2147483647, 1, -1] 0 = .error .undefined := by decide

/-- C67.  The default predicate of `any` and `all` is the conversion to `bool`, of which `is_false`
is the opposite. -/
theorem C67_truth (conv : α → Bool) (xs : List α) :
    (any (isTrue conv) xs = true ↔ ∃ x ∈ xs, conv x = true) ∧
      (all (isTrue conv) xs = true ↔ ∀ x ∈ xs, conv x = true) ∧
      any (isFalse conv) xs = !all (isTrue conv) xs ∧ all (isFalse conv) xs = !any (isTrue conv) xs := by
  have h1 : isTrue conv = conv := by funext x; simp [Seq.isTrue]
  have hany : ∀ (p : α → Bool) (xs : List α), any p xs = xs.any p := by
    intro p xs
    induction xs with
    | nil => rfl
    | cons x xs ih => simp only [any, List.any_cons, ih]; cases p x <;> rfl
  have hall : ∀ (p : α → Bool) (xs : List α), all p xs = xs.all p := by
    intro p xs
    induction xs with
    | nil => rfl
    | cons x xs ih => simp only [all, List.all_cons, ih]; cases p x <;> rfl
  rw [hany, hall, hany, hall, h1]
  refine ⟨by simp, by simp, ?_, ?_⟩
  · rw [List.not_all_eq_any_not]; rfl
  · rw [List.not_any_eq_all_not]; rfl

example : any (isTrue fun n : Int => n != 0) [0, 0, -1] = true ∧ all (isTrue fun n : Int => n != 0) [0, 1] = false ∧
    any (isFalse fun n : Int => n != 0) [0, 1] = true := by decide

/-! ## C68: filter and map -/

/-- C68.  `filter` keeps exactly the elements with the property, in order, whatever
`remove_if` leaves behind them. -/
theorem C68_filter (p : α → Bool) (junk xs : List α) :
    Seq.filter p junk xs = xs.filter p := by
  unfold Seq.filter stdRemoveIf
  simp only [Bool.not_not]
  rw [List.take_left]

/-- C68.  `map` gives the results in order; into a container that is not empty it appends
them. -/
theorem C68_map (f : α → β) (xs : List α) (d : List β) :
    Seq.map f xs = xs.map f ∧ mapInto d f xs = d ++ xs.map f ∧
      (Seq.map f xs).length = xs.length ∧ ∀ i : Nat, (Seq.map f xs)[i]? = xs[i]?.map f := by
  have h : Seq.map f xs = xs.map f := by rw [Seq.map, mapInto_eq]; rfl
  exact ⟨h, mapInto_eq d f xs, by rw [h]; simp, by rw [h]; simp⟩

/-- C68.  `for_each` calls the function once for every element, in order: with a function
that records its arguments, the record is the container. -/
theorem C68_for_each (f : α → α) (xs log : List α) :
    forEach (fun x log => (f x, log ++ [x])) xs log = (xs.map f, log ++ xs) := by
  induction xs generalizing log with
  | nil => simp [forEach]
  | cons x xs ih => simp [forEach, ih]

example : Seq.filter (fun n : Nat => n % 2 == 0) [9] [1, 2, 3, 4] = [2, 4] := by decide

/-! ## C99: map into sets and maps -/

/-- C99.  `map` into a set or map, which may contain elements already: the result is in order and has
no equivalent elements, and it has an element exactly if that is the first of those equivalent to
it, among the elements that were there followed by the results in the order of the source. (So a
map keeps the value that a key had, or got first.) -/
theorem C99_map (less : β → β → Bool) (hl : StrictWeakOrder less) (f : α → β) (d : List β)
    (hd : d.Pairwise fun a b => less a b = true) (xs : List α) :
    (mapIntoSet less d f xs).Pairwise (fun a b => less a b = true) ∧
      (∀ e, e ∈ mapIntoSet less d f xs ↔ IsFirst less (d ++ xs.map f) e) ∧
      ∀ e, e ∈ mapSet less f xs ↔ IsFirst less (xs.map f) e :=
  ⟨(mapIntoSet_spec hl f hd xs).1, (mapIntoSet_spec hl f hd xs).2, fun e => by
    simpa [mapSet] using (mapIntoSet_spec hl f (d := []) .nil xs).2 e⟩

/-- C99.  If equivalent elements are equal (a set with a total order), the result has exactly the
elements that were there and the results, and neither the order of the source nor how often an
element occurs in it matters. -/
theorem C99_set (less : β → β → Bool) (hl : StrictWeakOrder less)
    (htot : ∀ a b, Equivalent less a b → a = b) (f : α → β) (d : List β)
    (hd : d.Pairwise fun a b => less a b = true) (xs ys : List α) :
    (∀ e, e ∈ mapIntoSet less d f xs ↔ e ∈ d ∨ ∃ x ∈ xs, f x = e) ∧
      ((∀ x, x ∈ xs ↔ x ∈ ys) → mapIntoSet less d f xs = mapIntoSet less d f ys) := by
  have hmem : ∀ xs e, e ∈ mapIntoSet less d f xs ↔ e ∈ d ∨ ∃ x ∈ xs, f x = e := by
    intro xs e
    rw [(mapIntoSet_spec hl f hd xs).2]
    have : (e ∈ d ∨ ∃ x ∈ xs, f x = e) ↔ e ∈ d ++ xs.map f := by simp
    rw [this]
    constructor
    · rintro ⟨b, a, h, -⟩; rw [h]; simp
    · intro h
      obtain ⟨z, hz, he⟩ := exists_isFirst hl h
      rwa [← htot z e he]
  refine ⟨hmem xs, fun h => ?_⟩
  refine List.Perm.eq_of_pairwise (le := fun a b => less a b = true) ?_ (mapIntoSet_spec hl f hd xs).1
    (mapIntoSet_spec hl f hd ys).1 ?_
  · intro a b _ _ h1 h2
    have := hl.trans a b a h1 h2
    rw [hl.irrefl] at this; cases this
  · have nodup : ∀ xs, (mapIntoSet less d f xs).Nodup := fun xs =>
      (mapIntoSet_spec hl f hd xs).1.imp fun {a b} h1 h2 => by
        subst h2; rw [hl.irrefl] at h1; cases h1
    refine (List.perm_ext_iff_of_nodup (nodup xs) (nodup ys)).2 fun e => ?_
    rw [hmem, hmem]
    simp only [h]

/-- A map from numbers to numbers: the first value of a key stays. -/
example : mapIntoSet (fun a b : Nat × Nat => decide (a.1 < b.1)) [(2, 0)] (fun n => (n % 3, n)) [4, 5, 7, 3] =
      [(0, 3), (1, 4), (2, 0)] ∧
    mapSet (fun a b : Nat => decide (a < b)) (· * 10) [3, 1, 3, 2] = [10, 20, 30] := by decide

/-! ## C69: sort and reverse -/

/-- C69.  Whatever sorted permutation `std::sort` chooses: it has the same elements with
the same multiplicity, and earlier elements are not greater than later ones. -/
theorem C69_sort (less : α → α → Bool) (xs ys : List α) (h : StdSort less xs ys) :
    ys.length = xs.length ∧ (∀ a, a ∈ ys ↔ a ∈ xs) ∧
      ∀ i j (hj : j < ys.length) (hi : i < j), less ys[j] ys[i] = false := by
  refine ⟨h.1.length_eq.symm, fun a => (h.1.mem_iff).symm, fun i j hj hi => ?_⟩
  exact List.pairwise_iff_getElem.1 h.2 i j (by omega) hj hi

/-- C69.  In a strict total order the result is determined: any two sorted permutations
are equal. -/
theorem C69_sort_unique (less : α → α → Bool) (htot : ∀ a b, less a b = false → less b a = false → a = b)
    (xs ys zs : List α) (h1 : StdSort less xs ys)
    (h2 : StdSort less xs zs) : ys = zs := by
  refine List.Perm.eq_of_pairwise ?_ h1.2 h2.2 (h1.1.symm.trans h2.1)
  intro a b _ _ hab hba
  exact htot a b hba hab

/-- C69.  `reverse` reverses and twice gives the container back. -/
theorem C69_reverse (xs : List α) :
    reverse (reverse xs) = xs ∧ (reverse xs).length = xs.length ∧
      ∀ i, i < xs.length → (reverse xs)[i]? = xs[xs.length - 1 - i]? := by
  refine ⟨by simp [reverse], by simp [reverse], fun i hi => ?_⟩
  rw [reverse, List.getElem?_reverse hi]

example : StdSort (fun a b : Nat => decide (a < b)) [3, 1, 2] [1, 2, 3] := by
  refine ⟨by decide, by decide⟩

end Pluto.Props
