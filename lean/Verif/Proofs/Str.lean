import Mathlib.Tactic.ByContra
import Verif.Model.Str
import Verif.Spec.Str

/-! # Lemmas about the string functions -/

set_option linter.unusedSectionVars false
set_option linter.unusedVariables false

namespace Pluto.Str

open StrSpec

variable {α : Type}

/-! ## `find` -/

theorem ok_bind {β γ : Type} (a : β) (f : β → Res γ) : ((Except.ok a : Res β) >>= f) = f a := rfl

theorem find?_range {n : Nat} {p : Nat → Bool} {j : Nat} :
    (List.range n).find? p = some j ↔ j < n ∧ p j = true ∧ ∀ i < j, p i = false := by
  rw [List.find?_range_eq_some]
  simp only [List.mem_range, Bool.not_eq_true']
  constructor
  · rintro ⟨a, b, c⟩; exact ⟨b, a, c⟩
  · rintro ⟨a, b, c⟩; exact ⟨b, a, c⟩

theorem find?_range_none {n : Nat} {p : Nat → Bool} :
    (List.range n).find? p = none ↔ ∀ i < n, p i = false := by
  simp [List.find?_eq_none]

section
variable [DecidableEq α]

/-- The first position of `x` in `s`. -/
def first (x s : List α) : Option Nat :=
  (List.range (s.length + 1)).find? fun j => x.isPrefixOf (s.drop j)

theorem occurs_iff {x s : List α} {i : Nat} :
    Occurs x s i ↔ i ≤ s.length ∧ x.isPrefixOf (s.drop i) = true := by
  rw [List.isPrefixOf_iff_prefix]
  constructor
  · rintro ⟨a, b, rfl, rfl⟩
    refine ⟨by simp, ⟨b, by simp⟩⟩
  · rintro ⟨hi, b, hb⟩
    refine ⟨s.take i, b, ?_, by simp; omega⟩
    rw [List.append_assoc, hb, List.take_append_drop]

theorem first_some {x s : List α} {j : Nat} :
    first x s = some j ↔ Occurs x s j ∧ ∀ i < j, ¬ Occurs x s i := by
  unfold first
  rw [find?_range]
  simp only [occurs_iff]
  constructor
  · rintro ⟨h1, h2, h3⟩
    refine ⟨⟨by omega, h2⟩, fun i hi h => ?_⟩
    simp [h3 i hi] at h
  · rintro ⟨⟨h1, h2⟩, h3⟩
    refine ⟨by omega, h2, fun i hi => ?_⟩
    have := h3 i hi
    by_contra h
    exact this ⟨by omega, by simpa using h⟩

theorem first_none {x s : List α} : first x s = none ↔ ¬ Contains x s := by
  unfold first Contains
  rw [find?_range_none]
  simp only [occurs_iff]
  constructor
  · rintro h ⟨i, h1, h2⟩
    simp [h i (by omega)] at h2
  · intro h i hi
    by_contra h2
    exact h ⟨i, by omega, by simpa using h2⟩

theorem find_drop {s x : List α} {pos : Nat} (h : pos ≤ s.length) :
    find s x pos = (first x (s.drop pos)).map (· + pos) := by
  cases hf : first x (s.drop pos) with
  | none =>
    simp only [Option.map_none]
    unfold find first at *
    rw [find?_range_none] at hf ⊢
    intro i hi
    by_cases hp : pos ≤ i
    · have := hf (i - pos) (by simp; omega)
      rw [List.drop_drop] at this
      simp only [hp, decide_true, Bool.true_and]
      rwa [Nat.add_sub_cancel' hp] at this
    · simp [hp]
  | some j =>
    simp only [Option.map_some]
    unfold find first at *
    rw [find?_range] at hf ⊢
    obtain ⟨h1, h2, h3⟩ := hf
    simp only [List.length_drop] at h1
    refine ⟨by omega, ?_, fun i hi => ?_⟩
    · rw [List.drop_drop, Nat.add_comm] at h2
      simp [h2]
    · by_cases hp : pos ≤ i
      · have := h3 (i - pos) (by omega)
        rw [List.drop_drop, Nat.add_sub_cancel' hp] at this
        simp [this]
      · simp [hp]

theorem find_beyond {s x : List α} {pos : Nat} (h : s.length < pos) : find s x pos = none := by
  unfold find
  rw [find?_range_none]
  intro i hi
  have : ¬ pos ≤ i := by omega
  simp [this]

/-! ## Splitting -/

theorem first_le {x s : List α} {j : Nat} (h : first x s = some j) :
    j + x.length ≤ s.length := by
  obtain ⟨⟨a, b, rfl, rfl⟩, -⟩ := first_some.1 h
  simp only [List.length_append]; omega

/-- `split` on a suffix. -/
def pieces (sep : List α) (s : List α) : List (List α) :=
  match h : first sep s with
  | none => [s]
  | some j =>
    if hs : sep = [] then [] else s.take j :: pieces sep (s.drop (j + sep.length))
termination_by s.length
decreasing_by
  have := first_le h
  have : 0 < sep.length := List.length_pos_iff.2 hs
  simp only [List.length_drop]; omega

theorem pieces_none {sep s : List α} (h : first sep s = none) : pieces sep s = [s] := by
  rw [pieces]; split
  · rfl
  · simp_all

theorem pieces_some {sep s : List α} {j : Nat} (hs : sep ≠ []) (h : first sep s = some j) :
    pieces sep s = s.take j :: pieces sep (s.drop (j + sep.length)) := by
  rw [pieces]; split
  · simp_all
  · rename_i k hk
    rw [h] at hk; cases hk
    simp [hs]

/-- Induction along the pieces. -/
theorem pieces_induct {sep : List α} (hs : sep ≠ []) {P : List α → Prop}
    (last : ∀ s, first sep s = none → P s)
    (more : ∀ s j, first sep s = some j → P (s.drop (j + sep.length)) → P s) (s : List α) :
    P s := by
  induction hn : s.length using Nat.strongRecOn generalizing s with
  | _ n ih =>
    cases h : first sep s with
    | none => exact last s h
    | some j =>
      refine more s j h (ih _ ?_ _ rfl)
      have := first_le h
      have : 0 < sep.length := List.length_pos_iff.2 hs
      simp only [List.length_drop]; omega

omit [DecidableEq α] in
theorem substr_ok {s : List α} {pos : Nat} {n : Option Nat} (h : pos ≤ s.length) :
    substr s pos n = .ok (match n with
      | some n => (s.drop pos).take n
      | none => s.drop pos) := by
  unfold substr
  rw [if_neg (by omega)]; rfl

theorem splitLoop_eq {sep : List α} (hs : sep ≠ []) (s : List α) :
    ∀ (fuel start : Nat) (acc : List (List α)), start ≤ s.length → s.length ≤ fuel + start →
      splitLoop s sep fuel start acc = .ok (acc ++ pieces sep (s.drop start)) := by
  intro fuel
  induction fuel with
  | zero =>
    intro start acc h1 h2
    have : start = s.length := by omega
    subst this
    rw [splitLoop.eq_def, find_drop (by omega)]
    have hf : first sep (s.drop s.length) = none := by
      rw [first_none]
      rintro ⟨i, a, b, h, -⟩
      simp at h
      exact hs h.2.1
    rw [hf, pieces_none hf]
    simp [substr_ok]
    rfl
  | succ fuel ih =>
    intro start acc h1 h2
    rw [splitLoop.eq_def, find_drop h1]
    cases hf : first sep (s.drop start) with
    | none =>
      rw [pieces_none hf]
      simp [substr_ok h1]
      rfl
    | some j =>
      rw [pieces_some hs hf]
      have hle := first_le hf
      simp only [List.length_drop] at hle
      have hpos : 0 < sep.length := List.length_pos_iff.2 hs
      simp only [Option.map_some, substr_ok h1]
      show splitLoop s sep fuel _ _ = _
      rw [ih _ _ (by omega) (by omega)]
      simp only [List.drop_drop, Nat.add_sub_cancel, List.append_assoc, List.singleton_append]
      rw [show j + start + sep.length = start + (j + sep.length) by omega]

theorem splitCharsLoop_eq (s : List α) :
    ∀ (fuel i : Nat) (acc : List (List α)), s.length ≤ fuel + i →
      splitCharsLoop s fuel i acc = .ok (acc ++ (s.drop i).map fun c => [c]) := by
  intro fuel
  induction fuel with
  | zero =>
    intro i acc h
    rw [splitCharsLoop.eq_def, if_neg (by omega), List.drop_of_length_le (by omega)]
    simp; rfl
  | succ fuel ih =>
    intro i acc h
    rw [splitCharsLoop.eq_def]
    by_cases hi : i < s.length
    · rw [if_pos hi]
      simp only [substr_ok (Nat.le_of_lt hi)]
      show splitCharsLoop s fuel _ _ = _
      rw [ih _ _ (by omega), List.drop_eq_getElem_cons hi, List.append_assoc, List.map_cons]
      rfl
    · rw [if_neg hi, List.drop_of_length_le (by omega)]
      simp; rfl

theorem split_eq {sep : List α} (hs : sep ≠ []) (s : List α) :
    split s sep = .ok (pieces sep s) := by
  unfold split
  rw [if_neg (by simpa using hs), splitLoop_eq hs s _ _ _ (by omega) (by omega)]
  simp

theorem split_nil (s : List α) : split s [] = .ok (s.map fun c => [c]) := by
  unfold split
  rw [List.isEmpty_nil, if_pos rfl, splitCharsLoop_eq s _ _ _ (by omega)]
  simp

end

/-! ## Joining -/

theorem joinLoop_false (sep : List α) (acc : List α) (ps : List (List α)) :
    joinLoop sep false acc ps = acc ++ (ps.map fun p => sep ++ p).flatten := by
  induction ps generalizing acc with
  | nil => simp [joinLoop]
  | cons p ps ih => simp [joinLoop, ih]

theorem join_cons (sep p : List α) (ps : List (List α)) :
    join (p :: ps) sep = p ++ (ps.map fun q => sep ++ q).flatten := by
  simp [join, joinLoop, joinLoop_false]

theorem join_nil (sep : List α) : join [] sep = [] := rfl

theorem join_singleton (sep p : List α) : join [p] sep = p := by
  simp [join_cons]

theorem join_cons_cons (sep p q : List α) (ps : List (List α)) :
    join (p :: q :: ps) sep = p ++ sep ++ join (q :: ps) sep := by
  simp [join_cons]

theorem mapJoinLoop_eq {β : Type} (sep : List α) (f : β → List α) (b : Bool) (acc : List α)
    (xs : List β) : mapJoinLoop sep f b acc xs = joinLoop sep b acc (xs.map f) := by
  induction xs generalizing b acc with
  | nil => rfl
  | cons x xs ih => simp [mapJoinLoop, joinLoop, ih]

theorem mapJoin_eq {β : Type} (xs : List β) (sep : List α) (f : β → List α) :
    mapJoin xs sep f = join (xs.map f) sep := mapJoinLoop_eq ..

section
variable [DecidableEq α]

theorem pieces_ne_nil {sep : List α} (hs : sep ≠ []) (s : List α) : pieces sep s ≠ [] := by
  cases h : first sep s with
  | none => simp [pieces_none h]
  | some j => simp [pieces_some hs h]

omit [DecidableEq α] in
theorem join_append_ne {sep p : List α} {ps : List (List α)} (h : ps ≠ []) :
    join (p :: ps) sep = p ++ sep ++ join ps sep := by
  cases ps with
  | nil => exact absurd rfl h
  | cons q ps => exact join_cons_cons ..

theorem first_split {x s : List α} {j : Nat} (h : first x s = some j) :
    s = s.take j ++ x ++ s.drop (j + x.length) := by
  obtain ⟨⟨a, b, rfl, rfl⟩, -⟩ := first_some.1 h
  have : List.drop (a.length + x.length) (a ++ x ++ b) = b := by
    rw [← List.length_append, List.drop_left]
  rw [this]; simp

theorem join_pieces {sep : List α} (hs : sep ≠ []) (s : List α) :
    join (pieces sep s) sep = s := by
  refine pieces_induct (P := fun s => join (pieces sep s) sep = s) hs (fun s h => ?_)
    (fun s j h ih => ?_) s
  · rw [pieces_none h, join_singleton]
  · rw [pieces_some hs h, join_append_ne (pieces_ne_nil hs _), ih, ← first_split h]

omit [DecidableEq α] in
theorem occurs_append_right {x s t : List α} {i : Nat} (h : Occurs x s i) :
    Occurs x (s ++ t) i := by
  obtain ⟨a, b, rfl, rfl⟩ := h
  exact ⟨a, b ++ t, by simp, rfl⟩

omit [DecidableEq α] in
theorem occurs_append_left {x s t : List α} {i : Nat} (h : Occurs x s i) :
    Occurs x (t ++ s) (t.length + i) := by
  obtain ⟨a, b, rfl, rfl⟩ := h
  exact ⟨t ++ a, b, by simp, by simp⟩

omit [DecidableEq α] in
/-- An occurrence that ends within a prefix is one in the prefix. -/
theorem occurs_of_append {x s t : List α} {i : Nat} (h : Occurs x (s ++ t) i)
    (hi : i + x.length ≤ s.length) : Occurs x s i := by
  obtain ⟨a, b, he, rfl⟩ := h
  have h1 : s = (a ++ x ++ b).take s.length := by rw [← he, List.take_left]
  have h2 : (a ++ x ++ b).take s.length = a ++ x ++ b.take (s.length - (a ++ x).length) := by
    rw [List.take_append, List.take_of_length_le (by simp; omega)]
  exact ⟨a, _, h1.trans h2, rfl⟩

omit [DecidableEq α] in
theorem readable_cons {sep p : List α} {ps : List (List α)} (h : ps ≠ []) :
    Readable sep (p :: ps) ↔ (∀ i, Occurs sep (p ++ sep) i → i = p.length) ∧ Readable sep ps := by
  cases ps with
  | nil => exact absurd rfl h
  | cons q ps => rfl

theorem first_of_readable {sep p t : List α} (h : ∀ i, Occurs sep (p ++ sep) i → i = p.length) :
    first sep (p ++ sep ++ t) = some p.length := by
  rw [first_some]
  refine ⟨⟨p, t, rfl, rfl⟩, fun i hi hocc => ?_⟩
  have := h i (occurs_of_append hocc (by simp; omega))
  omega

theorem readable_pieces {sep : List α} (hs : sep ≠ []) (s : List α) :
    Readable sep (pieces sep s) := by
  refine pieces_induct (P := fun s => Readable sep (pieces sep s)) hs (fun s h => ?_)
    (fun s j h ih => ?_) s
  · rw [pieces_none h]; exact first_none.1 h
  · rw [pieces_some hs h, readable_cons (pieces_ne_nil hs _)]
    refine ⟨fun i hi => ?_, ih⟩
    have hsp := first_split h
    have hle := first_le h
    have hl : (s.take j).length = j := by simp; omega
    obtain ⟨h1, h2⟩ := first_some.1 h
    rw [hl]
    have h3 : i + sep.length ≤ (s.take j ++ sep).length := by
      obtain ⟨a, b, he, rfl⟩ := hi
      rw [he]; simp
    simp only [List.length_append, hl] at h3
    have h4 : ¬ i < j := fun hij => by
      refine h2 i hij ?_
      rw [hsp]
      exact occurs_append_right hi
    omega

theorem pieces_join {sep : List α} (hs : sep ≠ []) {ps : List (List α)}
    (h : Readable sep ps) : pieces sep (join ps sep) = ps := by
  induction ps with
  | nil => exact absurd h id
  | cons p ps ih =>
    cases ps with
    | nil => rw [join_singleton, pieces_none (first_none.2 h)]
    | cons q ps =>
      have h1 := first_of_readable (t := join (q :: ps) sep) h.1
      rw [join_cons_cons, pieces_some hs h1, ← List.length_append, List.drop_left, ih h.2]
      simp

theorem readable_of_positions {sep : List α} (hs : sep ≠ []) {ps : List (List α)} (hp : ps ≠ [])
    (h : ∀ i, Occurs sep (join ps sep) i → i ∈ separatorPositions sep ps) : Readable sep ps := by
  induction ps with
  | nil => exact absurd rfl hp
  | cons p ps ih =>
    cases ps with
    | nil =>
      rintro ⟨i, hi⟩
      rw [join_singleton] at h
      exact absurd (h i hi) (by simp [separatorPositions])
    | cons q ps =>
      have hpos : 0 < sep.length := List.length_pos_iff.2 hs
      rw [join_cons_cons] at h
      refine ⟨fun i hi => ?_, ih (by simp) fun i hi => ?_⟩
      · have h1 := h i (occurs_append_right hi)
        simp only [separatorPositions, List.mem_cons, List.mem_map] at h1
        rcases h1 with h1 | ⟨k, -, rfl⟩
        · exact h1
        · obtain ⟨a, b, he, hk⟩ := hi
          have := congrArg List.length he
          simp at this
          omega
      · have h1 := h _ (occurs_append_left (t := p ++ sep) hi)
        simp only [separatorPositions, List.mem_cons, List.mem_map, List.length_append] at h1
        rcases h1 with h1 | ⟨k, hk, hki⟩
        · omega
        · have : k = i := by omega
          exact this ▸ hk

omit [DecidableEq α] in
theorem contains_singleton {c : α} {s : List α} : Contains [c] s ↔ c ∈ s := by
  constructor
  · rintro ⟨i, a, b, rfl, -⟩; simp
  · intro h
    obtain ⟨a, b, rfl⟩ := List.append_of_mem h
    exact ⟨a.length, a, b, by simp, rfl⟩

theorem readable_singleton {c : α} {ps : List (List α)} (hp : ps ≠ []) (h : ∀ p ∈ ps, c ∉ p) :
    Readable [c] ps := by
  induction ps with
  | nil => exact absurd rfl hp
  | cons p ps ih =>
    have hcp := h p (by simp)
    cases ps with
    | nil => exact fun hc => hcp (contains_singleton.1 hc)
    | cons q ps =>
      refine ⟨fun i hi => ?_, ih (by simp) fun r hr => h r (by simp_all)⟩
      obtain ⟨a, b, he, rfl⟩ := hi
      by_contra hne
      have hlen := congrArg List.length he
      simp at hlen
      have h1 : a.length < p.length := by omega
      have h2 : (p ++ [c])[a.length]? = some c := by
        rw [he, List.append_assoc, List.getElem?_append_right (Nat.le_refl _)]
        simp
      rw [List.getElem?_append_left h1] at h2
      exact hcp (List.mem_of_getElem? h2)


/-! ## Pieces and occurrences -/

omit [DecidableEq α] in
theorem readable_not_contains {sep : List α} (hs : sep ≠ []) {ps : List (List α)}
    (h : Readable sep ps) : ∀ p ∈ ps, ¬ Contains sep p := by
  induction ps with
  | nil => simp
  | cons p ps ih =>
    cases ps with
    | nil =>
      intro r hr
      obtain rfl := List.mem_singleton.1 hr
      exact h
    | cons q ps =>
      intro r hr
      rcases List.mem_cons.1 hr with rfl | hr
      · rintro ⟨i, hi⟩
        have h1 := h.1 i (occurs_append_right hi)
        obtain ⟨a, b, he, rfl⟩ := hi
        have hpos : 0 < sep.length := List.length_pos_iff.2 hs
        have := congrArg List.length he
        simp at this
        omega
      · exact ih h.2 r hr

theorem count_skip {x : List α} (a s : List α) (h : ∀ i < a.length, ¬ Occurs x (a ++ s) i) :
    count x (a ++ s) = count x s := by
  induction a with
  | nil => rfl
  | cons c a ih =>
    rw [List.cons_append, count, if_neg, ih]
    · intro i hi ho
      refine h (i + 1) (by simp; omega) ?_
      have := occurs_append_left (t := [c]) ho
      rwa [List.length_singleton, Nat.add_comm] at this
    · intro hp
      exact h 0 (by simp) (occurs_iff.2 ⟨by simp, by simpa using hp⟩)

theorem count_prefix {x : List α} (hx : x ≠ []) (s : List α) :
    count x (x ++ s) = 1 + count x s := by
  obtain ⟨c, t, rfl⟩ := List.exists_cons_of_ne_nil hx
  rw [List.cons_append, count, if_pos]
  · simp
  · rw [List.isPrefixOf_iff_prefix]; exact ⟨s, rfl⟩

theorem length_pieces {sep : List α} (hs : sep ≠ []) (s : List α) :
    (pieces sep s).length = count sep s + 1 := by
  refine pieces_induct (P := fun s => (pieces sep s).length = count sep s + 1) hs (fun s h => ?_)
    (fun s j h ih => ?_) s
  · rw [pieces_none h]
    have := count_skip (x := sep) s [] (by
      intro i _ ho
      rw [List.append_nil] at ho
      exact first_none.1 h ⟨i, ho⟩)
    rw [List.append_nil] at this
    simp [this, count]
  · rw [pieces_some hs h, List.length_cons, ih]
    have hsp := first_split h
    obtain ⟨h1, h2⟩ := first_some.1 h
    have hle := first_le h
    have : count sep s = 1 + count sep (s.drop (j + sep.length)) := by
      rw [← count_prefix hs]
      conv_lhs => rw [hsp, List.append_assoc]
      refine count_skip _ _ fun i hi => ?_
      rw [← List.append_assoc, ← hsp]
      simp at hi
      exact h2 i (by omega)
    omega

/-! ## Replacing -/

theorem find_append (x d s : List α) :
    find (d ++ s) x d.length = (first x s).map (· + d.length) := by
  rw [find_drop (by simp), List.drop_left]

omit [DecidableEq α] in
theorem replaceAt_append (d s t w r : List α) (pos n : Nat) (hd : d.length = pos)
    (hn : t.length = n) (hs : s = d ++ t ++ r) :
    replaceAt s pos n w = .ok (d ++ w ++ r) := by
  subst hd hn hs
  unfold replaceAt
  rw [if_neg (by simp), List.append_assoc d t r, List.take_left, ← List.append_assoc,
    ← List.length_append, List.drop_left]

theorem replaceLoop_eq {fnd : List α} (hf : fnd ≠ []) (w : List α) :
    ∀ (fuel : Nat) (d s : List α), s.length ≤ fuel →
      replaceLoop fnd w fuel (d ++ s) d.length = .ok (d ++ join (pieces fnd s) w) := by
  intro fuel
  induction fuel with
  | zero =>
    intro d s h
    obtain rfl : s = [] := List.length_eq_zero_iff.1 (by omega)
    rw [replaceLoop.eq_def, find_append]
    have hn : first fnd [] = none := by
      rw [first_none]
      rintro ⟨i, a, b, h, -⟩
      simp at h
      exact hf h.2.1
    rw [hn, pieces_none hn, join_singleton]
    rfl
  | succ fuel ih =>
    intro d s h
    rw [replaceLoop.eq_def, find_append]
    cases hfs : first fnd s with
    | none => rw [pieces_none hfs, join_singleton]; rfl
    | some j =>
      rw [pieces_some hf hfs]
      have hsp := first_split hfs
      have hle := first_le hfs
      have hpos : 0 < fnd.length := List.length_pos_iff.2 hf
      simp only [Option.map_some]
      rw [replaceAt_append (d ++ s.take j) (d ++ s) fnd w (s.drop (j + fnd.length)) (j + d.length)
        fnd.length (by simp; omega) rfl (by simp only [List.append_assoc] at hsp ⊢; rw [← hsp])]
      show replaceLoop fnd w fuel _ _ = _
      have h0 : fnd.isEmpty = false := by simpa using hf
      rw [h0]
      have hl : (j + d.length) + w.length = (d ++ s.take j ++ w).length := by simp; omega
      simp only [Bool.false_eq_true, if_false]
      rw [hl, ih _ _ (by simp; omega), join_append_ne (pieces_ne_nil hf _)]
      simp

theorem first_nil (s : List α) : first ([] : List α) s = some 0 := by
  rw [first_some]
  exact ⟨⟨[], s, rfl, rfl⟩, by simp⟩

theorem replaceLoop_nil (w : List α) :
    ∀ (fuel : Nat) (d s : List α), s.length < fuel →
      replaceLoop [] w fuel (d ++ s) d.length =
        .ok (d ++ w ++ (s.map fun c => c :: w).flatten) := by
  intro fuel
  induction fuel with
  | zero => intro d s h; omega
  | succ fuel ih =>
    intro d s h
    rw [replaceLoop.eq_def, find_append, first_nil]
    simp only [Option.map_some, Nat.zero_add]
    rw [replaceAt_append d (d ++ s) [] w s _ _ rfl rfl (by simp)]
    show replaceLoop [] w fuel _ _ = _
    simp only [List.isEmpty_nil, if_true]
    cases s with
    | nil =>
      rw [replaceLoop.eq_def, find_beyond (by simp)]
      simp; rfl
    | cons c s =>
      have := ih (d ++ w ++ [c]) s (by simp at h; omega)
      simp only [List.length_append, List.length_singleton, List.append_assoc,
        List.singleton_append] at this
      simp only [List.append_assoc, Nat.add_assoc]
      rw [this]
      simp

/-! ## Searching for characters -/

/-- The first position from `pos` of a character with `p`. -/
def firstP (p : α → Bool) (s : List α) (pos : Nat) : Option Nat :=
  (List.range s.length).find? fun j => decide (pos ≤ j) && s[j]?.any p

omit [DecidableEq α] in
theorem firstP_none {p : α → Bool} {d s : List α} (h : ∀ c ∈ s, p c = false) :
    firstP p (d ++ s) d.length = none := by
  unfold firstP
  rw [find?_range_none]
  intro i hi
  by_cases hd : d.length ≤ i
  · rw [List.getElem?_append_right hd]
    cases hc : s[i - d.length]? with
    | none => simp
    | some c => simp [h c (List.mem_of_getElem? hc)]
  · simp [hd]

omit [DecidableEq α] in
theorem firstP_some {p : α → Bool} {d a : List α} {c : α} {b : List α}
    (h : ∀ c ∈ a, p c = false) (hc : p c = true) :
    firstP p (d ++ (a ++ c :: b)) d.length = some (d.length + a.length) := by
  unfold firstP
  rw [find?_range]
  refine ⟨by simp, ?_, fun i hi => ?_⟩
  · rw [List.getElem?_append_right (by omega), List.getElem?_append_right (by omega)]
    simp [hc]
  · by_cases hd : d.length ≤ i
    · rw [List.getElem?_append_right hd, List.getElem?_append_left (by omega)]
      cases hc : a[i - d.length]? with
      | none => simp
      | some c => simp [h c (List.mem_of_getElem? hc)]
    · simp [hd]

theorem findFirstOf_eq (s set : List α) (pos : Nat) :
    findFirstOf s set pos = firstP (fun c => set.contains c) s pos := rfl

theorem findFirstNotOf_eq (s set : List α) (pos : Nat) :
    findFirstNotOf s set (some pos) = firstP (fun c => !set.contains c) s pos := rfl

omit [DecidableEq α] in
/-- Every list is a run without `p` and then nothing or a character with `p`. -/
theorem span_cases (p : α → Bool) (s : List α) :
    (∀ c ∈ s, p c = false) ∨
      ∃ a c b, s = a ++ c :: b ∧ (∀ c ∈ a, p c = false) ∧ p c = true := by
  induction s with
  | nil => left; simp
  | cons x s ih =>
    by_cases hx : p x = true
    · right; exact ⟨[], x, s, rfl, by simp, hx⟩
    · have hx : p x = false := by simpa using hx
      rcases ih with ih | ⟨a, c, b, rfl, ha, hc⟩
      · left; simpa [hx] using ih
      · right; exact ⟨x :: a, c, b, rfl, by simpa [hx] using ha, hc⟩

theorem replaceAnyLoop_eq (fnd w : List α) :
    ∀ (fuel : Nat) (d s : List α), s.length ≤ fuel →
      replaceAnyLoop fnd w fuel (d ++ s) d.length =
        .ok (d ++ s.flatMap fun c => if c ∈ fnd then w else [c]) := by
  have hid : ∀ s : List α, (∀ c ∈ s, fnd.contains c = false) →
      (s.flatMap fun c => if c ∈ fnd then w else [c]) = s := by
    intro s
    induction s with
    | nil => simp
    | cons c s ih =>
      intro h
      have h1 := h c (by simp)
      simp at h1
      rw [List.flatMap_cons, ih fun d hd => h d (by simp [hd]), if_neg h1]
      rfl
  intro fuel
  induction fuel with
  | zero =>
    intro d s h
    obtain rfl : s = [] := List.length_eq_zero_iff.1 (by omega)
    rw [replaceAnyLoop.eq_def, findFirstOf_eq, firstP_none (by simp)]
    rfl
  | succ fuel ih =>
    intro d s h
    rw [replaceAnyLoop.eq_def, findFirstOf_eq]
    rcases span_cases (fun c => fnd.contains c) s with hn | ⟨a, c, b, rfl, ha, hc⟩
    · rw [firstP_none hn, hid s hn]; rfl
    · rw [firstP_some ha hc]
      simp only
      rw [replaceAt_append (d ++ a) (d ++ (a ++ c :: b)) [c] w b (d.length + a.length) 1
        (by simp) rfl (by simp)]
      show replaceAnyLoop fnd w fuel _ _ = _
      have hl : d.length + a.length + w.length = (d ++ a ++ w).length := by simp; omega
      rw [hl, ih _ _ (by simp at h; omega)]
      simp only [List.flatMap_append, List.flatMap_cons, hid a ha]
      rw [if_pos (by simpa using hc)]
      simp

end

/-! ## Runs -/

theorem runs_exists (gap : α → Bool) (s : List α) : ∃ ps, Runs gap s ps := by
  induction hn : s.length using Nat.strongRecOn generalizing s with
  | _ n ih =>
    rcases span_cases (fun c => !gap c) s with h | ⟨g, c, t, rfl, hg, hc⟩
    · exact ⟨[], .none s (by simpa using h)⟩
    · have hg : ∀ c ∈ g, gap c = true := by simpa using hg
      have hc : gap c = false := by simpa using hc
      rcases span_cases gap t with h | ⟨p, d, r, rfl, hp, hd⟩
      · exact ⟨[c :: t], .last g (c :: t) hg (by simp) (by simpa [hc] using h)⟩
      · obtain ⟨ps, hps⟩ := ih r.length (by subst hn; simp; omega) r rfl
        refine ⟨(c :: p) :: ps, ?_⟩
        have := Runs.more g (c :: p) d r ps hg (by simp) (by simpa [hc] using hp) hd hps
        simpa using this

theorem splitAnyLoop_eq [DecidableEq α] (sep : List α) {s : List α} {ps : List (List α)}
    (h : Runs (fun c => sep.contains c) s ps) :
    ∀ (fuel : Nat) (d g : List α) (acc : List (List α)), (∀ c ∈ g, sep.contains c = true) →
      s.length ≤ fuel →
      splitAnyLoop (d ++ (g ++ s)) sep fuel (some d.length) acc = .ok (acc ++ ps) := by
  induction h with
  | none g' hg' =>
    intro fuel d g acc hg _
    rw [splitAnyLoop.eq_def, findFirstNotOf_eq, firstP_none]
    · simp; rfl
    · intro c hc
      rcases List.mem_append.1 hc with hc | hc
      · simpa using hg c hc
      · simpa using hg' c hc
  | last g' p hg' hp hn =>
    intro fuel d g acc hg hf
    obtain ⟨c, t, rfl⟩ := List.exists_cons_of_ne_nil hp
    have hgg : ∀ c ∈ g ++ g', (!sep.contains c) = false := by
      intro c hc
      rcases List.mem_append.1 hc with hc | hc
      · simpa using hg c hc
      · simpa using hg' c hc
    rw [splitAnyLoop.eq_def, findFirstNotOf_eq, ← List.append_assoc g,
      firstP_some hgg (by simpa using hn c (by simp))]
    cases fuel with
    | zero => simp at hf
    | succ fuel =>
      simp only
      have hl : d.length + (g ++ g').length = (d ++ (g ++ g')).length := by simp
      rw [hl, findFirstOf_eq, ← List.append_assoc d, firstP_none hn, Option.map_none,
        substr_ok (by simp)]
      show splitAnyLoop _ sep fuel _ _ = _
      rw [splitAnyLoop.eq_def]
      simp [findFirstNotOf]
      rfl
  | more g' p c s ps hg' hp hn hc _ ih =>
    intro fuel d g acc hg hf
    obtain ⟨e, t, rfl⟩ := List.exists_cons_of_ne_nil hp
    have hgg : ∀ c ∈ g ++ g', (!sep.contains c) = false := by
      intro c hc
      rcases List.mem_append.1 hc with hc | hc
      · simpa using hg c hc
      · simpa using hg' c hc
    have hre : d ++ (g ++ (g' ++ e :: t ++ c :: s)) = d ++ ((g ++ g') ++ e :: (t ++ c :: s)) := by
      simp
    rw [splitAnyLoop.eq_def, findFirstNotOf_eq, hre,
      firstP_some hgg (by simpa using hn e (by simp))]
    cases fuel with
    | zero => simp at hf
    | succ fuel =>
      simp only
      have hl : d.length + (g ++ g').length = (d ++ (g ++ g')).length := by simp
      have hre2 : d ++ ((g ++ g') ++ e :: (t ++ c :: s)) = (d ++ (g ++ g')) ++ ((e :: t) ++ c :: s) := by
        simp
      rw [hl, hre2, findFirstOf_eq, firstP_some hn hc, Option.map_some,
        substr_ok (by simp)]
      show splitAnyLoop _ sep fuel _ _ = _
      have := ih fuel (d ++ (g ++ g') ++ (e :: t)) [c] (acc ++ [e :: t]) (by simpa using hc)
        (by simp at hf; omega)
      rw [List.length_append, List.append_assoc, List.singleton_append, List.append_assoc acc] at this
      simp only [List.drop_left, Nat.add_sub_cancel_left, List.take_left]
      rw [this]
      rfl

theorem at_append (d : List α) (c : α) (s : List α) : at' (d ++ c :: s) d.length = .ok c := by
  simp [at']

theorem nonSpaceEnd_eq (ct : Ctype α) (r : List α) (hr : ∀ c, r.head? = some c → ct.space c = true) :
    ∀ (p : List α) (fuel : Nat) (d : List α), (∀ c ∈ p, ct.space c = false) →
      p.length + 1 ≤ fuel →
      nonSpaceEnd ct (d ++ (p ++ r)) fuel d.length = .ok (d.length + p.length) := by
  intro p
  induction p with
  | nil =>
    intro fuel d _ hf
    rw [nonSpaceEnd.eq_def]
    cases r with
    | nil => simp; rfl
    | cons c r =>
      cases fuel with
      | zero => simp at hf
      | succ fuel =>
        rw [if_pos (by simp)]
        simp only [List.nil_append, at_append]
        show (if _ then _ else _) = _
        rw [hr c rfl]; simp; rfl
  | cons c p ih =>
    intro fuel d hp hf
    rw [nonSpaceEnd.eq_def, if_pos (by simp)]
    cases fuel with
    | zero => simp at hf
    | succ fuel =>
      simp only [List.cons_append, at_append]
      show (if _ then _ else _) = _
      rw [hp c (by simp)]
      have := ih fuel (d ++ [c]) (fun c hc => hp c (by simp [hc])) (by simp at hf; omega)
      simp only [List.append_assoc, List.length_append, List.length_singleton,
        List.singleton_append] at this
      simp only [Bool.not_false, if_true, this, List.length_cons]
      congr 1; omega

theorem splitSpace_gaps (ct : Ctype α) (s : List α) (acc : List (List α)) :
    ∀ (g d : List α) (fuel : Nat), (∀ c ∈ g, ct.space c = true) →
      splitSpaceLoop ct (d ++ (g ++ s)) (g.length + fuel) d.length acc =
        splitSpaceLoop ct (d ++ (g ++ s)) fuel (d ++ g).length acc := by
  intro g
  induction g with
  | nil => intro d fuel _; simp
  | cons c g ih =>
    intro d fuel hg
    rw [splitSpaceLoop.eq_def, if_pos (by simp)]
    rw [show (c :: g).length + fuel = (g.length + fuel) + 1 by simp; omega]
    simp only [List.cons_append, at_append]
    show (if _ then _ else _) = _
    rw [if_pos (hg c (by simp))]
    have := ih (d ++ [c]) fuel (fun c hc => hg c (by simp [hc]))
    simp only [List.append_assoc, List.length_append, List.length_singleton,
      List.singleton_append] at this
    rw [this]
    simp [Nat.add_left_comm]

theorem splitSpaceLoop_eq (ct : Ctype α) {s : List α} {ps : List (List α)}
    (h : Runs ct.space s ps) :
    ∀ (fuel : Nat) (d : List α) (acc : List (List α)), s.length ≤ fuel →
      splitSpaceLoop ct (d ++ s) fuel d.length acc = .ok (acc ++ ps) := by
  induction h with
  | none g hg =>
    intro fuel d acc hf
    have := splitSpace_gaps ct [] acc g d (fuel - g.length) hg
    rw [Nat.add_sub_cancel' hf, List.append_nil] at this
    rw [this, splitSpaceLoop.eq_def, if_neg (by simp)]
    simp; rfl
  | last g p hg hp hn =>
    intro fuel d acc hf
    simp only [List.length_append] at hf
    have := splitSpace_gaps ct p acc g d (fuel - g.length) hg
    rw [Nat.add_sub_cancel' (by omega)] at this
    rw [this]
    obtain ⟨c, t, rfl⟩ := List.exists_cons_of_ne_nil hp
    obtain ⟨fuel', hfu⟩ : ∃ k, fuel - g.length = k + 1 := ⟨fuel - g.length - 1, by simp at hf; omega⟩
    rw [hfu, splitSpaceLoop.eq_def, if_pos (by simp), ← List.append_assoc]
    simp only [at_append]
    show (if _ then _ else _) = _
    rw [if_neg (by simpa using hn c (by simp))]
    have hne := nonSpaceEnd_eq ct [] (by simp) t ((d ++ g) ++ c :: t).length (d ++ g ++ [c])
      (fun c hc => hn c (by simp [hc])) (by simp; omega)
    simp only [List.append_nil, List.append_assoc, List.singleton_append, List.length_append,
      List.length_singleton] at hne
    simp only [List.append_assoc, List.length_append]
    rw [show d.length + g.length + 1 = d.length + (g.length + 1) by omega, hne]
    show (substr _ _ _ >>= _) = _
    rw [substr_ok (by simp)]
    show splitSpaceLoop ct _ fuel' _ _ = _
    rw [splitSpaceLoop.eq_def, if_neg (by simp; omega)]
    simp only [← List.append_assoc]
    rw [List.drop_left' (by simp), List.take_of_length_le (by simp; omega)]
    rfl
  | more g p c s ps hg hp hn hc _ ih =>
    intro fuel d acc hf
    simp only [List.length_append, List.length_cons] at hf
    have := splitSpace_gaps ct (p ++ c :: s) acc g d (fuel - g.length) hg
    rw [Nat.add_sub_cancel' (by omega), ← List.append_assoc g] at this
    rw [this]
    obtain ⟨e, t, rfl⟩ := List.exists_cons_of_ne_nil hp
    obtain ⟨fuel', hfu⟩ : ∃ k, fuel - g.length = k + 1 := ⟨fuel - g.length - 1, by omega⟩
    rw [hfu, splitSpaceLoop.eq_def, if_pos (by simp)]
    have hre : d ++ (g ++ e :: t ++ c :: s) = (d ++ g) ++ e :: (t ++ c :: s) := by simp
    rw [hre]
    simp only [at_append]
    show (if _ then _ else _) = _
    rw [if_neg (by simpa using hn e (by simp))]
    have hne := nonSpaceEnd_eq ct (c :: s) (by simpa using hc) t
      ((d ++ g) ++ e :: (t ++ c :: s)).length (d ++ g ++ [e])
      (fun c hc => hn c (by simp [hc])) (by simp; omega)
    rw [List.append_assoc (d ++ g), List.singleton_append, List.length_append (bs := [e]),
      List.length_singleton] at hne
    rw [hne]
    show (substr _ _ _ >>= _) = _
    rw [substr_ok (by simp)]
    show splitSpaceLoop ct _ fuel' _ _ = _
    have hih := ih fuel' (d ++ g ++ e :: (t ++ [c])) (acc ++ [e :: t]) (by simp at hf; omega)
    rw [List.append_assoc] at hih
    simp only [List.cons_append, List.append_assoc, List.nil_append] at hih ⊢
    rw [show (d ++ (g ++ e :: (t ++ [c]))).length = (d ++ g).length + 1 + t.length + 1 by
      simp; omega] at hih
    rw [← hih]
    congr 3
    have hre : d ++ (g ++ e :: (t ++ c :: s)) = (d ++ g) ++ ((e :: t) ++ c :: s) := by simp
    rw [hre, List.drop_left, show (d ++ g).length + 1 + t.length - (d ++ g).length =
      (e :: t).length by simp; omega, List.take_left]

/-! ## Stripping -/

theorem lstripLoop_eq (ct : Ctype α) (r : List α) (hr : ∀ c, r.head? = some c → ct.space c = false) :
    ∀ (a : List α) (fuel : Nat) (d : List α), (∀ c ∈ a, ct.space c = true) →
      (a ++ r).length ≤ fuel →
      lstripLoop ct (d ++ (a ++ r)) fuel d.length = .ok (d.length + a.length) := by
  intro a
  induction a with
  | nil =>
    intro fuel d _ hf
    rw [lstripLoop.eq_def]
    cases r with
    | nil => simp; rfl
    | cons c r =>
      cases fuel with
      | zero => simp at hf
      | succ fuel =>
        rw [if_pos (by simp)]
        simp only [List.nil_append, at_append]
        show (if _ then _ else _) = _
        rw [hr c rfl]; simp; rfl
  | cons c a ih =>
    intro fuel d ha hf
    rw [lstripLoop.eq_def, if_pos (by simp)]
    cases fuel with
    | zero => simp at hf
    | succ fuel =>
      simp only [List.cons_append, at_append]
      show (if _ then _ else _) = _
      rw [ha c (by simp)]
      have := ih fuel (d ++ [c]) (fun c hc => ha c (by simp [hc])) (by simp at hf ⊢; omega)
      simp only [List.append_assoc, List.length_append, List.length_singleton,
        List.singleton_append] at this
      simp only [if_true, this, List.length_cons]
      congr 1; omega

theorem lstrip_eq (ct : Ctype α) (a r : List α) (ha : ∀ c ∈ a, ct.space c = true)
    (hr : ∀ c, r.head? = some c → ct.space c = false) : lstrip ct (a ++ r) = .ok r := by
  have := lstripLoop_eq ct r hr a (a ++ r).length [] ha (by simp)
  simp only [List.nil_append, List.length_nil, Nat.zero_add] at this
  unfold lstrip
  rw [this, ok_bind]
  simp [erase]

theorem rstripLoop_eq (ct : Ctype α) (r : List α)
    (hr : ∀ c, r.getLast? = some c → ct.space c = false) :
    ∀ (n : Nat) (b e : List α), b.length = n → (∀ c ∈ b, ct.space c = true) →
      rstripLoop ct (r ++ b ++ e) (r.length + b.length) = .ok r.length := by
  intro n
  induction n with
  | zero =>
    intro b e hb _
    obtain rfl := List.length_eq_zero_iff.1 hb
    cases hl : r.getLast? with
    | none =>
      have : r = [] := by simpa using hl
      subst this; rfl
    | some c =>
      have hne : r ≠ [] := by rintro rfl; simp at hl
      have hd := List.dropLast_concat_getLast hne
      have hc := hr c hl
      rw [List.getLast?_eq_some_getLast hne] at hl
      have hl : r.getLast hne = c := by simpa using hl
      rw [hl] at hd
      rw [← hd]
      simp only [List.append_nil, List.length_append, List.length_singleton, List.length_nil,
        Nat.add_zero, List.append_assoc, List.singleton_append]
      rw [rstripLoop, at_append]
      show (if _ then _ else _) = _
      rw [hc]; rfl
  | succ n ih =>
    intro b e hb hsp
    have hne : b ≠ [] := by rintro rfl; simp at hb
    have hd := List.dropLast_concat_getLast hne
    obtain ⟨b', c, rfl⟩ : ∃ b' c, b = b' ++ [c] := ⟨_, _, hd.symm⟩
    have := ih b' (c :: e) (by simpa using hb) fun c hc => hsp c (by simp [hc])
    rw [List.length_append, List.length_singleton, ← Nat.add_assoc, rstripLoop]
    rw [show r ++ (b' ++ [c]) ++ e = (r ++ b') ++ c :: e by simp, ← List.length_append, at_append]
    show (if _ then _ else _) = _
    rw [hsp c (by simp), List.length_append]
    simpa using this

theorem rstrip_eq (ct : Ctype α) (r b : List α) (hb : ∀ c ∈ b, ct.space c = true)
    (hr : ∀ c, r.getLast? = some c → ct.space c = false) : rstrip ct (r ++ b) = .ok r := by
  have := rstripLoop_eq ct r hr b.length b [] rfl hb
  unfold rstrip
  rw [List.append_nil] at this
  rw [List.length_append, this, ok_bind]
  simp [erase]

theorem exists_lstripped (sp : α → Bool) (s : List α) :
    ∃ a r, s = a ++ r ∧ (∀ c ∈ a, sp c = true) ∧ ∀ c, r.head? = some c → sp c = false := by
  rcases span_cases (fun c => !sp c) s with h | ⟨a, c, b, rfl, ha, hc⟩
  · exact ⟨s, [], by simp, by simpa using h, by simp⟩
  · exact ⟨a, c :: b, rfl, by simpa using ha, by simpa using hc⟩

theorem exists_rstripped (sp : α → Bool) (s : List α) :
    ∃ r b, s = r ++ b ∧ (∀ c ∈ b, sp c = true) ∧ ∀ c, r.getLast? = some c → sp c = false := by
  obtain ⟨a, r, h, ha, hr⟩ := exists_lstripped sp s.reverse
  refine ⟨r.reverse, a.reverse, ?_, by simpa using ha, by simpa using hr⟩
  rw [← List.reverse_append, ← h, List.reverse_reverse]

end Pluto.Str
