import Verif.Spec.Log
import Mathlib.Tactic.ByContra
import Mathlib.Data.List.Nodup
import Mathlib.Data.List.Perm.Subperm

/-! # Files and rotation -/

namespace Pluto.Log
open Pluto.Spec.Log

/-! ## The file system -/

theorem read_remove_self (fs : Fs) (p : Path) : read (remove fs p) p = none := by
  unfold read remove
  simp only [Option.map_eq_none_iff, List.find?_eq_none, List.mem_filter, decide_eq_true_eq]
  intro x hx
  exact hx.2

theorem read_remove_other (fs : Fs) {p q : Path} (h : q ≠ p) : read (remove fs p) q = read fs q := by
  unfold read remove
  simp only
  congr 1
  induction fs.files with
  | nil => rfl
  | cons x xs ih =>
    by_cases hx : x.1 = p
    · have hq : ¬ x.1 = q := fun e => h (e.symm.trans hx)
      rw [List.filter_cons_of_neg (by simp [hx]), List.find?_cons_of_neg (by simp [hq]), ih]
    · simp only [ne_eq, hx, not_false_eq_true, decide_true, List.filter_cons_of_pos]
      by_cases hq : x.1 = q
      · simp [hq]
      · simp only [hq, decide_false, Bool.false_eq_true, not_false_eq_true, List.find?_cons_of_neg]
        simpa using ih

theorem read_store_self (fs : Fs) (p : Path) (c : List Chunk) : read (store fs p c) p = some c := by
  unfold read store
  simp

theorem read_store_other (fs : Fs) {p q : Path} (c : List Chunk) (h : q ≠ p) :
    read (store fs p c) q = read fs q := by
  rw [← read_remove_other fs h]
  unfold read store
  simp [Ne.symm h]

theorem read_store (fs : Fs) (p q : Path) (c : List Chunk) :
    read (store fs p c) q = if q = p then some c else read fs q := by
  split
  · rename_i h; subst h; exact read_store_self ..
  · rename_i h; exact read_store_other _ _ h

theorem read_remove (fs : Fs) (p q : Path) :
    read (remove fs p) q = if q = p then none else read fs q := by
  split
  · rename_i h; subst h; exact read_remove_self ..
  · rename_i h; exact read_remove_other _ h

theorem dirs_remove (fs : Fs) (p : Path) : (remove fs p).dirs = fs.dirs := rfl

theorem dirs_store (fs : Fs) (p : Path) (c : List Chunk) : (store fs p c).dirs = fs.dirs := rfl

theorem exists_iff {fs : Fs} {p : Path} : exists' fs p = true ↔ read fs p ≠ none := by
  unfold exists'
  cases read fs p <;> simp

theorem mem_of_read {fs : Fs} {p : Path} {c : List Chunk} (h : read fs p = some c) :
    p ∈ fs.files.map (·.1) := by
  unfold read at h
  rw [Option.map_eq_some_iff] at h
  obtain ⟨x, hx, -⟩ := h
  have h1 := List.find?_some hx
  have h2 := List.mem_of_find?_eq_some hx
  simp only [decide_eq_true_eq] at h1
  exact List.mem_map.2 ⟨x, h2, h1⟩

/-! ## Paths -/

theorem extension_suffix (name : List Char) : ∃ a, name = a ++ extension name := by
  unfold extension
  split
  · exact ⟨name, (List.append_nil _).symm⟩
  · simp only
    split
    · exact ⟨_, (List.take_append_drop _ name).symm⟩
    · exact ⟨name, (List.append_nil _).symm⟩

theorem stem_extension (name : List Char) : stem name ++ extension name = name := by
  obtain ⟨a, ha⟩ := extension_suffix name
  have : stem name = a := by
    unfold stem
    conv_lhs => rw [ha]
    rw [List.length_append, ← ha, Nat.add_sub_cancel, ]
    conv_lhs => rw [ha]
    simp
  rw [this, ← ha]

theorem pathAt_zero (p : Path) : pathAt p 0 = p := by
  unfold pathAt
  simp only [if_true, List.append_nil, stem_extension]

theorem toString_inj {m n : Nat} (h : toString m = toString n) : m = n := by
  unfold toString at h
  rw [← Nat.ofDigitChars_ten_toDigits (n := m), h, Nat.ofDigitChars_ten_toDigits]

theorem pathAt_inj {p : Path} {i j : Nat} (h : pathAt p i = pathAt p j) : i = j := by
  unfold pathAt at h
  simp only [Path.mk.injEq, true_and, List.append_assoc, List.append_cancel_left_eq,
    List.append_cancel_right_eq] at h
  split at h <;> split at h
  · omega
  · simp at h
  · simp at h
  · simp only [List.cons.injEq, true_and] at h
    exact toString_inj h

theorem pathAt_ne {p : Path} {i j : Nat} (h : i ≠ j) : pathAt p i ≠ pathAt p j :=
  fun e => h (pathAt_inj e)

/-! ## The first loop -/

/-- There are at most as many consecutive files as files. -/
theorem consecutive_le {fs : Fs} {p : Path} {k : Nat} (h : ∀ i < k, read fs (pathAt p i) ≠ none) :
    k ≤ fs.files.length := by
  have hn : ((List.range k).map (pathAt p)).Nodup := by
    exact List.Nodup.map (fun _ _ => pathAt_inj) List.nodup_range
  have hs : (List.range k).map (pathAt p) ⊆ fs.files.map (·.1) := by
    intro q hq
    rw [List.mem_map] at hq
    obtain ⟨i, hi, rfl⟩ := hq
    rw [List.mem_range] at hi
    have := h i hi
    cases hc : read fs (pathAt p i) with
    | none => exact absurd hc this
    | some c => exact mem_of_read hc
  have := (List.subperm_of_subset hn hs).length_le
  simpa using this

/-- There is a first number without a file. -/
theorem exists_first (fs : Fs) (p : Path) :
    ∃ k, (∀ i < k, read fs (pathAt p i) ≠ none) ∧ read fs (pathAt p k) = none := by
  by_contra hno
  have : ∀ k, ∀ i < k, read fs (pathAt p i) ≠ none := by
    intro k
    induction k with
    | zero => intro i hi; omega
    | succ k ih =>
      intro i hi
      by_cases hik : i = k
      · subst hik
        intro hn
        exact hno ⟨i, ih, hn⟩
      · exact ih i (by omega)
  have := consecutive_le (this (fs.files.length + 1))
  omega

/-- The first loop from number `i` on, if nothing fails. -/
theorem scanFiles_spec {f : RotateFaults} {p : Path} {limit k : Nat} (hf : f.scan = none) :
    ∀ {fuel i : Nat} {fs : Fs}, i ≤ k → k - i < fuel →
      (∀ j, i ≤ j → j < k → read fs (pathAt p j) ≠ none) → read fs (pathAt p k) = none →
      ∃ fs', scanFiles f p limit fuel i (min i limit) fs = (fs', some (min k limit)) ∧
        fs'.dirs = fs.dirs ∧
        (∀ j, i ≤ j → limit ≤ j → j < k → read fs' (pathAt p j) = none) ∧
        ∀ q, (∀ j, i ≤ j → limit ≤ j → j < k → q ≠ pathAt p j) → read fs' q = read fs q := by
  intro fuel
  induction fuel with
  | zero => intro i fs _ h; omega
  | succ fuel ih =>
    intro i fs hik hfuel hex hk
    unfold scanFiles
    rw [hf]
    by_cases hi : i = k
    · subst hi
      refine ⟨fs, ?_, rfl, fun j _ _ _ => by omega, fun q _ => rfl⟩
      simp [exists', hk]
    · have he : exists' fs (pathAt p i) = true := exists_iff.2 (hex i (by omega) (by omega))
      simp only [reduceCtorEq, if_false, he, Bool.not_true, Bool.false_eq_true]
      by_cases hl : i < limit
      · rw [if_pos hl]
        have hm : min i limit + 1 = min (i + 1) limit := by omega
        rw [hm]
        obtain ⟨fs', h1, h2, h3, h4⟩ := ih (i := i + 1) (fs := fs) (by omega) (by omega)
          (fun j hj hjk => hex j (by omega) hjk) hk
        exact ⟨fs', h1, h2, fun j _ hj hjk => h3 j (by omega) hj hjk,
          fun q hq => h4 q fun j hj => hq j (by omega)⟩
      · rw [if_neg hl]
        have hm : min i limit = min (i + 1) limit := by omega
        rw [hm]
        have hne : ∀ j, i + 1 ≤ j → pathAt p j ≠ pathAt p i := fun j hj => pathAt_ne (by omega)
        obtain ⟨fs', h1, h2, h3, h4⟩ := ih (i := i + 1) (fs := remove fs (pathAt p i)) (by omega)
          (by omega)
          (fun j hj hjk => by rw [read_remove_other _ (hne j hj)]; exact hex j (by omega) hjk)
          (by rw [read_remove_other _ (hne k (by omega))]; exact hk)
        refine ⟨fs', h1, h2, ?_, ?_⟩
        · intro j hij hj hjk
          by_cases hj' : j = i
          · subst hj'
            rw [h4 _ (fun m hm _ _ => pathAt_ne (by omega)), read_remove_self]
          · exact h3 j (by omega) hj hjk
        · intro q hq
          rw [h4 q (fun j hj => hq j (by omega)),
            read_remove_other _ (hq i (Nat.le_refl _) (by omega) (by omega))]

/-- The fuel of the first loop is never used up: the loop does not depend on it. -/
theorem scanFiles_fuel {f : RotateFaults} {p : Path} {limit : Nat} {k : Nat} :
    ∀ {fuel fuel' i n : Nat} {fs : Fs}, k - i < fuel → k - i < fuel' → i ≤ k →
      read fs (pathAt p k) = none →
      scanFiles f p limit fuel i n fs = scanFiles f p limit fuel' i n fs := by
  intro fuel
  induction fuel with
  | zero => intro _ i n fs h; omega
  | succ fuel ih =>
    intro fuel' i n fs h h' hik hk
    cases fuel' with
    | zero => omega
    | succ fuel' =>
      unfold scanFiles
      by_cases hs : f.scan = some i
      · rw [if_pos hs, if_pos hs]
      · rw [if_neg hs, if_neg hs]
        by_cases he : exists' fs (pathAt p i) = true
        · have hne : i ≠ k := by
            intro e; subst e; exact exists_iff.1 he hk
          simp only [he, Bool.not_true, Bool.false_eq_true, if_false]
          by_cases hl : i < limit
          · rw [if_pos hl, if_pos hl]
            exact ih (by omega) (by omega) (by omega) hk
          · rw [if_neg hl, if_neg hl]
            refine ih (by omega) (by omega) (by omega) ?_
            rw [read_remove_other _ (pathAt_ne (by omega))]
            exact hk
        · simp only [Bool.not_eq_true] at he
          simp [he]

/-- The second loop, if nothing fails. -/
theorem renameFiles_spec {f : RotateFaults} {p : Path} (hf : f.rename = none) :
    ∀ {m : Nat} {fs : Fs}, (∀ i < m, read fs (pathAt p i) ≠ none) →
      ∃ fs', renameFiles f p m fs = (fs', true) ∧ fs'.dirs = fs.dirs ∧
        (∀ q, (∀ i ≤ m, q ≠ pathAt p i) → read fs' q = read fs q) ∧
        (∀ i, i < m → read fs' (pathAt p (i + 1)) = read fs (pathAt p i)) ∧
        (0 < m → read fs' (pathAt p 0) = none) := by
  intro m
  induction m with
  | zero => intro fs _; exact ⟨fs, rfl, rfl, fun _ _ => rfl, fun i hi => by omega, fun h => by omega⟩
  | succ m ih =>
    intro fs hex
    have hm := hex m (by omega)
    cases hc : read fs (pathAt p m) with
    | none => exact absurd hc hm
    | some c =>
      have hr : rename fs (pathAt p m) (pathAt p (m + 1)) =
          (store (remove fs (pathAt p m)) (pathAt p (m + 1)) c, true) := by
        unfold rename; rw [hc]
      have hread : ∀ q, read (store (remove fs (pathAt p m)) (pathAt p (m + 1)) c) q =
          if q = pathAt p (m + 1) then some c else if q = pathAt p m then none else read fs q := by
        intro q; rw [read_store, read_remove]
      obtain ⟨fs', h1, h2, h3, h4, h5⟩ := ih
        (fs := store (remove fs (pathAt p m)) (pathAt p (m + 1)) c) (by
          intro i hi
          rw [hread, if_neg (pathAt_ne (by omega)), if_neg (pathAt_ne (by omega))]
          exact hex i (by omega))
      refine ⟨fs', ?_, h2, ?_, ?_, ?_⟩
      · unfold renameFiles
        rw [hf]
        simp only [reduceCtorEq, if_false, hr]
        exact h1
      · intro q hq
        rw [h3 q (fun i hi => hq i (by omega)), hread, if_neg (hq _ (Nat.le_refl _)),
          if_neg (hq m (by omega))]
      · intro i hi
        by_cases him : i = m
        · subst him
          rw [h3 _ (fun j hj => pathAt_ne (by omega)), hread, if_pos rfl, hc]
        · rw [h4 i (by omega), hread, if_neg (pathAt_ne (by omega)), if_neg (pathAt_ne (by omega))]
      · intro _
        by_cases h0 : 0 < m
        · exact h5 h0
        · have : m = 0 := by omega
          subst this
          unfold renameFiles at h1
          simp only [Prod.mk.injEq, and_true] at h1
          rw [← h1, hread, if_neg (pathAt_ne (by omega)), if_pos rfl]

/-- `rotate_file`, if nothing fails. -/
theorem rotate_spec {f : RotateFaults} {p : Path} {limit k : Nat} {fs : Fs} (hs : f.scan = none)
    (hr : f.rename = none) (hex : ∀ i < k, read fs (pathAt p i) ≠ none)
    (hk : read fs (pathAt p k) = none) :
    ∃ fs', rotate f p limit fs = (fs', true) ∧ fs'.dirs = fs.dirs ∧
      (∀ q, (∀ i, q ≠ pathAt p i) → read fs' q = read fs q) ∧
      ∀ i, read fs' (pathAt p i) = rotated (fun i => read fs (pathAt p i)) k limit i := by
  have hle := consecutive_le hex
  obtain ⟨fs₁, h1, h2, h3, h4⟩ := scanFiles_spec (f := f) (limit := limit) (fuel := fs.files.length + 1)
    (i := 0) (fs := fs) (k := k) hs (Nat.zero_le _) (by omega) (fun j _ hj => hex j hj) hk
  have hread : ∀ i, read fs₁ (pathAt p i) =
      if limit ≤ i ∧ i < k then none else read fs (pathAt p i) := by
    intro i
    split
    · rename_i h; exact h3 i (Nat.zero_le _) h.1 h.2
    · rename_i h
      exact h4 _ fun j _ hj hjk => pathAt_ne (by rintro rfl; exact h ⟨hj, hjk⟩)
  obtain ⟨fs₂, g1, g2, g3, g4, g5⟩ := renameFiles_spec (f := f) (p := p) hr (m := min k limit)
    (fs := fs₁) (by
      intro i hi
      rw [hread, if_neg (by omega)]
      exact hex i (by omega))
  refine ⟨fs₂, ?_, g2.trans h2, ?_, ?_⟩
  · unfold rotate
    rw [Nat.zero_min] at h1
    rw [h1]
    exact g1
  · intro q hq
    rw [g3 q (fun i _ => hq i), h4 q (fun j _ _ _ => hq j)]
  · intro i
    unfold rotated
    by_cases hi : i = 0
    · subst hi
      rw [if_pos rfl]
      by_cases hm : 0 < min k limit
      · exact g5 hm
      · have h0 : min k limit = 0 := by omega
        rw [h0] at g1
        unfold renameFiles at g1
        simp only [Prod.mk.injEq, and_true] at g1
        rw [← g1, hread]
        split
        · rfl
        · have : k = 0 := by omega
          subst this; exact hk
    · rw [if_neg hi]
      by_cases hm : i ≤ min k limit
      · rw [if_pos (by omega)]
        have := g4 (i - 1) (by omega)
        rw [show i - 1 + 1 = i by omega] at this
        rw [this, hread, if_neg (by omega)]
      · rw [if_neg (by omega), g3 _ (fun j hj => pathAt_ne (by omega)), hread]
        by_cases hik : i ≤ k
        · rw [if_pos hik]
          by_cases hik' : i < k
          · rw [if_pos (by omega)]
          · have : i = k := by omega
            subst this
            rw [if_neg (by omega), hk]
        · rw [if_neg hik, if_neg (by omega)]

end Pluto.Log
