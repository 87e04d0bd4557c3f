import Verif.Proofs.LogIo

/-! # Rotation, also when it fails -/

namespace Pluto.Log
open Pluto.Spec.Log

theorem carried_refl (p : Path) (keep : Nat → Prop) (fs : Fs) : Carried p keep fs fs some where
  contents _ := rfl
  order i j i' j' h h' hlt := by cases h; cases h'; exact hlt
  older i j h := by cases h; exact Nat.le_refl _
  kept j _ _ := ⟨j, rfl⟩
  others _ _ := rfl

theorem carried_trans {p : Path} {keep : Nat → Prop} {fs fs' fs'' : Fs} {f g : Nat → Option Nat}
    (h : Carried p keep fs fs' f) (h' : Carried p (fun _ => True) fs' fs'' g) :
    Carried p keep fs fs'' fun i => (g i).bind f where
  contents i := by
    rw [h'.contents]
    cases hg : g i with
    | none => rfl
    | some j => simp only [Option.bind_some]; rw [h.contents]
  order i j i' j' h1 h2 hlt := by
    cases hg : g i with
    | none => rw [hg] at h1; cases h1
    | some a =>
      cases hg' : g i' with
      | none => rw [hg'] at h2; cases h2
      | some b =>
        rw [hg] at h1
        rw [hg'] at h2
        exact h.order a j b j' h1 h2 (h'.order i a i' b hg hg' hlt)
  older i j h1 := by
    cases hg : g i with
    | none => rw [hg] at h1; cases h1
    | some a =>
      rw [hg] at h1
      exact Nat.le_trans (h.older a j h1) (h'.older i a hg)
  kept j hk hr := by
    obtain ⟨a, ha⟩ := h.kept j hk hr
    have : read fs' (pathAt p a) ≠ none := by rw [h.contents, ha]; exact hr
    obtain ⟨i, hi⟩ := h'.kept a trivial this
    exact ⟨i, by rw [hi]; exact ha⟩
  others q hq := by rw [h'.others q hq, h.others q hq]

/-- Removing a file that need not be kept. -/
theorem carried_remove {p : Path} {limit i : Nat} (fs : Fs) (hi : limit ≤ i) :
    Carried p (· < limit) fs (remove fs (pathAt p i)) fun k => if k = i then none else some k where
  contents k := by
    rw [read_remove]
    by_cases hk : k = i
    · subst hk; simp
    · simp [hk, pathAt_ne hk]
  order a j a' j' h h' hlt := by
    split at h
    · cases h
    · split at h'
      · cases h'
      · cases h; cases h'; exact hlt
  older a j h := by
    split at h
    · cases h
    · cases h; exact Nat.le_refl _
  kept j hj _ := ⟨j, if_neg (by omega)⟩
  others q hq := read_remove_other _ (hq i)

theorem carried_rename {p : Path} {i : Nat} {c : List Chunk} {fs : Fs} (hc : read fs (pathAt p i) = some c)
    (hf : read fs (pathAt p (i + 1)) = none) :
    Carried p (fun _ => True) fs (store (remove fs (pathAt p i)) (pathAt p (i + 1)) c)
      fun k => if k = i then none else if k = i + 1 then some i else some k where
  contents k := by
    rw [read_store, read_remove]
    by_cases h1 : k = i + 1
    · subst h1; simp [hc]
    · by_cases h2 : k = i
      · subst h2; simp [pathAt_ne h1]
      · simp [h1, h2, pathAt_ne h1, pathAt_ne h2]
  order a j a' j' h h' hlt := by
    split at h
    · cases h
    · split at h'
      · cases h'
      · split at h <;> split at h' <;> cases h <;> cases h' <;> omega
  older a j h := by
    split at h
    · cases h
    · split at h <;> cases h <;> omega
  kept j _ hr := by
    by_cases h : j = i
    · subst h; exact ⟨j + 1, by simp⟩
    · by_cases h1 : j = i + 1
      · subst h1; exact absurd hf hr
      · exact ⟨j, by simp [h, h1]⟩
  others q hq := by rw [read_store_other _ _ (hq (i + 1)), read_remove_other _ (hq i)]

theorem renameFiles_carried {f : RotateFaults} {p : Path} :
    ∀ {m : Nat} {fs fs' : Fs} {b : Bool}, read fs (pathAt p m) = none →
      renameFiles f p m fs = (fs', b) → ∃ source, Carried p (fun _ => True) fs fs' source := by
  intro m
  induction m with
  | zero => intro fs fs' b _ h; cases h; exact ⟨_, carried_refl ..⟩
  | succ i ih =>
    intro fs fs' b hm h
    unfold renameFiles at h
    split at h
    · cases h; exact ⟨_, carried_refl ..⟩
    · unfold rename at h
      cases hc : read fs (pathAt p i) with
      | none => rw [hc] at h; cases h; exact ⟨_, carried_refl ..⟩
      | some c =>
        rw [hc] at h
        simp only at h
        have h1 := carried_rename hc hm
        obtain ⟨g, h2⟩ := ih (by rw [read_store_other _ _ (pathAt_ne (by omega)), read_remove_self]) h
        exact ⟨_, carried_trans h1 h2⟩

theorem carried_keep {p : Path} {keep : Nat → Prop} {fs fs' fs'' : Fs} {f g : Nat → Option Nat}
    (h : Carried p keep fs fs' f) (hid : ∀ j, keep j → f j = some j) (h' : Carried p keep fs' fs'' g)  :
    Carried p keep fs fs'' fun i => (g i).bind f where
  contents i := by
    rw [h'.contents]
    cases hg : g i with
    | none => rfl
    | some j => simp only [Option.bind_some]; rw [h.contents]
  order i j i' j' h1 h2 hlt := by
    cases hg : g i with
    | none => rw [hg] at h1; cases h1
    | some a =>
      cases hg' : g i' with
      | none => rw [hg'] at h2; cases h2
      | some b =>
        rw [hg] at h1
        rw [hg'] at h2
        exact h.order a j b j' h1 h2 (h'.order i a i' b hg hg' hlt)
  older i j h1 := by
    cases hg : g i with
    | none => rw [hg] at h1; cases h1
    | some a =>
      rw [hg] at h1
      exact Nat.le_trans (h.older a j h1) (h'.older i a hg)
  kept j hk hr := by
    have : read fs' (pathAt p j) ≠ none := by rw [h.contents, hid j hk]; exact hr
    obtain ⟨i, hi⟩ := h'.kept j hk this
    exact ⟨i, by rw [hi]; exact hid j hk⟩
  others q hq := by rw [h'.others q hq, h.others q hq]

theorem scanFiles_carried {f : RotateFaults} {p : Path} {limit : Nat} :
    ∀ {fuel i n : Nat} {fs fs' : Fs} {r : Option Nat}, scanFiles f p limit fuel i n fs = (fs', r) →
      ∃ source, Carried p (· < limit) fs fs' source := by
  intro fuel
  induction fuel with
  | zero => intro i n fs fs' r h; cases h; exact ⟨_, carried_refl ..⟩
  | succ fuel ih =>
    intro i n fs fs' r h
    unfold scanFiles at h
    split at h
    · cases h; exact ⟨_, carried_refl ..⟩
    · split at h
      · cases h; exact ⟨_, carried_refl ..⟩
      · split at h
        · exact ih h
        · obtain ⟨g, h2⟩ := ih h
          refine ⟨_, carried_keep (carried_remove fs (Nat.le_of_not_lt ‹_›)) ?_ h2⟩
          intro j hj
          exact if_neg (by omega)

/-- Rotation, whatever fails, only removes files beyond the limit. -/
theorem rotate_carried {f : RotateFaults} {p : Path} {limit : Nat} {fs fs' : Fs} {b : Bool}
    (h : rotate f p limit fs = (fs', b)) : ∃ source, Carried p (· < limit) fs fs' source := by
  unfold rotate at h
  rcases hs : scanFiles f p limit (fs.files.length + 1) 0 0 fs with ⟨fs₁, r⟩
  rw [hs] at h
  obtain ⟨g, h1⟩ := scanFiles_carried hs
  have h3 := scanFiles_shift (f := f) (p := p) (limit := limit) (i := 0) (fs := fs) (fs' := fs₁) (r := r)
    (fuel := fs.files.length + 1) (fun h => by omega) (by rw [Nat.zero_min]; exact hs)
  cases r with
  | none => cases h; exact ⟨g, h1⟩
  | some m =>
    obtain ⟨g', h2⟩ := renameFiles_carried (h3.2 m rfl).2 h
    exact ⟨_, carried_trans h1 h2⟩

/-! ## Names -/

theorem takeWhile_dot {ext : List Char} (he : '.' ∉ ext) (r : List Char) :
    (ext.reverse ++ '.' :: r).takeWhile (· ≠ '.') = ext.reverse := by
  rw [List.takeWhile_append_of_pos (by
    intro c hc
    have : c ≠ '.' := fun h => he (by rw [← h]; exact List.mem_reverse.1 hc)
    simpa using this)]
  simp

theorem extension_dot (base ext : List Char) (hb : base ≠ []) (he : '.' ∉ ext)
    (hne : base ++ '.' :: ext ≠ ['.', '.']) :
    extension (base ++ '.' :: ext) = '.' :: ext ∧ stem (base ++ '.' :: ext) = base := by
  have h1 : extension (base ++ '.' :: ext) = '.' :: ext := by
    unfold extension
    rw [if_neg hne]
    have hrev : (base ++ '.' :: ext).reverse = ext.reverse ++ '.' :: base.reverse := by simp
    simp only [hrev, takeWhile_dot he]
    have : 0 < base.length := List.length_pos_iff.2 hb
    rw [if_pos (by simp; omega)]
    simp only [List.length_append, List.length_cons, List.length_reverse]
    rw [show base.length + (ext.length + 1) - ext.length - 1 = base.length by omega, List.drop_left]
  refine ⟨h1, ?_⟩
  unfold stem
  rw [h1]
  simp

theorem extension_none (base : List Char) (hb : '.' ∉ base) : extension base = [] ∧ stem base = base := by
  have h1 : extension base = [] := by
    unfold extension
    split
    · rfl
    · have : base.reverse.takeWhile (· ≠ '.') = base.reverse := by
        have h := List.takeWhile_append_of_pos (p := fun x => decide (x ≠ '.')) (l₁ := base.reverse) (l₂ := []) (by
          intro c hc
          have : c ≠ '.' := fun h => hb (by rw [← h]; exact List.mem_reverse.1 hc)
          simpa using this)
        simpa using h
      simp only [this]
      rw [if_neg (by simp)]
  refine ⟨h1, ?_⟩
  unfold stem
  rw [h1]
  simp

theorem pathAt_name (d base ext : List Char) (hb : base ≠ []) (he : '.' ∉ ext)
    (hne : base ++ '.' :: ext ≠ ['.', '.']) (i : Nat) :
    pathAt ⟨d, base ++ '.' :: ext⟩ (i + 1) = ⟨d, base ++ '_' :: (Nat.repr (i + 1)).toList ++ '.' :: ext⟩ ∧
    ('.' ∉ base → pathAt ⟨d, base⟩ (i + 1) = ⟨d, base ++ '_' :: (Nat.repr (i + 1)).toList⟩) := by
  have hr : (Nat.repr (i + 1)).toList = toString (i + 1) := by
    unfold Nat.repr toString
    exact String.toList_ofList
  obtain ⟨h1, h2⟩ := extension_dot base ext hb he hne
  rw [hr]
  refine ⟨?_, fun hbase => ?_⟩
  · unfold pathAt
    simp only [h1, h2]
    rw [if_neg (by omega)]
  · obtain ⟨h3, h4⟩ := extension_none base hbase
    unfold pathAt
    simp only [h3, h4]
    rw [if_neg (by omega), List.append_nil]

theorem pathAt_hidden (d base : List Char) (hb : '.' ∉ base) (i : Nat) :
    pathAt ⟨d, '.' :: base⟩ (i + 1) = ⟨d, '.' :: base ++ '_' :: (Nat.repr (i + 1)).toList⟩ := by
  have hr : (Nat.repr (i + 1)).toList = toString (i + 1) := by
    unfold Nat.repr toString
    exact String.toList_ofList
  have ht : ('.' :: base).reverse.takeWhile (· ≠ '.') = base.reverse := by
    rw [List.reverse_cons, List.takeWhile_append_of_pos (by
      intro c hc
      simp only [decide_eq_true_eq]
      rintro rfl
      exact hb (List.mem_reverse.1 hc))]
    simp
  have he : extension ('.' :: base) = [] := by
    unfold extension
    by_cases h : '.' :: base = ['.', '.']
    · rw [if_pos h]
    · rw [if_neg h]
      simp only [ht]
      rw [if_neg (by simp)]
  rw [hr]
  unfold pathAt stem
  simp only [he]
  rw [if_neg (by omega)]
  simp

end Pluto.Log
