import Verif.Model.LogCfg
import Mathlib.Data.List.Count

/-! # Lemmas about replacing a writer of the logger -/

namespace Pluto.LogCfg

def inside : User → Bool
  | .setting _ => true
  | .getting => true
  | _ => false

def threadInside : Phase → Nat
  | .copying => 1
  | _ => 0

theorem countP_set {us : List User} {i : Nat} {x : User} (y : User) (h : us[i]? = some x) :
    (us.set i y).countP inside + (inside x).toNat = us.countP inside + (inside y).toNat := by
  induction us generalizing i with
  | nil => simp at h
  | cons w us ih =>
    cases i with
    | zero =>
      simp only [List.getElem?_cons_zero, Option.some.injEq] at h
      subst h
      simp only [List.set_cons_zero, List.countP_cons]
      cases inside w <;> cases inside y <;> simp
    | succ i =>
      simp only [List.getElem?_cons_succ] at h
      have := ih h
      simp only [List.set_cons_succ, List.countP_cons]
      omega

/-- The threads that access `m_logWriter`. -/
theorem exclusive {s : State} (h : Reachable s) :
    s.users.countP inside + threadInside s.thread = s.locked.toNat := by
  induction h with
  | init => rfl
  | @step s s' ev _ hs ih =>
    cases ev with
    | thread =>
      simp only [step] at hs
      split at hs
      · split at hs
        · cases hs
        · rename_i ht hl
          cases hs
          have hl : s.locked = false := by simpa using hl
          simp only [ht, threadInside, hl, Bool.toNat_false, Bool.toNat_true] at ih ⊢
          omega
      · rename_i ht
        cases hs
        cases hl : s.locked <;> simp only [ht, threadInside, hl, Bool.toNat_false, Bool.toNat_true] at ih ⊢ <;> omega
      · rename_i w ht
        cases hs
        simpa [ht, threadInside] using ih
      · rename_i w ht
        cases hs
        simpa [ht, threadInside] using ih
    | callSet w => cases hs; simpa [inside] using ih
    | callGet => cases hs; simpa [inside] using ih
    | user i =>
      simp only [step] at hs
      split at hs
      · rename_i w hi
        split at hs
        · cases hs
        · rename_i hl
          cases hs
          have := countP_set (.setting w) hi
          have hl : s.locked = false := by simpa using hl
          simp only [inside, hl, Bool.toNat_false, Bool.toNat_true] at this ih ⊢
          omega
      · rename_i w hi
        cases hs
        have := countP_set (.hasSet w) hi
        cases hl : s.locked <;> simp only [inside, hl, Bool.toNat_false, Bool.toNat_true] at this ih ⊢ <;> omega
      · rename_i hi
        split at hs
        · cases hs
        · rename_i hl
          cases hs
          have := countP_set .getting hi
          have hl : s.locked = false := by simpa using hl
          simp only [inside, hl, Bool.toNat_false, Bool.toNat_true] at this ih ⊢
          omega
      · rename_i hi
        cases hs
        have := countP_set (.hasGot s.writer) hi
        cases hl : s.locked <;> simp only [inside, hl, Bool.toNat_false, Bool.toNat_true] at this ih ⊢ <;> omega
      · cases hs

/-- Whether the logging thread has a copy of `w` that it has not called yet. -/
def pending (w : Nat) : Phase → Nat
  | .copied v => if v = w then 1 else 0
  | _ => 0

theorem later {s s' : State} {evs : List Event} {w : Nat} (hr : run s evs = some s')
    (hw : s.writer ≠ w) (hu : ∀ u ∈ s.users, u ≠ .wantsSet w ∧ u ≠ .setting w)
    (hev : Event.callSet w ∉ evs) :
    s.called.count w ≤ s'.called.count w ∧
      s'.called.count w + pending w s'.thread ≤ s.called.count w + pending w s.thread := by
  induction evs generalizing s with
  | nil => cases hr; exact ⟨Nat.le_refl _, Nat.le_refl _⟩
  | cons e es ih =>
    simp only [run] at hr
    split at hr
    · rename_i s1 h1
      have hes : Event.callSet w ∉ es := fun h => hev (List.mem_cons_of_mem _ h)
      have key : s1.writer ≠ w ∧ (∀ u ∈ s1.users, u ≠ .wantsSet w ∧ u ≠ .setting w) ∧
          s.called.count w ≤ s1.called.count w ∧
          s1.called.count w + pending w s1.thread ≤ s.called.count w + pending w s.thread := by
        have set_ok : ∀ (i : Nat) (y : User), y ≠ .wantsSet w ∧ y ≠ .setting w →
            ∀ u ∈ s.users.set i y, u ≠ .wantsSet w ∧ u ≠ .setting w := by
          intro i y hy u hm
          rcases List.mem_or_eq_of_mem_set hm with h | h
          · exact hu u h
          · rw [h]; exact hy
        cases e with
        | thread =>
          simp only [step] at h1
          split at h1
          · split at h1
            · cases h1
            · rename_i ht _
              cases h1; exact ⟨hw, hu, Nat.le_refl _, by simp [ht, pending]⟩
          · rename_i ht
            cases h1; exact ⟨hw, hu, Nat.le_refl _, by simp [ht, pending, hw]⟩
          · rename_i v ht
            cases h1
            refine ⟨hw, hu, by simp [List.count_append], ?_⟩
            simp only [ht, pending, List.count_append, List.count_singleton, beq_iff_eq]
            omega
          · rename_i v ht
            cases h1; exact ⟨hw, hu, Nat.le_refl _, by simp [ht, pending]⟩
        | callSet v =>
          cases h1
          refine ⟨hw, ?_, Nat.le_refl _, Nat.le_refl _⟩
          intro u hm
          rcases List.mem_append.1 hm with h | h
          · exact hu u h
          · simp only [List.mem_singleton] at h
            subst h
            have : v ≠ w := fun h => hev (h ▸ List.mem_cons_self ..)
            simp [this]
        | callGet =>
          cases h1
          refine ⟨hw, ?_, Nat.le_refl _, Nat.le_refl _⟩
          intro u hm
          rcases List.mem_append.1 hm with h | h
          · exact hu u h
          · simp only [List.mem_singleton] at h
            subst h
            simp
        | user i =>
          simp only [step] at h1
          split at h1
          · rename_i v hi
            split at h1
            · cases h1
            · cases h1
              have := (hu _ (List.mem_of_getElem? hi)).1
              exact ⟨hw, set_ok i _ ⟨by simp, by rintro ⟨⟩; exact this rfl⟩, Nat.le_refl _, Nat.le_refl _⟩
          · rename_i v hi
            cases h1
            have := (hu _ (List.mem_of_getElem? hi)).2
            exact ⟨by rintro rfl; exact this rfl, set_ok i _ (by simp), Nat.le_refl _, Nat.le_refl _⟩
          · split at h1
            · cases h1
            · cases h1; exact ⟨hw, set_ok i _ (by simp), Nat.le_refl _, Nat.le_refl _⟩
          · cases h1; exact ⟨hw, set_ok i _ (by simp), Nat.le_refl _, Nat.le_refl _⟩
          · cases h1
      have := ih hr key.1 key.2.1 hes
      omega
    · cases hr

/-- What has been assigned since `n` assignments had been made, when `v` was current. -/
def Recent (v n : Nat) (s : State) (w : Nat) : Prop := w = v ∨ w ∈ s.assigned.drop n

/-- What is known when `n` assignments and `m` calls have been made while `v` was current. -/
structure Since (v n m : Nat) (b : Prop) (i : Nat) (s : State) : Prop where
  assigned : n ≤ s.assigned.length
  called : m ≤ s.called.length
  writer : Recent v n s s.writer
  copied : b → ∀ w, s.thread = .copied w → Recent v n s w
  calls : b → ∀ w ∈ s.called.drop m, Recent v n s w
  user : s.users[i]? = none ∨ s.users[i]? = some .wantsGet ∨ s.users[i]? = some .getting ∨
    (∃ w, s.users[i]? = some (.hasGot w) ∧ Recent v n s w) ∨
    (∃ w, s.users[i]? = some (.wantsSet w) ∨ s.users[i]? = some (.setting w) ∨ s.users[i]? = some (.hasSet w))

theorem since_step {v n m i : Nat} {b : Prop} {s s' : State} {ev : Event} (h : Since v n m b i s)
    (hs : step s ev = some s') : Since v n m b i s' := by
  obtain ⟨h1, h2, h3, h4, h5, h6⟩ := h
  have hset : ∀ (j : Nat) (x y : User), s.users[j]? = some x → (j = i → y = .getting ∨ (∃ w, y = .hasGot w ∧ Recent v n s w) ∨
      ∃ w, y = .setting w ∨ y = .hasSet w) →
      (s.users.set j y)[i]? = none ∨ (s.users.set j y)[i]? = some .wantsGet ∨ (s.users.set j y)[i]? = some .getting ∨
    (∃ w, (s.users.set j y)[i]? = some (.hasGot w) ∧ Recent v n s w) ∨
    (∃ w, (s.users.set j y)[i]? = some (.wantsSet w) ∨ (s.users.set j y)[i]? = some (.setting w) ∨
      (s.users.set j y)[i]? = some (.hasSet w)) := by
    intro j x y hj hy
    by_cases hji : j = i
    · subst hji
      have : (s.users.set j y)[j]? = some y := by
        rw [List.getElem?_set_self]
        exact (List.getElem?_eq_some_iff.1 hj).1
      rw [this]
      rcases hy rfl with rfl | ⟨w, rfl, hw⟩ | ⟨w, rfl | rfl⟩
      · exact .inr (.inr (.inl rfl))
      · exact .inr (.inr (.inr (.inl ⟨w, rfl, hw⟩)))
      · exact .inr (.inr (.inr (.inr ⟨w, .inr (.inl rfl)⟩)))
      · exact .inr (.inr (.inr (.inr ⟨w, .inr (.inr rfl)⟩)))
    · rw [List.getElem?_set_ne hji]; exact h6
  have happ : ∀ u : User, (u = .wantsGet ∨ ∃ w, u = .wantsSet w) →
      (s.users ++ [u])[i]? = none ∨ (s.users ++ [u])[i]? = some .wantsGet ∨ (s.users ++ [u])[i]? = some .getting ∨
    (∃ w, (s.users ++ [u])[i]? = some (.hasGot w) ∧ Recent v n s w) ∨
    (∃ w, (s.users ++ [u])[i]? = some (.wantsSet w) ∨ (s.users ++ [u])[i]? = some (.setting w) ∨
      (s.users ++ [u])[i]? = some (.hasSet w)) := by
    intro u hu
    rcases Nat.lt_trichotomy i s.users.length with h | h | h
    · rw [List.getElem?_append_left h]; exact h6
    · subst h
      have : (s.users ++ [u])[s.users.length]? = some u := by simp
      rw [this]
      rcases hu with rfl | ⟨w, rfl⟩
      · exact .inr (.inl rfl)
      · exact .inr (.inr (.inr (.inr ⟨w, .inl rfl⟩)))
    · left; simp; omega
  cases ev with
  | thread =>
    simp only [step] at hs
    split at hs
    · split at hs
      · cases hs
      · cases hs; exact ⟨h1, h2, h3, by simp, h5, h6⟩
    · cases hs; exact ⟨h1, h2, h3, by rintro - w ⟨⟩; exact h3, h5, h6⟩
    · rename_i w ht
      cases hs
      refine ⟨h1, by simp; omega, h3, by simp, ?_, h6⟩
      intro hb x hx
      rw [List.drop_append_of_le_length h2] at hx
      rcases List.mem_append.1 hx with hx | hx
      · exact h5 hb x hx
      · simp only [List.mem_singleton] at hx
        subst hx
        exact h4 hb x ht
    · cases hs; exact ⟨h1, h2, h3, by simp, h5, h6⟩
  | callSet w => cases hs; exact ⟨h1, h2, h3, h4, h5, happ _ (.inr ⟨w, rfl⟩)⟩
  | callGet => cases hs; exact ⟨h1, h2, h3, h4, h5, happ _ (.inl rfl)⟩
  | user j =>
    simp only [step] at hs
    split at hs
    · rename_i w hj
      split at hs
      · cases hs
      · cases hs; exact ⟨h1, h2, h3, h4, h5, hset j _ _ hj fun _ => .inr (.inr ⟨w, .inl rfl⟩)⟩
    · rename_i w hj
      cases hs
      have mono : ∀ x, Recent v n s x → x = v ∨ x ∈ (s.assigned ++ [w]).drop n := by
        intro x hx
        rcases hx with h | h
        · exact .inl h
        · rw [List.drop_append_of_le_length h1]; exact .inr (List.mem_append_left _ h)
      refine ⟨by simp; omega, h2, .inr ?_, fun hb x hx => mono x (h4 hb x hx), fun hb x hx => mono x (h5 hb x hx), ?_⟩
      · simp only; rw [List.drop_append_of_le_length h1]; simp
      · rcases hset j _ (.hasSet w) hj fun _ => .inr (.inr ⟨w, .inr rfl⟩) with h | h | h | ⟨x, h, hx⟩ | h
        · exact .inl h
        · exact .inr (.inl h)
        · exact .inr (.inr (.inl h))
        · exact .inr (.inr (.inr (.inl ⟨x, h, mono x hx⟩)))
        · exact .inr (.inr (.inr (.inr h)))
    · rename_i hj
      split at hs
      · cases hs
      · cases hs; exact ⟨h1, h2, h3, h4, h5, hset j _ _ hj fun _ => .inl rfl⟩
    · rename_i hj
      cases hs
      exact ⟨h1, h2, h3, h4, h5, hset j _ _ hj fun _ => .inr (.inl ⟨_, rfl, h3⟩)⟩
    · cases hs

theorem since_run {v n m i : Nat} {b : Prop} {s s' : State} {evs : List Event} (h : Since v n m b i s)
    (hr : run s evs = some s') : Since v n m b i s' := by
  induction evs generalizing s with
  | nil => cases hr; exact h
  | cons e es ih =>
    simp only [run] at hr
    split at hr
    · rename_i s1 h1
      exact ih (since_step h h1) hr
    · cases hr

end Pluto.LogCfg
