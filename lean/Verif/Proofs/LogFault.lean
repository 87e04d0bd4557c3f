import Verif.Spec.LogFault

/-! # Lemmas for logging calls when memory runs out -/

namespace Pluto.LogFault

theorem lookup_update {name other : Text} {b : List Text} {fs : List (Text × List Text)}
    (h : (lookup name fs).isSome) : lookup other (update name b fs) = if other = name then some b else lookup other fs := by
  induction fs with
  | nil => cases h
  | cons f fs ih =>
    unfold lookup at h
    by_cases hf : f.1 = name
    · by_cases ho : other = name
      · simp [update, lookup, hf, ho]
      · have h1 : ¬ name = other := fun e => ho e.symm
        have h2 : ¬ f.1 = other := by rw [hf]; exact h1
        simp [update, lookup, hf, ho, h1]
    · rw [if_neg hf] at h
      by_cases ho : other = name
      · subst ho
        simp [update, lookup, hf, ih h]
      · by_cases hx : f.1 = other
        · simp [update, lookup, hx, ho]
        · simp [update, lookup, hf, hx, ih h, ho]

theorem lookup_new {name other : Text} {fs : List (Text × List Text)} (h : lookup name fs = none) :
    (lookup other (fs ++ [(name, [])])).getD [] = (lookup other fs).getD [] := by
  induction fs with
  | nil =>
    simp only [List.nil_append, lookup]
    split <;> rfl
  | cons f fs ih =>
    unfold lookup at h
    split at h
    · cases h
    · simp only [List.cons_append, lookup]
      split
      · rfl
      · exact ih h

theorem lookup_new_isSome {name : Text} {fs : List (Text × List Text)} (h : lookup name fs = none) :
    lookup name (fs ++ [(name, [])]) = some [] := by
  induction fs with
  | nil => simp [lookup]
  | cons f fs ih =>
    unfold lookup at h
    split at h
    · cases h
    · rename_i hf
      simp only [List.cons_append, lookup]
      rw [if_neg hf]
      exact ih h

theorem addTo_spec {max : Nat} {fault : Fault} {s s' : State} {name message : Text} {b : List Text} {threw : Bool}
    (hb : lookup name s.files = some b) (h : addTo max fault s name message b = (s', threw)) :
    (threw = true → SameLog s s') ∧ (threw = false → OneMore max name message s s') ∧ (threw = true → fault = .entry) := by
  have hbuf : buffered s name = b := by unfold buffered; rw [hb]; rfl
  unfold addTo at h
  split at h
  · rename_i hm
    split at h
    · rename_i hf
      cases h
      exact ⟨fun _ => ⟨rfl, fun _ => rfl⟩, fun e => (by cases e), fun _ => hf⟩
    · cases h
      refine ⟨fun e => (by cases e), fun _ => .inl ⟨rfl, by rw [hbuf]; exact hm, ?_, ?_⟩, fun e => (by cases e)⟩
      · rw [hbuf]
        simp [buffered, lookup_update (show (lookup name s.files).isSome by rw [hb]; rfl)]
      · intro other ho
        simp [buffered, lookup_update (show (lookup name s.files).isSome by rw [hb]; rfl), ho]
  · rename_i hm
    cases h
    refine ⟨fun e => (by cases e), fun _ => .inr ⟨rfl, ?_, ?_, fun _ => rfl⟩, fun e => (by cases e)⟩
    · omega
    · rw [hbuf]; omega

theorem add_spec {max : Nat} {fault : Fault} {s s' : State} {name message : Text} {threw : Bool}
    (h : add max fault s name message = (s', threw)) :
    (threw = true → SameLog s s') ∧ (threw = false → OneMore max name message s s') ∧
      (threw = true → fault ≠ .none) := by
  unfold add at h
  split at h
  · rename_i b hb
    obtain ⟨h1, h2, h3⟩ := addTo_spec hb h
    exact ⟨h1, h2, fun e => by rw [h3 e]; intro c; cases c⟩
  · rename_i hb
    split at h
    · rename_i hf
      cases h
      exact ⟨fun _ => ⟨rfl, fun _ => rfl⟩, fun e => (by cases e), fun _ => by rw [hf]; intro c; cases c⟩
    · have hl : ∀ other, buffered { s with files := s.files ++ [(name, [])] } other = buffered s other :=
        fun other => lookup_new hb
      obtain ⟨h1, h2, h3⟩ := addTo_spec (s := { s with files := s.files ++ [(name, [])] })
        (lookup_new_isSome hb) h
      refine ⟨fun e => ?_, fun e => ?_, fun e => by rw [h3 e]; intro c; cases c⟩
      · obtain ⟨hd, hs⟩ := h1 e
        exact ⟨hd, fun n => (hs n).trans (hl n)⟩
      · rcases h2 e with ⟨hd, hm, ha, ho⟩ | ⟨hd, hm, hn, ho⟩
        · rw [hl] at hm ha
          exact .inl ⟨hd, hm, ha, fun n hne => (ho n hne).trans (hl n)⟩
        · rw [hl] at hn
          exact .inr ⟨hd, hm, hn, fun n => (ho n).trans (hl n)⟩

theorem finish_spec {max : Nat} {accepts copied : Bool} {fault : Fault} {name : Text} {s s' : State}
    {r r' : Streamer} {threw : Bool} (h : finish max accepts copied fault name s r = (s', r', threw)) :
    (r' = r ∧ SameLog s s' ∧ (threw = true → r.active = true ∧ (copied = false ∨ fault ≠ .none))) ∨
      (r.active = true ∧ r' = { r with active := false } ∧ threw = false ∧ OneMore max name r.text s s') := by
  unfold finish at h
  split at h
  · rename_i ha
    have ha : r.active = true := by simp only [Bool.and_eq_true] at ha; exact ha.1
    split at h
    · split at h
      · rename_i s₁ he
        cases h
        obtain ⟨h1, -, h3⟩ := add_spec he
        exact .inl ⟨rfl, h1 rfl, fun _ => ⟨ha, .inr (h3 rfl)⟩⟩
      · rename_i s₁ he
        cases h
        obtain ⟨-, h2, -⟩ := add_spec he
        exact .inr ⟨ha, rfl, rfl, h2 rfl⟩
    · rename_i hc
      cases h
      exact .inl ⟨rfl, ⟨rfl, fun _ => rfl⟩, fun _ => ⟨ha, .inl (by simpa using hc)⟩⟩
  · cases h
    exact .inl ⟨rfl, ⟨rfl, fun _ => rfl⟩, fun e => (by cases e)⟩

theorem finish_logs {max : Nat} {copied : Bool} {fault : Fault} {name : Text} {s s' : State} {r r' : Streamer}
    (hr : r.active = true) (h : finish max true copied fault name s r = (s', r', false)) :
    r' = { r with active := false } ∧ OneMore max name r.text s s' := by
  rcases finish_spec h with ⟨rfl, -⟩ | ⟨-, h1, -, h2⟩
  · exfalso
    unfold finish at h
    simp only [hr, Bool.and_self, if_true] at h
    split at h
    · split at h
      · cases h
      · injection h with _ h
        injection h with h _
        rw [← h] at hr
        cases hr
    · cases h
  · exact ⟨h1, h2⟩

theorem SameLog.trans {a b c : State} (h : SameLog a b) (h' : SameLog b c) : SameLog a c :=
  ⟨h'.1.trans h.1, fun n => (h'.2 n).trans (h.2 n)⟩

theorem SameLog.oneMore {max : Nat} {name message : Text} {a b c : State} (h : SameLog a b)
    (h' : OneMore max name message b c) : OneMore max name message a c := by
  rcases h' with ⟨h1, h2, h3, h4⟩ | ⟨h1, h2, h3, h4⟩
  · exact .inl ⟨h1.trans h.1, by rw [← h.2 name]; exact h2, by rw [h3, h.2], fun o ho => (h4 o ho).trans (h.2 o)⟩
  · exact .inr ⟨by rw [h1, h.1], h2, by rw [← h.2 name]; exact h3, fun o => (h4 o).trans (h.2 o)⟩

theorem OneMore.same {max : Nat} {name message : Text} {a b c : State} (h : OneMore max name message a b)
    (h' : SameLog b c) : OneMore max name message a c := by
  rcases h with ⟨h1, h2, h3, h4⟩ | ⟨h1, h2, h3, h4⟩
  · exact .inl ⟨h'.1.trans h1, h2, (h'.2 name).trans h3, fun o ho => (h'.2 o).trans (h4 o ho)⟩
  · exact .inr ⟨h'.1.trans h1, h2, h3, fun o => (h'.2 o).trans (h4 o)⟩

theorem operate_inactive {max : Nat} {name : Text} {ops : List Op} {s s' : State} {r r' : Streamer} {threw : Bool}
    (hr : r.active = false) (h : operate max name s r ops = (s', r', threw)) : SameLog s s' ∧ r'.active = false := by
  induction ops generalizing s r with
  | nil => cases h; exact ⟨⟨rfl, fun _ => rfl⟩, hr⟩
  | cons op ops ih =>
    cases op with
    | put text => exact ih (r := { r with text := r.text ++ text }) hr h
    | throws => cases h; exact ⟨⟨rfl, fun _ => rfl⟩, hr⟩
    | finish accepts copied fault =>
      have hf : finish max accepts copied fault name s r = (s, r, false) := by
        unfold finish; rw [hr]; rfl
      unfold operate at h
      rw [hf] at h
      exact ih hr h

theorem operate_spec {max : Nat} {name : Text} {ops : List Op} {s s' : State} {r r' : Streamer} {threw : Bool}
    (hr : r.active = true) (h : operate max name s r ops = (s', r', threw)) :
    (r'.active = true ∧ SameLog s s' ∧ r'.text = r.text ++ streamed ops) ∨
      (r'.active = false ∧ OneMore max name (r.text ++ streamed ops) s s') := by
  induction ops generalizing s r with
  | nil =>
    cases h
    exact .inl ⟨hr, ⟨rfl, fun _ => rfl⟩, by simp [streamed]⟩
  | cons op ops ih =>
    cases op with
    | put text =>
      have h' := ih (r := { r with text := r.text ++ text }) hr h
      simp only [streamed, ← List.append_assoc]
      exact h'
    | throws =>
      cases h
      exact .inl ⟨hr, ⟨rfl, fun _ => rfl⟩, by simp [streamed]⟩
    | finish accepts copied fault =>
      cases accepts with
      | false =>
        have hf : finish max false copied fault name s r = (s, r, false) := by
          unfold finish; rw [Bool.and_false]; rfl
        unfold operate at h
        rw [hf] at h
        exact ih hr h
      | true =>
        unfold operate at h
        split at h
        · rename_i s₁ r₁ hf
          cases h
          rcases finish_spec hf with ⟨rfl, hs, -⟩ | ⟨-, -, e, -⟩
          · exact .inl ⟨hr, hs, by simp [streamed]⟩
          · cases e
        · rename_i s₁ r₁ hf
          obtain ⟨rfl, ho⟩ := finish_logs hr hf
          obtain ⟨h1, h2⟩ := operate_inactive rfl h
          exact .inr ⟨h2, by simpa [streamed] using ho.same h1⟩

end Pluto.LogFault
