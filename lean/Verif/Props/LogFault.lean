import Verif.Proofs.LogFault

/-! # Logging calls when memory runs out (C125) -/

namespace Pluto.Props
open Pluto.LogFault

/-- C125. If `write`, `writef` or `format` throws because memory has run out, nothing is different afterwards;
otherwise exactly one entry has been accepted or discarded, if the level is logged, and none if not. -/
theorem C125_write (max : Nat) (accepts made : Bool) (fault : Fault) (s : State) (name message : Text) :
    let r := write max accepts made fault s name message
    (r.2 = true → SameLog s r.1) ∧
      (r.2 = false → if accepts then OneMore max name message s r.1 else SameLog s r.1) := by
  intro r
  cases accepts with
  | false => exact ⟨fun e => (by cases e), fun _ => ⟨rfl, fun _ => rfl⟩⟩
  | true =>
    cases made with
    | false => exact ⟨fun _ => ⟨rfl, fun _ => rfl⟩, fun e => (by cases e)⟩
    | true =>
      obtain ⟨h1, h2, -⟩ := add_spec (max := max) (fault := fault) (s := s) (name := name) (message := message) rfl
      exact ⟨h1, h2⟩

/-- C125. If memory does not run out in the destructor of a stream, the program goes on whatever else throws, and
the stream has made at most one entry, with the text inserted until something threw or `end()` was called; and just
one, if the level is logged when it is destroyed. Missing: the destructor, see `C125_terminated`. -/
theorem C125_stream_partial (max : Nat) (name : Text) (s : State) (ops : List Op) (accepts : Bool) :
    let r := life max name s ops accepts true .none
    r.2 ≠ .terminated ∧ (OneMore max name (streamed ops) s r.1 ∨ accepts = false ∧ SameLog s r.1) := by
  intro r
  obtain ⟨s₁, r₁, threw, ho⟩ : ∃ s₁ r₁ threw, operate max name s {} ops = (s₁, r₁, threw) := ⟨_, _, _, rfl⟩
  obtain ⟨s₂, r₂, t₂, hf⟩ : ∃ s₂ r₂ t₂, LogFault.finish max accepts true .none name s₁ r₁ = (s₂, r₂, t₂) :=
    ⟨_, _, _, rfl⟩
  have ht : t₂ = false := by
    rcases finish_spec hf with ⟨-, -, h⟩ | ⟨-, -, h, -⟩
    · cases t₂ with
      | false => rfl
      | true =>
        rcases (h rfl).2 with h | h
        · cases h
        · exact absurd rfl h
    · exact h
  subst ht
  have hr : r = (s₂, if threw then .threw else .normal) := by
    show life max name s ops accepts true .none = _
    unfold life
    simp only [ho, hf]
  rw [hr]
  refine ⟨by cases threw <;> (intro c; cases c), ?_⟩
  rcases operate_spec rfl ho with ⟨ha, hs, htext⟩ | ⟨ha, hm⟩
  · cases accepts with
    | false =>
      rcases finish_spec hf with ⟨-, hs', -⟩ | ⟨-, -, -, hm⟩
      · exact .inr ⟨rfl, hs.trans hs'⟩
      · rw [htext] at hm
        exact .inl (hs.oneMore hm)
    | true =>
      obtain ⟨-, hm⟩ := finish_logs ha hf
      rw [htext] at hm
      exact .inl (hs.oneMore hm)
  · rcases finish_spec hf with ⟨-, hs', -⟩ | ⟨hact, -⟩
    · exact .inl (hm.same hs')
    · rw [ha] at hact; cases hact

/-- C125. If `end()` has returned while the level is logged, the destructor does nothing and cannot end the program. -/
theorem C125_ended (max : Nat) (name : Text) (s : State) (ops : List Op) (c : Bool) (f : Fault)
    (accepts copied : Bool) (fault : Fault) (h : (operate max name s {} (ops ++ [.finish true c f])).2.2 = false) :
    (life max name s (ops ++ [.finish true c f]) accepts copied fault).2 = .normal := by
  have key : ∀ (ops : List Op) (s : State) (r : Streamer),
      (operate max name s r (ops ++ [.finish true c f])).2.2 = false →
      (operate max name s r (ops ++ [.finish true c f])).2.1.active = false := by
    intro ops
    induction ops with
    | nil =>
      intro s r h
      obtain ⟨s₁, r₁, t₁, hf⟩ : ∃ s₁ r₁ t₁, LogFault.finish max true c f name s r = (s₁, r₁, t₁) :=
        ⟨_, _, _, rfl⟩
      simp only [List.nil_append, operate, hf] at h ⊢
      cases t₁ with
      | true => simp at h
      | false =>
        simp only
        cases ha : r.active with
        | true => rw [(finish_logs ha hf).1]
        | false =>
          rcases finish_spec hf with ⟨rfl, -⟩ | ⟨h, -⟩
          · exact ha
          · rw [ha] at h; cases h
    | cons op ops ih =>
      intro s r h
      cases op with
      | put text => exact ih s _ h
      | throws => cases h
      | finish a' c' f' =>
        simp only [List.cons_append, operate] at h ⊢
        split
        · rename_i s₁ r₁ hf
          rw [hf] at h
          cases h
        · rename_i s₁ r₁ hf
          rw [hf] at h
          exact ih s₁ r₁ h
  have ha := key ops s {} h
  unfold life
  obtain ⟨s₁, r₁, t, ho⟩ : ∃ s₁ r₁ t, operate max name s {} (ops ++ [.finish true c f]) = (s₁, r₁, t) :=
    ⟨_, _, _, rfl⟩
  rw [ho] at h ha
  simp only at h ha
  simp only [ho, LogFault.finish, ha, h]
  rfl

/-- C125. If memory runs out in the destructor of a stream that has not ended, the program ends. -/
theorem C125_terminated (max : Nat) (name : Text) (s : State) (ops : List Op) (fault : Fault)
    (h : ∀ op ∈ ops, op = .throws ∨ ∃ text, op = .put text) :
    (life max name s ops true false fault).2 = .terminated := by
  have key : ∀ (ops : List Op) (r : Streamer), (∀ op ∈ ops, op = .throws ∨ ∃ text, op = .put text) →
      r.active = true → (operate max name s r ops).1 = s ∧ (operate max name s r ops).2.1.active = true := by
    intro ops
    induction ops with
    | nil => exact fun r _ ha => ⟨rfl, ha⟩
    | cons op ops ih =>
      intro r h ha
      rcases h op (List.mem_cons_self ..) with rfl | ⟨text, rfl⟩
      · exact ⟨rfl, ha⟩
      · exact ih { r with text := r.text ++ text } (fun o ho => h o (List.mem_cons_of_mem _ ho)) ha
  obtain ⟨s₁, r₁, t, ho⟩ : ∃ s₁ r₁ t, operate max name s {} ops = (s₁, r₁, t) := ⟨_, _, _, rfl⟩
  have ha := (key ops {} h rfl).2
  rw [ho] at ha
  simp only at ha
  unfold life
  simp [ho, LogFault.finish, ha]

/-- C125. `end()` throws, and the entry is logged nevertheless, by the destructor. -/
theorem C125_logged_anyway :
    life 0 "log".toList {} [.put "x".toList, .finish true true .entry] true true .none =
      ({ files := [("log".toList, ["x".toList])] }, .threw) := by decide

/-- Memory runs out when a log file is new, when an entry is added, and not at all; the buffer is full. -/
example : (write 1 true true .file {} "a".toList "x".toList).2 = true ∧
    (write 1 true true .entry {} "a".toList "x".toList) = ({ files := [("a".toList, [])] }, true) ∧
    (write 1 true true .none {} "a".toList "x".toList) = ({ files := [("a".toList, ["x".toList])] }, false) ∧
    (write 1 true true .none { files := [("a".toList, ["x".toList])] } "a".toList "y".toList) =
      ({ files := [("a".toList, ["x".toList])], discarded := 1 }, false) := by decide

/-- A stream whose third operation throws, and one that ends. -/
example : life 0 "a".toList {} [.put "x".toList, .put "y".toList, .throws, .put "z".toList] true true .none =
      ({ files := [("a".toList, ["xy".toList])] }, .threw) ∧
    (operate 0 "a".toList {} {} ([.put "x".toList] ++ [.finish true true .none])).2.2 = false := by decide

end Pluto.Props
