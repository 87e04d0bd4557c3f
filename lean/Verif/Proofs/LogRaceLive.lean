import Verif.Proofs.LogRaceEnd

/-! # Somebody can go on -/

namespace Pluto.LogRace

section
variable {nf : Prop} {s : State} {u h : File → List Nat} {i : Nat} {st : List Frame}

/-- The function that holds `m_loggingMutex` can go on. -/
theorem locked_go (sh : Shared) (hl : locked st = true) : (go sh i .go st).isSome = true := by
  cases st with
  | nil => cases hl
  | cons fr k =>
    cases fr with
    | user | maker | cfg | put | dtor => cases hl
    | add f e pc => cases pc <;> first | rfl | (cases hl; done)
    | loop pc => cases pc <;> first | rfl | (cases hl; done)

/-- The function that holds `m_configMutex` can go on. -/
theorem cfgLocked_go (sh : Shared) (hl : cfgLocked st = true) : (go sh i .go st).isSome = true := by
  cases st with
  | nil => cases hl
  | cons fr k =>
    cases fr with
    | user | maker | add | loop | put | dtor => cases hl
    | cfg w a pc => cases pc <;> first | rfl | (cases hl; done)

theorem step_go {c : Choice} (hi : s.threads[i]? = some st) (hg : (go s.sh i c st).isSome = true) : (step s (.go i c)).isSome = true := by
  obtain ⟨p, hp⟩ := Option.isSome_iff_exists.1 hg
  simp only [step, hi, hp]
  rfl

theorem Inv.free_log (I : Inv nf s u h) : s.sh.log = none ∨ ∃ j, (LogRace.step s (.go j .go)).isSome = true := by
  cases e : s.sh.log with
  | none => exact .inl rfl
  | some j =>
    obtain ⟨t, ht, hl⟩ := (I.lock j).1 e
    exact .inr ⟨j, step_go ht (locked_go _ hl)⟩

theorem Inv.free_cfg (I : Inv nf s u h) : s.sh.cfg = none ∨ ∃ j, (LogRace.step s (.go j .go)).isSome = true := by
  cases e : s.sh.cfg with
  | none => exact .inl rfl
  | some j =>
    obtain ⟨t, ht, hl⟩ := (I.cfg j).1 e
    exact .inr ⟨j, step_go ht (cfgLocked_go _ hl)⟩

/-- But for the destructor that waits for the logging thread. -/
theorem Inv.live1 (I : Inv nf s u h) (hi : s.threads[i]? = some st) (hne : st ≠ []) (hd : ∀ k, st = .dtor .join :: k → s.sh.ended = true) :
    ∃ j, (LogRace.step s (.go j .go)).isSome = true := by
  rcases I.free_log with hl | hl
  rotate_left
  · exact hl
  rcases I.free_cfg with hc | hc
  rotate_left
  · exact hc
  refine ⟨i, step_go hi ?_⟩
  cases st with
  | nil => exact (hne rfl).elim
  | cons fr k =>
    cases fr with
    | user | maker => rfl
    | put f b it pc => cases pc <;> rfl
    | cfg w a pc => cases pc <;> simp [LogRace.go, goCfg, hc]
    | add f e pc => cases pc <;> simp [LogRace.go, goAdd, hl]
    | loop pc =>
      have hk := (I.loop_ok hi).2.2.2.2.2
      cases pc
      case await => exact hk.elim
      all_goals simp [LogRace.go, goLoop, hl]
    | dtor pc =>
      cases pc with
      | join => simp [LogRace.go, goDtor, hd k rfl]
      | scan rest => cases rest <;> rfl
      | stop | list | check | begin => rfl

theorem Inv.live (I : Inv nf s u h) (hi : s.threads[i]? = some st) (hne : st ≠ []) : ∃ j, (LogRace.step s (.go j .go)).isSome = true := by
  cases he : s.sh.ended with
  | true => exact I.live1 hi hne (fun _ _ => he)
  | false =>
    have hlen := I.len
    have h1 : s.threads[1]? = some s.threads[1] := List.getElem?_eq_getElem hlen
    have hr : role s 1 = .logger := rfl
    have ho := I.thr 1 _ h1
    rw [hr] at ho
    refine I.live1 h1 ?_ ?_
    · intro e
      rw [e] at ho
      cases ho with
      | nil _ h2 _ => rw [he] at h2; cases h2 rfl
    · intro k e
      rw [e] at ho
      cases ho

end

end Pluto.LogRace
