import Verif.Proofs.LogEnd

/-! # The logger ends the program only if a writer throws something -/

namespace Pluto.Log
open Pluto.Spec.Log

theorem turn_tame {σ : Settings} (hσ : Tame σ) (io : Io) (p : Path) (l : Locals) (name : Nat) (e : Entry)
    (fs : Fs) : turn σ io p l name e fs ≠ .crash := by
  have hentry : ∀ l fs, turnEntry σ io p l name e fs ≠ .crash := by
    intro l fs h
    unfold turnEntry at h
    split at h
    · simp at h
    · simp at h
    · exact hσ.1 e ‹_›
  have hheader : ∀ l k fs, turnHeader σ io p l k name e fs ≠ .crash := by
    intro l k fs h
    rcases turnHeader_cases σ io p l k name e fs with ⟨-, h'⟩ | ⟨_, _, _, -, -, -, -, h'⟩ |
      ⟨_, _, _, -, -, -, -, h'⟩ | ⟨-, -, h', -⟩
    · rw [h'] at h; exact hentry _ _ h
    · rw [h'] at h; exact hentry _ _ h
    · rw [h'] at h; cases h
    · exact hσ.2 h'
  intro h
  rcases turn_cases σ io p l name e fs with ⟨-, h'⟩ | ⟨-, -, fs₁, b, -, ⟨-, h'⟩ | ⟨-, fs₂, r, -, ⟨-, h'⟩ | ⟨-, h'⟩⟩⟩
  · rw [h'] at h; exact hheader _ _ _ h
  · rw [h'] at h; cases h
  · rw [h'] at h; cases h
  · rw [h'] at h; exact hheader _ _ _ h

theorem writeLoop_tame {σ : Settings} (hσ : Tame σ) (p : Path) (name : Nat) :
    ∀ (todo : List Entry) (l : Locals) (ios : List Io) (fs : Fs),
      writeLoop σ p name l todo ios fs ≠ none := by
  intro todo
  induction todo with
  | nil => intro l ios fs h; cases h
  | cons e todo ih =>
    intro l ios fs h
    unfold writeLoop at h
    have ht := turn_tame hσ (ios.headD {}) p l name e fs
    split at h
    · split at h
      · cases h
      · exact ih _ _ _ ‹_›
    · cases h
    · cases h
    · exact ht ‹_›

theorem flushFile_tame {paths : Nat → Path} {s : State} (hσ : Tame s.settings) (io : Io) (ios : List Io)
    (name : Nat) (f : LogFile) : (flushFile paths s io ios name f).crashed = s.crashed := by
  unfold flushFile
  split
  · split
    · split
      · rfl
      · exact absurd ‹_› (writeLoop_tame hσ _ _ _ _ _ _)
    · rfl
  · rfl

theorem tame_settings {paths : Nat → Path} {okIo : Io → Prop} {fs : Fs} {s : State}
    (h : Reaches paths Tame okIo fs s) : s.crashed = false := by
  obtain ⟨σ, hσ, hr⟩ := h
  induction hr with
  | init => rfl
  | @step s s' ev hr' hok hs ih =>
    have hset : Tame s.settings := within_settings hσ hr'
    replace hs := (step_cases hs).2
    cases hs with
    | enter i r hi ho =>
      rcases addLog_cases s r with ⟨heq, -⟩ | ⟨heq, -⟩ <;> rw [heq] <;> exact ih
    | writeCrash io name p l e todo done ht hw => exact absurd hw (turn_tame hset _ _ _ _ _ _)
    | flush io ios last name f hs hn => rw [flushFile_tame hset]; exact ih
    | _ => exact ih

end Pluto.Log
