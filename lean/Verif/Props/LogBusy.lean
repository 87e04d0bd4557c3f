import Verif.Proofs.LogBusy
import Verif.Proofs.LogOrder
import Verif.Props.Log

/-!
# Calls that overtake each other (C80), and a log file that cannot be written (C84)

`Leads paths (Shut paths name) s s'`: an execution leads from `s` to `s'`, with any steps of any threads, in which the log
file `name` is not opened successfully, for whatever reason, and the flush size is not changed (Spec/LogBusy.lean).
-/

namespace Pluto.Props
open Pluto.Log Pluto.Spec.Log Pluto.Spec.LogBusy

/-- C80. Any number of calls by different threads can be accepted in any order, whatever the times they have read from a clock
that does not go back, and in any log file of any logger without a limit of the buffers. -/
theorem C80_fails_any_order {paths : Nat → Path} {σ : Settings} {fs : Fs} (hm : σ.bufferMaxSize = 0) (name : Nat)
    (times order : List Int) (hs : times.Pairwise (· ≤ ·)) (hp : order.Perm times) :
    ∃ s, ReachableBy paths SteadyClock σ fs s ∧ (accepted s name).map (·.time) = order ∧ s.calls = [] := by
  obtain ⟨s, hr, hσ, ho, ha, -, -, hc, -, -, -, htime, hname⟩ := all_called (paths := paths) (σ := σ) (fs := fs) (name := name) times hs
  obtain ⟨s', h1, h2, h3⟩ := any_entered hm order s hr hσ ho hc hname (by rw [htime]; exact hp)
  refine ⟨s', h1, ?_, h3⟩
  rw [h2]
  simp [accepted, ha]

/-- The latest of three calls comes first. -/
example : ∃ s, ReachableBy examplePaths SteadyClock exampleSettings {} s ∧ (accepted s 0).map (·.time) = [30, 10, 20] ∧
    s.calls = [] :=
  C80_fails_any_order rfl 0 [10, 20, 30] [30, 10, 20] (by decide) (by decide)

/-- C84. Once an attempt to open a log file with enough entries has failed, the logging thread does not wait again as long
as the attempts fail, whatever everybody does (unless the flush size is changed). -/
theorem C84_fails_always {paths : Nat → Path} {σ : Settings} {fs : Fs} {s s' : State} {name : Nat}
    (h : Reachable paths σ fs s) (hf : Full s name) (ht : s.thread = .returning name 0)
    (hl : Leads paths (Shut paths name) s s') : ¬ Waits s' := by
  have := (eager_leads h (.inr ⟨hf, by rw [ht]; exact fun _ => rfl⟩) hl).2
  rintro (hw | hw) <;> rw [hw] at this <;> simp [Eager] at this

/-- C84. If everybody else does nothing at all, it takes as many steps as one likes and tries again and again. -/
theorem C84_fails_endless {paths : Nat → Path} {σ : Settings} {fs : Fs} {s : State} {name : Nat}
    (h : Reachable paths σ fs s) (hf : Full s name) (ht : s.thread = .returning name 0) (hc : s.crashed = false)
    (hi : s.isLogging = true) (ho : ∀ tid m, s.owner ≠ .producer tid m) (n : Nat) :
    ∃ s', run paths s (List.replicate n (.thread { opening := true })) = some s' ∧ ¬ Waits s' := by
  have main : ∀ (n : Nat) (s : State), Reachable paths σ fs s → Full s name ∧ Eager name s.thread →
      s.crashed = false → s.isLogging = true → (s.owner = .free ∨ s.owner = .logging) → Looking s.thread →
      ∃ s', run paths s (List.replicate n (.thread { opening := true })) = some s' ∧ ¬ Waits s' := by
    intro n
    induction n with
    | zero =>
      intro s _ _ _ _ _ hk
      refine ⟨s, rfl, ?_⟩
      rintro (hw | hw) <;> rw [hw] at hk <;> exact hk
    | succ n ih =>
      intro s hr h hc hi ho hk
      obtain ⟨s', hs, hc', hi', ho', hk'⟩ := looking_step (paths := paths) (base hr) hc hi ho hk h
      have hr' : Reachable paths σ fs s' := .step _ hr hs
      have hshut : Shut paths name s (.thread { opening := true }) := by
        refine ⟨fun s'' h'' p l todo done hw => ?_, fun n => by simp⟩
        rw [hs] at h''
        cases h''
        rw [hw] at hk'
        exact hk'
      have h' := (eager_step (base hr) hs hshut (.inr h)).resolve_left (fun he => by rw [he] at hk'; exact hk')
      obtain ⟨t, ht, hw⟩ := ih s' hr' h' hc' hi' ho' hk'
      refine ⟨t, ?_, hw⟩
      rw [List.replicate_succ]
      simp only [run, hs]
      exact ht
  refine main n s h ⟨hf, by rw [ht]; exact fun _ => rfl⟩ hc hi ?_ (by rw [ht]; trivial)
  cases hown : s.owner with
  | free => exact .inl rfl
  | logging => exact .inr rfl
  | producer tid m => exact absurd hown (ho tid m)

/-- The hypotheses are met by a logger whose first attempt to open a file has failed. -/
example : ∃ s, Reachable examplePaths exampleSettings {} s ∧ Full s 0 ∧ s.thread = .returning 0 0 ∧ s.crashed = false ∧
    s.isLogging = true ∧ ∀ tid m, s.owner ≠ .producer tid m := by
  refine ⟨_, log_reachable (evs := exampleWrite 1 0 "1" ++ [.notify 0] ++ exampleThread 3 ++ [.thread { opening := true }]) rfl,
    ⟨by decide, by decide⟩, rfl, rfl, rfl, fun _ _ h => by cases h⟩

end Pluto.Props
