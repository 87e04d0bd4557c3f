import Verif.Proofs.LogExit
import Verif.Props.Log

/-!
# Properties of a writer that ends the program (C146)
-/

namespace Pluto.Props
open Pluto.Log Pluto.Spec.Log

/-- C146, for destructors that return: whoever has called the destructor, when it has returned,
every entry accepted has been written to its file, exactly once and in order (under the
conditions of C28).

Missing: that the destructor returns although a writer has called it; see `C146_fails`. -/
theorem C146_flushed_partial {paths : Nat → Path} {σ : Settings} {fs : Fs} {s : LogExit.State} (hσ : Usable σ)
    (h : LogExit.ReachableBy paths Orderly σ fs s) (hd : s.log.stage = .destroyed) (name : Nat) :
    written s.log name = accepted s.log name :=
  C28_flushed hσ (LogExit.log_reachable (fun _ => trivial) h) hd name

/-- C146 fails: when a writer has ended the program, the destructor never returns, and from then
on nothing is written: all that can happen is that the program is terminated. -/
theorem C146_fails {paths : Nat → Path} {s s₁ s₂ : LogExit.State} {evs : List LogExit.Event}
    (h : LogExit.step paths s .exit = some s₁) (hr : LogExit.run paths s₁ evs = some s₂) :
    evs.length ≤ 2 ∧ s₂.log.stage ≠ .destroyed ∧ s₂.log.fs = s.log.fs ∧ s₂.log.files = s.log.files ∧
      (∀ name, written s₂.log name = written s.log name) ∧
      (∀ name, accepted s₂.log name = accepted s.log name) ∧
      ((∀ ev, LogExit.step paths s₂ ev = none) → s₂.terminated = true) := by
  obtain ⟨he, hf, a, b, c, d, hc, ht⟩ := LogExit.exit_ended h
  obtain ⟨hev, he₂, a₂, b₂, c₂, d₂⟩ := LogExit.ended_run he hr hf
  refine ⟨?_, ?_, b₂.trans b, a₂.trans a, ?_, ?_, fun hn => ?_⟩
  · rcases hev with rfl | rfl | ⟨rfl, -⟩ <;> simp
  · rcases he₂.stage with e | e <;> simp [e]
  · intro name; unfold written; rw [c₂, c]
  · intro name; unfold accepted; rw [d₂, d]
  · have go : ∀ {x : LogExit.State}, x.log.crashed = false → x.terminated = false →
        x.log.stage = .flagged → LogExit.step paths x (.log .stopNotify) ≠ none := by
      intro x hxc hxt hxs e
      simp only [LogExit.step, hxt, LogExit.needsThread, Log.step, hxc, hxs] at e
      simp at e
    rcases hev with rfl | rfl | ⟨rfl, e⟩
    · simp only [LogExit.run, Option.some.injEq] at hr
      subst hr
      exact absurd (hn _) (go hc ht hf)
    · simp only [LogExit.run] at hr
      cases h2 : LogExit.step paths s₁ (.log .stopNotify) with
      | none => exact absurd h2 (go hc ht hf)
      | some x =>
        rw [h2] at hr
        simp only [Option.some.injEq] at hr
        subst hr
        obtain ⟨ex, -, -, -, -, hxc, ⟨-, -, hj, hxt⟩ | ⟨hx, -⟩⟩ := LogExit.ended_step he h2
        · have := hn .joinItself
          simp only [LogExit.step, hxt, ex.by_, hj, hxc.trans hc] at this
          simp at this
        · cases hx
    · exact e

/-- Two entries, of which the logging thread is about to write the first one. -/
private def exampleBusy : List LogExit.Event :=
  (exampleWrite 1 0 "one" ++ [Event.notify 0] ++ exampleWrite 2 0 "two" ++ [Event.notify 0] ++ exampleThread 4).map
    LogExit.Event.log

/-- The writer ends the program when it gets the first entry: both are lost. -/
example : ∃ s, LogExit.run examplePaths (LogExit.init exampleSettings {})
      (exampleBusy ++ [.exit, .log .stopNotify, .joinItself]) = some s ∧
    s.terminated = true ∧ (accepted s.log 0).map (·.message) = ["one".toList, "two".toList] ∧
    written s.log 0 = [] ∧ own 0 (read s.log.fs (examplePaths 0)) = [] :=
  ⟨_, rfl, rfl, by decide, by decide, by decide⟩

/-- The same entries when a thread outside the logger destroys it. -/
example : ∃ s, LogExit.run examplePaths (LogExit.init exampleSettings {})
      (exampleBusy ++ ([Event.stop, .stopNotify] ++ exampleThread 6 ++ [Event.join, .flush {} [], .finish]).map
        LogExit.Event.log) = some s ∧
    s.log.stage = .destroyed ∧ (accepted s.log 0).map (·.message) = ["one".toList, "two".toList] ∧
    written s.log 0 = accepted s.log 0 :=
  ⟨_, rfl, rfl, by decide, by decide⟩

end Pluto.Props
