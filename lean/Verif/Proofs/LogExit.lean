import Verif.Model.LogExit
import Verif.Spec.Log
import Verif.Proofs.LogEnd

/-!
# Proofs about a writer that ends the program
-/

namespace Pluto.LogExit
open Pluto.Log (Path Settings Fs Phase)

/-- The cases of a step. -/
inductive Stepped (paths : Nat → Path) (s : State) : Event → State → Prop where
  | log (ev : Log.Event) (l : Log.State) (hn : s.byWriter = true → needsThread ev = false)
      (h : Log.step paths s.log ev = some l) : Stepped paths s (.log ev) { s with log := l }
  | exit (l : Log.State) (hi : inLoop s.log.thread = true)
      (h : Log.step paths s.log .stop = some l) :
    Stepped paths s .exit { s with log := l, byWriter := true }
  | joinItself (hb : s.byWriter = true) (hs : s.log.stage = .joining) (hc : s.log.crashed = false) :
    Stepped paths s .joinItself { s with terminated := true }

theorem step_cases {paths : Nat → Path} {s s' : State} {ev : Event}
    (h : step paths s ev = some s') : s.terminated = false ∧ Stepped paths s ev s' := by
  unfold step at h
  split at h
  · cases h
  · rename_i ht
    refine ⟨by simpa using ht, ?_⟩
    cases ev with
    | log ev =>
      simp only at h
      split at h
      · cases h
      · rename_i hn
        obtain ⟨l, hl, rfl⟩ := Option.map_eq_some_iff.1 h
        refine .log ev l (fun hb => ?_) hl
        simpa [hb] using hn
    | exit =>
      simp only at h
      split at h
      · rename_i hi
        obtain ⟨l, hl, rfl⟩ := Option.map_eq_some_iff.1 h
        exact .exit l hi hl
      · cases h
    | joinItself =>
      simp only at h
      split at h
      · rename_i hj
        cases h
        exact .joinItself hj.1 hj.2.1 hj.2.2
      · cases h

/-- Every execution is one of the logger. -/
theorem log_reachable {paths : Nat → Path} {ok : Log.State → Log.Event → Prop} {σ : Settings} {fs : Fs} {s : State}
    (hok : ∀ l, ok l .stop) (h : ReachableBy paths ok σ fs s) :
    Spec.Log.ReachableBy paths ok σ fs s.log := by
  induction h with
  | init => exact .init
  | step ev _ hk hs ih =>
    obtain ⟨-, hs⟩ := step_cases hs
    cases hs with
    | log ev l hn h => exact .step ev ih (hk ev rfl) h
    | exit l hi h => exact .step .stop ih (hok _) h
    | joinItself => exact ih

/-- A writer has called the destructor, which is at line 384 or 388, and nobody else uses the
logger. -/
structure Ended (s : State) : Prop where
  by_ : s.byWriter = true
  inside : inLoop s.log.thread = true
  stage : s.log.stage = .flagged ∨ s.log.stage = .joining
  calls : s.log.calls = []
  notifying : s.log.notifying = []
  setters : s.log.setters = 0
  owner : s.log.owner = .free ∨ s.log.owner = .logging

theorem exit_ended {paths : Nat → Path} {s s' : State} (h : step paths s .exit = some s') :
    Ended s' ∧ s'.log.stage = .flagged ∧ s'.log.files = s.log.files ∧ s'.log.fs = s.log.fs ∧
      s'.log.passed = s.log.passed ∧ s'.log.accepted = s.log.accepted ∧ s'.log.crashed = false ∧
      s'.terminated = false := by
  obtain ⟨ht, hs⟩ := step_cases h
  cases hs with
  | exit l hi g =>
    unfold Log.step at g
    split at g
    · cases g
    · rename_i hcr
      simp only at g
      split at g
      · rename_i hc
        cases g
        exact ⟨⟨rfl, hi, .inl rfl, hc.2.1, hc.2.2.1, hc.2.2.2.1, hc.2.2.2.2⟩, rfl, rfl, rfl, rfl, rfl,
          by simpa using hcr, ht⟩
      · cases g

/-- What the destructor does next changes nothing but its own state. -/
theorem ended_step {paths : Nat → Path} {s s' : State} {ev : Event} (h : Ended s)
    (hs : step paths s ev = some s') :
    Ended s' ∧ s'.log.files = s.log.files ∧ s'.log.fs = s.log.fs ∧ s'.log.passed = s.log.passed ∧
      s'.log.accepted = s.log.accepted ∧ s'.log.crashed = s.log.crashed ∧
      ((ev = .log .stopNotify ∧ s.log.stage = .flagged ∧ s'.log.stage = .joining ∧
          s'.terminated = false) ∨
        (ev = .joinItself ∧ s.log.stage = .joining ∧ s'.terminated = true)) := by
  obtain ⟨ht, hs⟩ := step_cases hs
  have hna : s.log.stage ≠ .alive := by rcases h.stage with e | e <;> simp [e]
  cases hs with
  | log ev l hn hl =>
    have hn := hn h.by_
    unfold Log.step at hl
    split at hl
    · cases hl
    · cases ev with
      | call => simp only at hl; rw [if_neg (fun e => hna e.1)] at hl; cases hl
      | enter i => simp [h.calls] at hl
      | leave => rcases h.owner with e | e <;> simp [e] at hl
      | notify i => simp [h.notifying] at hl
      | set x => simp at hl
      | setNotify => simp [h.setters] at hl
      | reset => simp at hl
      | thread io => cases hn
      | spurious =>
        have hi := h.inside
        simp only at hl
        split at hl
        · rename_i e; rw [e] at hi; cases hi
        · cases hl
      | stop => simp only at hl; rw [if_neg (fun e => hna e.1)] at hl; cases hl
      | stopNotify =>
        simp only at hl
        split at hl
        · rename_i hf
          cases hl
          have hw : Log.wake s.log.thread = s.log.thread := by
            have hi := h.inside
            cases hth : s.log.thread with
            | asleep => rw [hth] at hi; cases hi
            | _ => rfl
          refine ⟨⟨h.by_, ?_, .inr rfl, h.calls, h.notifying, h.setters, h.owner⟩, rfl, rfl, rfl, rfl, rfl,
            .inl ⟨rfl, hf, rfl, ht⟩⟩
          simp only [hw]
          exact h.inside
        · cases hl
      | join => cases hn
      | flush io ios =>
        rcases h.stage with e | e <;> simp [e] at hl
      | finish =>
        rcases h.stage with e | e <;> simp [e] at hl
  | exit l hi hl =>
    unfold Log.step at hl
    split at hl
    · cases hl
    · simp only at hl; rw [if_neg (fun e => hna e.1)] at hl; cases hl
  | joinItself hb hj hc =>
    exact ⟨⟨h.by_, h.inside, h.stage, h.calls, h.notifying, h.setters, h.owner⟩, rfl, rfl, rfl, rfl, rfl,
      .inr ⟨rfl, hj, rfl⟩⟩

theorem terminated_run {paths : Nat → Path} {s s' : State} {evs : List Event}
    (h : s.terminated = true) (hr : run paths s evs = some s') : evs = [] ∧ s' = s := by
  cases evs with
  | nil => simp only [run, Option.some.injEq] at hr; exact ⟨rfl, hr.symm⟩
  | cons ev evs =>
    have hn : step paths s ev = none := by unfold step; rw [if_pos h]
    simp only [run, hn] at hr
    cases hr

/-- All that can happen after a writer has called the destructor. -/
theorem ended_run {paths : Nat → Path} {s s' : State} {evs : List Event} (h : Ended s)
    (hr : run paths s evs = some s') (hf : s.log.stage = .flagged) :
    (evs = [] ∨ evs = [.log .stopNotify] ∨ (evs = [.log .stopNotify, .joinItself] ∧ s'.terminated = true)) ∧
      Ended s' ∧ s'.log.files = s.log.files ∧ s'.log.fs = s.log.fs ∧ s'.log.passed = s.log.passed ∧
      s'.log.accepted = s.log.accepted := by
  cases evs with
  | nil => simp only [run, Option.some.injEq] at hr; subst hr; exact ⟨.inl rfl, h, rfl, rfl, rfl, rfl⟩
  | cons ev evs =>
    simp only [run] at hr
    cases h1 : step paths s ev with
    | none => rw [h1] at hr; cases hr
    | some s₁ =>
      rw [h1] at hr
      obtain ⟨e₁, a₁, b₁, c₁, d₁, -, ⟨rfl, -, hj, -⟩ | ⟨rfl, hj, -⟩⟩ := ended_step h h1
      · cases evs with
        | nil =>
          simp only [run, Option.some.injEq] at hr; subst hr
          exact ⟨.inr (.inl rfl), e₁, a₁, b₁, c₁, d₁⟩
        | cons ev evs =>
          simp only [run] at hr
          cases h2 : step paths s₁ ev with
          | none => rw [h2] at hr; cases hr
          | some s₂ =>
            rw [h2] at hr
            obtain ⟨e₂, a₂, b₂, c₂, d₂, -, ⟨rfl, hx, -, -⟩ | ⟨rfl, -, ht⟩⟩ := ended_step e₁ h2
            · rw [hj] at hx; cases hx
            · obtain ⟨rfl, rfl⟩ := terminated_run ht hr
              exact ⟨.inr (.inr ⟨rfl, ht⟩), e₂, a₂.trans a₁, b₂.trans b₁, c₂.trans c₁, d₂.trans d₁⟩
      · rw [hf] at hj; cases hj

end Pluto.LogExit
