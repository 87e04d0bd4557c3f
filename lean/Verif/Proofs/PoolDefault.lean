import Verif.Proofs.PoolProgress
import Verif.Spec.PoolDefault

/-! # Pools without workers (C171) -/

namespace Pluto.Pool

open Spec.Pool

/-- No worker was ever created, so nothing was started. -/
structure Unmanned (s : State) : Prop where
  workers : s.workers = []
  target : s.target = 0
  started : s.started = []
  completed : s.completed = []
  fulfilled : s.fulfilled = []

theorem schedulerPass_same (s : State) (i : Nat) : (schedulerPass s i).workers = s.workers ∧
    (schedulerPass s i).target = s.target ∧ (schedulerPass s i).started = s.started ∧
    (schedulerPass s i).completed = s.completed ∧ (schedulerPass s i).fulfilled = s.fulfilled ∧
    (schedulerPass s i).syncs = s.syncs ∧ (schedulerPass s i).queue = s.queue := by
  unfold schedulerPass
  split <;> (try split) <;> exact ⟨rfl, rfl, rfl, rfl, rfl, rfl, rfl⟩

theorem runAt_same (s : State) (x p : Int) : (runAt s x p).workers = s.workers ∧
    (runAt s x p).target = s.target ∧ (runAt s x p).started = s.started ∧
    (runAt s x p).completed = s.completed ∧ (runAt s x p).fulfilled = s.fulfilled ∧
    (runAt s x p).syncs = s.syncs ∧ (runAt s x p).queue = s.queue := by
  unfold runAt
  simp only
  split <;> (try split) <;> exact ⟨rfl, rfl, rfl, rfl, rfl, rfl, rfl⟩

theorem unmanned_step {s s' : State} {ev : Event} (h : Unmanned s) (hs : step s ev = some s')
    (hz : ∀ n c, ev = .setTarget n c → n = 0) :
    Unmanned s' ∧ s'.syncs.length = s.syncs.length + (CallsSync ev).toNat ∧
      s.queue.length + (AddsTask ev).toNat ≤ s'.queue.length := by
  obtain ⟨hw, ht, h1, h2, h3⟩ := h
  have none_at : ∀ (i : Nat) (p : Phase), s.workers[i]? ≠ some p := by simp [hw]
  have wake : ∀ {o ws}, wakeOne o s.workers = some ws → ws = [] := by
    intro o ws hk
    rw [hw] at hk
    unfold wakeOne at hk
    cases o <;> simp at hk
    exact hk
  have same : ∀ {s' : State}, (s'.workers = s.workers ∧ s'.target = s.target ∧ s'.started = s.started ∧
      s'.completed = s.completed ∧ s'.fulfilled = s.fulfilled ∧ s'.syncs = s.syncs ∧ s'.queue = s.queue) →
      Unmanned s' ∧ s'.syncs.length = s.syncs.length + false.toNat ∧
        s.queue.length + false.toNat ≤ s'.queue.length := by
    rintro s' ⟨g1, g2, g3, g4, g5, g6, g7⟩
    exact ⟨⟨by rw [g1, hw], by rw [g2, ht], by rw [g3, h1], by rw [g4, h2], by rw [g5, h3]⟩, by rw [g6]; rfl,
      by rw [g7]; exact Nat.le_refl _⟩
  obtain ⟨-, hs⟩ := step_cases hs
  cases hs with
  | runAt t p c => exact same (runAt_same s t p)
  | runAfter t p c => exact same (runAt_same s (s.now + t) p)
  | runAsync => exact ⟨⟨hw, ht, h1, h2, h3⟩, rfl, by simp [enqueue, length_insertEntry, AddsTask]⟩
  | runSync => exact ⟨⟨hw, ht, h1, h2, h3⟩, rfl, by simp [enqueue, length_insertEntry, AddsTask]⟩
  | syncReturns t hs hf => rw [h3] at hf; cases hf
  | grow n c =>
    have := hz n c rfl
    subst this
    exact ⟨⟨by simp [hw], rfl, h1, h2, h3⟩, rfl, Nat.le_refl _⟩
  | shrink n c =>
    have := hz n c rfl
    subst this
    exact ⟨⟨by simp [hw], rfl, h1, h2, h3⟩, rfl, Nat.le_refl _⟩
  | schedulerReady i => exact same (schedulerPass_same s i)
  | schedulerMoves i woken e n ws hi hm hk =>
    obtain ⟨g1, g2, g3, g4, g5, g6, g7⟩ := schedulerPass_same { enqueue s e.prio e.task false with
      scheduled := s.scheduled.erase e, workers := ws, moved := s.moved ++ [e] } i
    refine ⟨⟨?_, by rw [g2]; exact ht, by rw [g3]; exact h1, by rw [g4]; exact h2, by rw [g5]; exact h3⟩,
      by rw [g6]; rfl, ?_⟩
    · rw [g1]; exact wake hk
    · rw [g7]; simp [enqueue, length_insertEntry, AddsTask]
  | notifyOne woken ws _ hk => exact ⟨⟨wake hk, ht, h1, h2, h3⟩, rfl, Nat.le_refl _⟩
  | _ =>
    first
    | exact same ⟨rfl, rfl, rfl, rfl, rfl, rfl, rfl⟩
    | exact ⟨⟨by simp [hw], ht, h1, h2, h3⟩, rfl, Nat.le_refl _⟩
    | exact absurd (by assumption) (none_at _ _)

theorem unmanned_run {s s' : State} {evs : List Event} (h : Unmanned s) (hr : run s evs = some s')
    (hz : ∀ n c, .setTarget n c ∈ evs → n = 0) :
    Unmanned s' ∧ s'.syncs.length = s.syncs.length + evs.countP CallsSync ∧
      s.queue.length + evs.countP AddsTask ≤ s'.queue.length := by
  induction evs generalizing s with
  | nil => cases hr; exact ⟨h, rfl, Nat.le_refl _⟩
  | cons ev evs ih =>
    cases h1 : step s ev with
    | none => simp [run, h1] at hr
    | some s₁ =>
      simp only [run, h1] at hr
      obtain ⟨g1, g2, g3⟩ := unmanned_step h h1 fun n c e => hz n c (by simp [e])
      obtain ⟨g4, g5, g6⟩ := ih g1 hr fun n c h => hz n c (List.mem_cons_of_mem _ h)
      rw [List.countP_cons, List.countP_cons]
      refine ⟨g4, ?_, ?_⟩
      · cases hb : CallsSync ev <;> simp [hb] at g2 ⊢ <;> omega
      · cases hb : AddsTask ev <;> simp [hb] at g3 ⊢ <;> omega

/-- A step keeps the target or sets it to what the caller says. -/
theorem target_step {s s' : State} {ev : Event} (hs : step s ev = some s') :
    s'.target = s.target ∨ ∃ c, ev = .setTarget s'.target c := by
  obtain ⟨-, hs⟩ := step_cases hs
  cases hs with
  | runAt t p c => exact .inl (runAt_same s t p).2.1
  | runAfter t p c => exact .inl (runAt_same s (s.now + t) p).2.1
  | grow n c => exact .inr ⟨c, rfl⟩
  | shrink n c => exact .inr ⟨c, rfl⟩
  | schedulerReady i => exact .inl (schedulerPass_same s i).2.1
  | schedulerMoves i woken e n ws => exact .inl (schedulerPass_same _ i).2.1
  | workerReady i =>
    left; unfold workerPass
    split
    · split <;> rfl
    · split <;> rfl
  | workerFinished i =>
    left; unfold workerPass
    split
    · split <;> rfl
    · split <;> rfl
  | _ => exact .inl rfl

theorem target_run {s s' : State} {evs : List Event} (ht : 0 < s.target) (hr : run s evs = some s')
    (hz : ∀ c, .setTarget 0 c ∉ evs) : 0 < s'.target := by
  induction evs generalizing s with
  | nil => cases hr; exact ht
  | cons ev evs ih =>
    cases h1 : step s ev with
    | none => simp [run, h1] at hr
    | some s₁ =>
      simp only [run, h1] at hr
      refine ih ?_ hr fun c h => hz c (List.mem_cons_of_mem _ h)
      rcases target_step h1 with h | ⟨c, rfl⟩
      · omega
      · rcases Nat.eq_zero_or_pos s₁.target with h0 | h0
        · exact absurd (by rw [h0]; exact List.mem_cons_self) (hz c)
        · exact h0

end Pluto.Pool
