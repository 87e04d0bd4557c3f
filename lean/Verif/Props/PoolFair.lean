import Verif.Proofs.PoolFair
import Verif.Props.Pool

/-! # Which tasks a waiting task of a thread pool has to wait for (C123) -/

namespace Pluto.Props
open Pluto.Pool Pluto.Spec.Pool

/-- C123. What is started while an entry is waiting was before it in the queue, or was added later with a higher
priority. -/
theorem C123_overtake {n : Nat} {s s' : State} {e : Entry} {evs : List Event} (h : Reachable n s) (he : e ∈ s.queue)
    (hr : run s evs = some s') (he' : e ∈ s'.queue) :
    ∃ d, s'.started = s.started ++ d ∧ ∀ x ∈ d,
      (x ∈ s.queue ∧ (e.prio < x.prio ∨ e.prio = x.prio ∧ x.seq < e.seq)) ∨ (s.nextSeq ≤ x.seq ∧ e.prio < x.prio) := by
  obtain ⟨d, hd⟩ := since h (.init he) hr he'
  refine ⟨d, hd.started, fun x hx => ?_⟩
  have hb := hd.ahead x hx
  have hs := (ordered h).seqQueue e he
  by_cases hl : Later s x
  · refine .inr ⟨hl, ?_⟩
    unfold Later at hl
    rcases hb with hb | hb
    · exact hb
    · omega
  · exact .inl ⟨hd.later x (List.mem_append_left _ hx) hl, hb⟩

/-- C123. If no entries with a higher priority are added, an entry is started after at most those that are before
it in the queue, whatever else happens: when more have been started, it is among them. Missing: entries with a
higher priority can be added again and again, see `C123_starved`. -/
theorem C123_bounded_partial {n : Nat} {s s' : State} {e : Entry} {evs : List Event} (h : Reachable n s)
    (he : e ∈ s.queue) (hr : run s evs = some s')
    (hp : ∀ x ∈ s'.queue ++ s'.started, s.nextSeq ≤ x.seq → x.prio ≤ e.prio)
    (hk : s.started.length + s.queue.countP (fun x => e.prio < x.prio ∨ e.prio = x.prio ∧ x.seq < e.seq) <
      s'.started.length) : e ∈ s'.started := by
  rcases kept_run (.inl he) hr with he' | he'
  · exfalso
    obtain ⟨d, hd⟩ := since h (.init he) hr he'
    have hs := (ordered h).seqQueue e he
    have old_eq : old s e d = d := by
      unfold old
      rw [List.filter_eq_self]
      intro x hx
      have hb := hd.ahead x hx
      simp only [decide_eq_true_eq]
      refine ⟨fun hl => ?_, hb⟩
      have hle := hp x (List.mem_append_right _ (by rw [hd.started]; exact List.mem_append_right _ hx)) hl
      unfold Later at hl
      rcases hb with hb | hb <;> omega
    have h1 : d.length ≤ (old s e s.queue).length := by
      have := hd.count
      unfold old at this old_eq
      rw [List.filter_append, List.length_append, old_eq] at this
      unfold old
      omega
    have h2 : (old s e s.queue).length ≤
        s.queue.countP (fun x => e.prio < x.prio ∨ e.prio = x.prio ∧ x.seq < e.seq) := by
      unfold old
      rw [← List.countP_eq_length_filter]
      refine List.countP_mono_left fun x _ hx => ?_
      simp only [decide_eq_true_eq] at hx ⊢
      exact hx.2
    rw [hd.started, List.length_append] at hk
    omega
  · exact he'

/-! ## Starvation -/

/-- The task that waits: number 0, with priority 0. -/
def low : Entry := ⟨0, 0, 0, false⟩

/-- A pool with one worker is given task 0, then task 1 with priority 1, which it starts. -/
def starveBegin : List Event := [.runAsync 0 none, .runAsync 1 none, .notifyOne none, .notifyOne none, .worker 0]

/-- Then again and again: a task with priority 1 is given to the pool, the running task returns, the worker goes
on. -/
def starveEvent (k : Nat) : Event :=
  if k % 4 = 0 then .runAsync 1 none else if k % 4 = 1 then .notifyOne none else if k % 4 = 2 then .taskReturns 0
  else .worker 0

/-- The worker is running a task and task 0 waits. -/
structure Starving (s : State) : Prop where
  queue : s.queue = [low]
  workers : ∃ t, s.workers = [.running t]
  crash : s.crash = none
  stage : s.stage = .alive
  target : s.target = 1
  stopping : s.stopping = false
  pending : s.pendingOne = 0

theorem starving_cycle {s : State} (h : Starving s) : ∃ s₁ s₂ s₃ s₄, step s (.runAsync 1 none) = some s₁ ∧
    step s₁ (.notifyOne none) = some s₂ ∧ step s₂ (.taskReturns 0) = some s₃ ∧ step s₃ (.worker 0) = some s₄ ∧
    low ∈ s₁.queue ∧ low ∈ s₂.queue ∧ low ∈ s₃.queue ∧ Starving s₄ ∧ s₄.started.length = s.started.length + 1 ∧
    s₄.completed.length = s.completed.length + 1 := by
  obtain ⟨hq, ⟨t, hw⟩, hc, hs, ht, hp, hn⟩ := h
  cases s
  simp only at hq hw hc hs ht hp hn
  subst hq hw hc hs ht hp hn
  refine ⟨_, _, _, _, rfl, rfl, rfl, rfl, ?_, ?_, ?_, ⟨rfl, ⟨_, rfl⟩, rfl, rfl, rfl, rfl, rfl⟩, ?_, ?_⟩
  · exact List.mem_cons_of_mem _ (List.mem_cons_self ..)
  · exact List.mem_cons_of_mem _ (List.mem_cons_self ..)
  · exact List.mem_cons_of_mem _ (List.mem_cons_self ..)
  · exact List.length_append
  · exact List.length_append

/-- C123. With one worker, which never sleeps, tasks that all return, and no notification missing, a task can wait
forever: an infinite execution of a new pool in which task 0 is submitted, infinitely many tasks are started and
return, and task 0 is waiting all the time. -/
theorem C123_starved : ∃ s : Nat → State, run (init 1) starveBegin = some (s 0) ∧
    (∀ k, step (s k) (starveEvent k) = some (s (k + 1))) ∧ (∀ k, low ∈ (s k).queue ∧ low.prio = 0 ∧ low.task = 0) ∧
    (∀ k, (s (4 * k)).started.length = k + 1 ∧ (s (4 * k)).completed.length = k) := by
  have hb : ∃ s₀, run (init 1) starveBegin = some s₀ ∧ Starving s₀ ∧ s₀.started.length = 1 ∧ s₀.completed.length = 0 :=
    ⟨_, rfl, ⟨rfl, ⟨1, rfl⟩, rfl, rfl, rfl, rfl, rfl⟩, rfl, rfl⟩
  obtain ⟨s₀, hr, hs, h1, h0⟩ := hb
  let σ : Nat → State := fun k => Nat.rec s₀ (fun k s => (step s (starveEvent k)).getD s) k
  have hσ : ∀ k s', step (σ k) (starveEvent k) = some s' → σ (k + 1) = s' := by
    intro k s' h
    show (step (σ k) (starveEvent k)).getD (σ k) = s'
    rw [h]
    rfl
  have e0 : ∀ m, starveEvent (4 * m) = .runAsync 1 none := fun m => if_pos (by omega)
  have e1 : ∀ m, starveEvent (4 * m + 1) = .notifyOne none := fun m => by
    unfold starveEvent; rw [if_neg (by omega), if_pos (by omega)]
  have e2 : ∀ m, starveEvent (4 * m + 2) = .taskReturns 0 := fun m => by
    unfold starveEvent; rw [if_neg (by omega), if_neg (by omega), if_pos (by omega)]
  have e3 : ∀ m, starveEvent (4 * m + 3) = .worker 0 := fun m => by
    unfold starveEvent; rw [if_neg (by omega), if_neg (by omega), if_neg (by omega)]
  have cyc : ∀ m, Starving (σ (4 * m)) → ∃ s₁ s₂ s₃ s₄, step (σ (4 * m)) (.runAsync 1 none) = some s₁ ∧
      step s₁ (.notifyOne none) = some s₂ ∧ step s₂ (.taskReturns 0) = some s₃ ∧ step s₃ (.worker 0) = some s₄ ∧
      low ∈ s₁.queue ∧ low ∈ s₂.queue ∧ low ∈ s₃.queue ∧ Starving s₄ ∧
      s₄.started.length = (σ (4 * m)).started.length + 1 ∧
      s₄.completed.length = (σ (4 * m)).completed.length + 1 ∧
      σ (4 * m + 1) = s₁ ∧ σ (4 * m + 2) = s₂ ∧ σ (4 * m + 3) = s₃ ∧ σ (4 * m + 4) = s₄ := by
    intro m h
    obtain ⟨s₁, s₂, s₃, s₄, a1, a2, a3, a4, q1, q2, q3, h4, hl, hc⟩ := starving_cycle h
    have b1 := hσ (4 * m) s₁ (by rw [e0]; exact a1)
    have b2 := hσ (4 * m + 1) s₂ (by rw [e1, b1]; exact a2)
    have b3 := hσ (4 * m + 2) s₃ (by rw [e2, b2]; exact a3)
    have b4 := hσ (4 * m + 3) s₄ (by rw [e3, b3]; exact a4)
    exact ⟨s₁, s₂, s₃, s₄, a1, a2, a3, a4, q1, q2, q3, h4, hl, hc, b1, b2, b3, b4⟩
  have all : ∀ m, Starving (σ (4 * m)) ∧ (σ (4 * m)).started.length = m + 1 ∧ (σ (4 * m)).completed.length = m := by
    intro m
    induction m with
    | zero => exact ⟨hs, h1, h0⟩
    | succ m ih =>
      obtain ⟨s₁, s₂, s₃, s₄, -, -, -, -, -, -, -, h4, hl, hc, -, -, -, b4⟩ := cyc m ih.1
      rw [show 4 * (m + 1) = 4 * m + 4 by omega, b4]
      exact ⟨h4, by omega, by omega⟩
  refine ⟨σ, hr, ?_, ?_, fun k => (all k).2⟩
  · intro k
    obtain ⟨s₁, s₂, s₃, s₄, a1, a2, a3, a4, -, -, -, -, -, -, b1, b2, b3, b4⟩ := cyc (k / 4) (all _).1
    have hk : k = 4 * (k / 4) ∨ k = 4 * (k / 4) + 1 ∨ k = 4 * (k / 4) + 2 ∨ k = 4 * (k / 4) + 3 := by omega
    generalize k / 4 = m at *
    rcases hk with rfl | rfl | rfl | rfl
    · rw [e0, b1]; exact a1
    · rw [e1, b1, b2]; exact a2
    · rw [e2, b2, b3]; exact a3
    · rw [e3, b3, b4]; exact a4
  · intro k
    refine ⟨?_, rfl, rfl⟩
    obtain ⟨s₁, s₂, s₃, s₄, -, -, -, -, q1, q2, q3, -, -, -, b1, b2, b3, -⟩ := cyc (k / 4) (all _).1
    have hq := (all (k / 4)).1.queue
    have hk : k = 4 * (k / 4) ∨ k = 4 * (k / 4) + 1 ∨ k = 4 * (k / 4) + 2 ∨ k = 4 * (k / 4) + 3 := by omega
    generalize k / 4 = m at *
    rcases hk with rfl | rfl | rfl | rfl
    · rw [hq]; exact List.mem_cons_self ..
    · rw [b1]; exact q1
    · rw [b2]; exact q2
    · rw [b3]; exact q3

/-- A case of `C123_overtake` and `C123_bounded_partial`: tasks 0, 1 and 2 are waiting, with priorities 0, 1 and
0, and one worker starts them. -/
def fairBegin : List Event := [.runAsync 0 none, .runAsync 1 none, .runAsync 0 none]

/-- Task 1 runs, and a task of priority 0 is added; then task 0 is started. -/
def fairRest : List Event := [.worker 0, .runAsync 0 none, .taskReturns 0, .worker 0]

example : ∃ s s' s'' : State, run (init 1) fairBegin = some s ∧ (⟨0, 2, 2, false⟩ : Entry) ∈ s.queue ∧
    run s fairRest = some s' ∧ (⟨0, 2, 2, false⟩ : Entry) ∈ s'.queue ∧
    s'.started = [⟨1, 1, 1, false⟩, ⟨0, 0, 0, false⟩] ∧
    run s' [.taskReturns 0, .worker 0] = some s'' ∧
    (∀ x ∈ s''.queue ++ s''.started, s.nextSeq ≤ x.seq → x.prio ≤ 0) ∧
    s.started.length + s.queue.countP (fun x => 0 < x.prio ∨ 0 = x.prio ∧ x.seq < 2) < s''.started.length := by
  refine ⟨_, _, _, rfl, ?_, rfl, ?_, rfl, rfl, ?_, ?_⟩ <;> decide

end Pluto.Props
