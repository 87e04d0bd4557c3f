import Verif.Model.PoolClock
import Verif.Proofs.PoolSched

/-! # Lemmas about the clock of the thread pool -/

namespace Pluto.PoolClock

open Pool (SPhase Timed)

/-- What holds of scheduled entries (`P`) and of tasks that may start (`Q`). -/
structure Inv (P : Timed → Prop) (Q : Nat → Prop) (s : Pool.State) : Prop where
  scheduled : ∀ x ∈ s.scheduled, P x
  waiting : ∀ e k, SPhase.waiting e k ∈ s.schedulers → P e
  timedOut : ∀ e k, SPhase.timedOut e k ∈ s.schedulers → Q e.task
  queue : ∀ x ∈ s.queue, Q x.task
  started : ∀ x ∈ s.started, Q x.task

theorem Inv.mono {P P' : Timed → Prop} {Q Q' : Nat → Prop} {s : Pool.State} (h : Inv P Q s) (hP : ∀ x, P x → P' x)
    (hQ : ∀ t, Q t → Q' t) : Inv P' Q' s :=
  ⟨fun x hx => hP _ (h.scheduled x hx), fun e k hk => hP _ (h.waiting e k hk), fun e k hk => hQ _ (h.timedOut e k hk),
    fun x hx => hQ _ (h.queue x hx), fun x hx => hQ _ (h.started x hx)⟩

theorem mem_insertEntry {e x : Pool.Entry} {q : List Pool.Entry} : x ∈ Pool.insertEntry e q → x = e ∨ x ∈ q := by
  induction q with
  | nil => simp [Pool.insertEntry]
  | cons y q ih =>
    unfold Pool.insertEntry
    split
    · simp
    · simp only [List.mem_cons]
      rintro (h | h)
      · exact .inr (.inl h)
      · rcases ih h with h | h
        · exact .inl h
        · exact .inr (.inr h)

/-- Only some of the fields matter; schedulers may become ready or end. -/
theorem Inv.of {P : Timed → Prop} {Q : Nat → Prop} {s s' : Pool.State} (h : Inv P Q s)
    (h1 : ∀ x ∈ s'.scheduled, x ∈ s.scheduled)
    (h2 : ∀ p ∈ s'.schedulers, p ∈ s.schedulers ∨ p = .ready ∨ p = .exited)
    (h3 : ∀ x ∈ s'.queue, x ∈ s.queue ∨ Q x.task) (h4 : ∀ x ∈ s'.started, x ∈ s.started ∨ x ∈ s.queue) : Inv P Q s' := by
  refine ⟨fun x hx => h.scheduled x (h1 x hx), fun e k hk => ?_, fun e k hk => ?_, fun x hx => ?_, fun x hx => ?_⟩
  · rcases h2 _ hk with hk | hk | hk
    · exact h.waiting e k hk
    · cases hk
    · cases hk
  · rcases h2 _ hk with hk | hk | hk
    · exact h.timedOut e k hk
    · cases hk
    · cases hk
  · rcases h3 x hx with hx | hx
    · exact h.queue x hx
    · exact hx
  · rcases h4 x hx with hx | hx
    · exact h.started x hx
    · exact h.queue x hx

theorem inv_workerPass {P : Timed → Prop} {Q : Nat → Prop} {s : Pool.State} (h : Inv P Q s) (i : Nat) :
    Inv P Q (Pool.workerPass s i) := by
  unfold Pool.workerPass
  split
  · split
    · exact h.of (fun x hx => hx) (fun p hp => .inl hp) (fun x hx => .inl hx) (fun x hx => .inl hx)
    · rename_i e rest heq
      refine h.of (fun x hx => hx) (fun p hp => .inl hp) (fun x hx => .inl ?_) (fun x hx => ?_)
      · rw [heq]; exact List.mem_cons_of_mem _ hx
      · rcases List.mem_append.1 hx with hx | hx
        · exact .inl hx
        · right; rw [List.mem_singleton] at hx; subst hx; rw [heq]; exact List.mem_cons_self ..
  · split
    · exact h.of (fun x hx => hx) (fun p hp => .inl hp) (fun x hx => .inl hx) (fun x hx => .inl hx)
    · exact h.of (fun x hx => hx) (fun p hp => .inl hp) (fun x hx => .inl hx) (fun x hx => .inl hx)

theorem inv_schedulerPass {P : Timed → Prop} {Q : Nat → Prop} {s : Pool.State} (h : Inv P Q s) (i : Nat) :
    Inv P Q (Pool.schedulerPass s i) := by
  unfold Pool.schedulerPass
  split
  · rename_i e rest heq _
    refine ⟨h.scheduled, fun e' k hk => ?_, fun e' k hk => ?_, h.queue, h.started⟩
    · rcases List.mem_or_eq_of_mem_set hk with hk | hk
      · exact h.waiting _ _ hk
      · cases hk; exact h.scheduled _ (by rw [heq]; exact List.mem_cons_self ..)
    · rcases List.mem_or_eq_of_mem_set hk with hk | hk
      · exact h.timedOut _ _ hk
      · cases hk
  · refine h.of (fun x hx => hx) (fun p hp => ?_) (fun x hx => .inl hx) (fun x hx => .inl hx)
    rcases List.mem_or_eq_of_mem_set hp with hp | hp
    · exact .inl hp
    · exact .inr (.inr hp)
  · split
    · refine h.of (fun x hx => hx) (fun p hp => ?_) (fun x hx => .inl hx) (fun x hx => .inl hx)
      rcases List.mem_or_eq_of_mem_set hp with hp | hp
      · exact .inl hp
      · exact .inr (.inr hp)
    · exact h.of (fun x hx => hx) (fun p hp => .inl hp) (fun x hx => .inl hx) (fun x hx => .inl hx)

theorem inv_runAt {P : Timed → Prop} {Q : Nat → Prop} {s : Pool.State} (h : Inv P Q s) (time prio : Int)
    (hP : P ⟨time, prio, s.nextTask⟩) : Inv P Q (Pool.runAt s time prio) := by
  have key : ∀ s' : Pool.State, s'.scheduled = Pool.insertTimed ⟨time, prio, s.nextTask⟩ s.scheduled →
      s'.schedulers = s.schedulers → s'.queue = s.queue → s'.started = s.started → Inv P Q s' := by
    intro s' h1 h2 h3 h4
    refine ⟨fun x hx => ?_, ?_, ?_, ?_, ?_⟩
    · rw [h1] at hx
      rcases Pool.mem_insertTimed.1 hx with rfl | hx
      · exact hP
      · exact h.scheduled x hx
    · rw [h2]; exact h.waiting
    · rw [h2]; exact h.timedOut
    · rw [h3]; exact h.queue
    · rw [h4]; exact h.started
  unfold Pool.runAt
  simp only
  split
  · exact key _ rfl rfl rfl rfl
  · split
    · exact key _ rfl rfl rfl rfl
    · exact key _ rfl rfl rfl rfl

theorem runAt_next (s : Pool.State) (time prio : Int) : (Pool.runAt s time prio).nextTask = s.nextTask + 1 ∧
    (Pool.runAt s time prio).now = s.now := by
  unfold Pool.runAt; simp only; split
  · exact ⟨rfl, rfl⟩
  · split <;> exact ⟨rfl, rfl⟩

/-- A step of the pool that is not the clock's. -/
theorem inv_step {P : Timed → Prop} {Q : Nat → Prop} {s s' : Pool.State} {ev : Pool.Event} (h : Inv P Q s)
    (hs : Pool.step s ev = some s') (hP : s.nextTask < s'.nextTask → ∀ time prio, P ⟨time, prio, s.nextTask⟩)
    (ht : isTimed ev = false) (hQ : s.nextTask < s'.nextTask → Q s.nextTask) (hPQ : ∀ e, P e → e.time ≤ s.now → Q e.task) : Inv P Q s' := by
  obtain ⟨-, hs⟩ := Pool.step_cases hs
  cases hs with
  | runAsync prio caller hc =>
    refine h.of (fun x hx => hx) (fun p hp => .inl hp) (fun x hx => ?_) (fun x hx => .inl hx)
    rcases mem_insertEntry hx with rfl | hx
    · exact .inr (hQ (Nat.lt_succ_self _))
    · exact .inl hx
  | runSync prio caller hc =>
    refine h.of (fun x hx => hx) (fun p hp => .inl hp) (fun x hx => ?_) (fun x hx => .inl hx)
    rcases mem_insertEntry hx with rfl | hx
    · exact .inr (hQ (Nat.lt_succ_self _))
    · exact .inl hx
  | runAt time prio caller hc => exact inv_runAt h time prio (hP (by rw [(runAt_next s time prio).1]; exact Nat.lt_succ_self _) _ _)
  | runAfter d prio caller hc => cases ht
  | clock t => cases ht
  | createScheduler hc =>
    refine h.of (fun x hx => hx) (fun p hp => ?_) (fun x hx => .inl hx) (fun x hx => .inl hx)
    rcases List.mem_append.1 hp with hp | hp
    · exact .inl hp
    · exact .inr (.inl (List.mem_singleton.1 hp))
  | notifyScheduler i e n hc hi =>
    refine h.of (fun x hx => hx) (fun p hp => ?_) (fun x hx => .inl hx) (fun x hx => .inl hx)
    rcases List.mem_or_eq_of_mem_set hp with hp | hp
    · exact .inl hp
    · exact .inr (.inl hp)
  | spuriousScheduler i e n hi =>
    refine h.of (fun x hx => hx) (fun p hp => ?_) (fun x hx => .inl hx) (fun x hx => .inl hx)
    rcases List.mem_or_eq_of_mem_set hp with hp | hp
    · exact .inl hp
    · exact .inr (.inl hp)
  | workerReady i hi => exact inv_workerPass h i
  | workerFinished i t hi =>
    refine inv_workerPass ?_ i
    exact h.of (fun x hx => hx) (fun p hp => .inl hp) (fun x hx => .inl hx) (fun x hx => .inl hx)
  | schedulerTimeout i e n hi hle =>
    have hm := List.mem_of_getElem? hi
    refine ⟨h.scheduled, fun e' k hk => ?_, fun e' k hk => ?_, h.queue, h.started⟩
    · rcases List.mem_or_eq_of_mem_set hk with hk | hk
      · exact h.waiting _ _ hk
      · cases hk
    · rcases List.mem_or_eq_of_mem_set hk with hk | hk
      · exact h.timedOut _ _ hk
      · cases hk; exact hPQ e (h.waiting _ _ hm) hle
  | schedulerReady i hi => exact inv_schedulerPass h i
  | schedulerMoves i woken e n ws hi he hw =>
    have hm := List.mem_of_getElem? hi
    refine inv_schedulerPass ?_ i
    refine h.of (fun x hx => List.mem_of_mem_erase hx) (fun p hp => .inl hp) (fun x hx => ?_) (fun x hx => .inl hx)
    rcases mem_insertEntry hx with rfl | hx
    · exact .inr (h.timedOut _ _ hm)
    · exact .inl hx
  | stopNotifyScheduler hst =>
    refine h.of (fun x hx => hx) (fun p hp => ?_) (fun x hx => .inl hx) (fun x hx => .inl hx)
    obtain ⟨q, hq, rfl⟩ := List.mem_map.1 hp
    cases q
    · exact .inl hq
    · exact .inr (.inl rfl)
    · exact .inl hq
    · exact .inl hq
  | _ => exact h.of (fun x hx => hx) (fun p hp => .inl hp) (fun x hx => .inl hx) (fun x hx => .inl hx)

theorem now_step {s s' : Pool.State} {ev : Pool.Event} (hs : Pool.step s ev = some s') (ht : isTimed ev = false) :
    s'.now = s.now ∧ s.nextTask ≤ s'.nextTask := by
  obtain ⟨-, hs⟩ := Pool.step_cases hs
  have pass : ∀ (s : Pool.State) i, (Pool.schedulerPass s i).now = s.now ∧ (Pool.schedulerPass s i).nextTask = s.nextTask := by
    intro s i; unfold Pool.schedulerPass; split
    · exact ⟨rfl, rfl⟩
    · exact ⟨rfl, rfl⟩
    · split <;> exact ⟨rfl, rfl⟩
  have work : ∀ (s : Pool.State) i, (Pool.workerPass s i).now = s.now ∧ (Pool.workerPass s i).nextTask = s.nextTask := by
    intro s i; unfold Pool.workerPass; split
    · split <;> exact ⟨rfl, rfl⟩
    · split <;> exact ⟨rfl, rfl⟩
  cases hs with
  | runAsync prio caller hc => exact ⟨rfl, Nat.le_succ _⟩
  | runSync prio caller hc => exact ⟨rfl, Nat.le_succ _⟩
  | runAt time prio caller hc =>
    unfold Pool.runAt; simp only; split
    · exact ⟨rfl, Nat.le_succ _⟩
    · split <;> exact ⟨rfl, Nat.le_succ _⟩
  | runAfter d prio caller hc => cases ht
  | clock t => cases ht
  | workerReady i hi => exact ⟨(work s i).1, Nat.le_of_eq (work s i).2.symm⟩
  | workerFinished i t hi => exact ⟨(work _ i).1, by rw [(work _ i).2]⟩
  | schedulerReady i hi => exact ⟨(pass s i).1, Nat.le_of_eq (pass s i).2.symm⟩
  | schedulerMoves i woken e n ws hi he hw => exact ⟨(pass _ i).1, by rw [(pass _ i).2]; exact Nat.le_refl _⟩
  | _ => exact ⟨rfl, Nat.le_refl _⟩

/-- Entries of the schedule; `f` of the lead of the clock over real time is a lower bound of the lead at the calls. -/
def Entry (f : Int → Int) (s : State) (e : Timed) : Prop :=
  e.task < s.pool.nextTask ∧ ∀ due, (e.task, due) ∈ s.owed → due + f (s.pool.now - s.real) ≤ e.time

/-- Tasks that may start, at most `δ` too early. -/
def May (δ : Int) (s : State) (t : Nat) : Prop := t < s.pool.nextTask ∧ ∀ due, (t, due) ∈ s.owed → due ≤ s.real + δ

structure Good (f : Int → Int) (δ : Int) (s : State) : Prop where
  lead : f (s.pool.now - s.real) ≤ s.pool.now - s.real ∧ s.pool.now - s.real ≤ f (s.pool.now - s.real) + δ
  inv : Inv (Entry f s) (May δ s) s.pool
  calls : ∀ c ∈ s.calls, c.due + f (s.pool.now - s.real) ≤ c.time
  owed : ∀ x ∈ s.owed, x.1 < s.pool.nextTask

theorem good_clock {f : Int → Int} {δ : Int} {s : State} (h : Good f δ s) {t d : Int} (hd : 0 ≤ d)
    (ht : f (t - (s.real + d)) ≤ f (s.pool.now - s.real))
    (hl : f (t - (s.real + d)) ≤ t - (s.real + d) ∧ t - (s.real + d) ≤ f (t - (s.real + d)) + δ)
    {p : Pool.State} (hp : Pool.step s.pool (.clock t) = some p) : Good f δ { s with pool := p, real := s.real + d } := by
  obtain ⟨-, hs⟩ := Pool.step_cases hp
  cases hs
  refine ⟨hl, ?_, ?_, h.owed⟩
  · have := h.inv.mono (P' := Entry f { s with pool := { s.pool with now := t, maxNow := max s.pool.maxNow t }, real := s.real + d })
      (Q' := May δ { s with pool := { s.pool with now := t, maxNow := max s.pool.maxNow t }, real := s.real + d })
      (fun x hx => ⟨hx.1, fun due hdue => by have := hx.2 due hdue; simp only; omega⟩)
      (fun x hx => ⟨hx.1, fun due hdue => by have := hx.2 due hdue; simp only; omega⟩)
    exact ⟨this.scheduled, this.waiting, this.timedOut, this.queue, this.started⟩
  · intro c hc
    have := h.calls c hc
    simp only
    omega

theorem good_step {f : Int → Int} {δ : Int} {s s' : State} {ev : Event} (h : Good f δ s)
    (hok : ∀ t, ev = .set t → f (t - s.real) ≤ f (s.pool.now - s.real) ∧ f (t - s.real) ≤ t - s.real ∧
      t - s.real ≤ f (t - s.real) + δ)
    (hs : step s ev = some s') : Good f δ s' := by
  unfold step at hs
  split at hs
  · cases hs
  cases ev with
  | pass d =>
    simp only at hs
    obtain ⟨p, hp, rfl⟩ := Option.map_eq_some_iff.1 hs
    have e : s.pool.now + d - (s.real + d) = s.pool.now - s.real := by omega
    exact good_clock h (Int.natCast_nonneg d) (by rw [e]; exact Int.le_refl _) (by rw [e]; exact h.lead) hp
  | set t =>
    simp only at hs
    obtain ⟨p, hp, rfl⟩ := Option.map_eq_some_iff.1 hs
    have hok := hok t rfl
    have := good_clock h (t := t) (d := 0) (Int.le_refl 0) (by rw [Int.add_zero]; exact hok.1)
      (by rw [Int.add_zero]; exact hok.2) hp
    simpa using this
  | call d =>
    simp only at hs
    split at hs
    · cases hs
      refine ⟨h.lead, ⟨h.inv.scheduled, h.inv.waiting, h.inv.timedOut, h.inv.queue, h.inv.started⟩, ?_, h.owed⟩
      intro c hc
      rcases List.mem_append.1 hc with hc | hc
      · exact h.calls c hc
      · rw [List.mem_singleton] at hc; subst hc; have := h.lead; simp only; omega
    · cases hs
      exact ⟨h.lead, ⟨h.inv.scheduled, h.inv.waiting, h.inv.timedOut, h.inv.queue, h.inv.started⟩, h.calls, h.owed⟩
  | enter i prio caller =>
    simp only at hs
    split at hs
    · cases hs
    · rename_i c hc
      obtain ⟨p, hp, rfl⟩ := Option.map_eq_some_iff.1 hs
      have hnow := now_step hp rfl
      have hcm := List.mem_of_getElem? hc
      have hnext : p.nextTask = s.pool.nextTask + 1 := by
        obtain ⟨-, hs⟩ := Pool.step_cases hp
        cases hs
        exact (runAt_next _ _ _).1
      have hno : ∀ due, (s.pool.nextTask, due) ∉ s.owed := fun due hm => Nat.lt_irrefl _ (h.owed _ hm)
      refine ⟨by simp only [hnow.1]; exact h.lead, ?_, ?_, ?_⟩
      · have hinv := h.inv.mono
          (P' := Entry f { s with pool := p, calls := s.calls.eraseIdx i, owed := (s.pool.nextTask, c.due) :: s.owed })
          (Q' := May δ { s with pool := p, calls := s.calls.eraseIdx i, owed := (s.pool.nextTask, c.due) :: s.owed })
          (fun x hx => ⟨by simp only [hnext]; exact Nat.lt_succ_of_lt hx.1, fun due hdue => by
            rcases List.mem_cons.1 hdue with hdue | hdue
            · have := hx.1; simp only [Prod.mk.injEq] at hdue; omega
            · have := hx.2 due hdue; simp only [hnow.1]; omega⟩)
          (fun x hx => ⟨by simp only [hnext]; exact Nat.lt_succ_of_lt hx.1, fun due hdue => by
            rcases List.mem_cons.1 hdue with hdue | hdue
            · have := hx.1; simp only [Prod.mk.injEq] at hdue; omega
            · exact hx.2 due hdue⟩)
        obtain ⟨-, hs'⟩ := Pool.step_cases hp
        cases hs'
        refine inv_runAt hinv _ _ ⟨by simp only [hnext]; omega, fun due hdue => ?_⟩
        rcases List.mem_cons.1 hdue with hdue | hdue
        · have := h.calls c hcm
          simp only [Prod.mk.injEq, true_and] at hdue
          simp only [hnow.1, hdue]
          omega
        · exact absurd hdue (hno due)
      · intro x hx
        have := h.calls x (List.mem_of_mem_eraseIdx hx)
        simp only [hnow.1]
        exact this
      · intro x hx
        simp only [hnext]
        rcases List.mem_cons.1 hx with rfl | hx
        · exact Nat.lt_succ_self _
        · exact Nat.lt_succ_of_lt (h.owed x hx)
  | pool ev =>
    simp only at hs
    split at hs
    · cases hs
    · rename_i ht
      obtain ⟨p, hp, rfl⟩ := Option.map_eq_some_iff.1 hs
      have ht : isTimed ev = false := by simpa using ht
      have hnow := now_step hp ht
      have hno : ∀ due, (s.pool.nextTask, due) ∉ s.owed := fun due hm => Nat.lt_irrefl _ (h.owed _ hm)
      refine ⟨by simp only [hnow.1]; exact h.lead, ?_, ?_, fun x hx => Nat.lt_of_lt_of_le (h.owed x hx) hnow.2⟩
      · refine inv_step (h.inv.mono (fun x hx => ?_) (fun x hx => ?_)) hp ?_ ht ?_ ?_
        · exact ⟨Nat.lt_of_lt_of_le hx.1 hnow.2, fun due hdue => by have := hx.2 due hdue; simp only [hnow.1]; exact this⟩
        · exact ⟨Nat.lt_of_lt_of_le hx.1 hnow.2, hx.2⟩
        · exact fun hlt time prio => ⟨hlt, fun due hdue => absurd hdue (hno due)⟩
        · exact fun hlt => ⟨hlt, fun due hdue => absurd hdue (hno due)⟩
        · intro e he hle
          refine ⟨he.1, fun due hdue => ?_⟩
          have := he.2 due hdue
          have := h.lead
          simp only [hnow.1] at *
          omega
      · intro c hc
        have := h.calls c hc
        simp only [hnow.1]
        exact this

theorem good_init {f : Int → Int} {δ : Int} {n : Nat} {now : Int} (h : f now ≤ now ∧ now ≤ f now + δ) :
    Good f δ (init n now) := by
  refine ⟨?_, ⟨?_, ?_, ?_, ?_, ?_⟩, ?_, ?_⟩ <;> simp [init, Pool.init, h]

/-- The clock is never set forward. -/
theorem good {n : Nat} {now : Int} {s : State} (h : Reachable (fun s t => t ≤ s.pool.now) n now s) : Good id 0 s := by
  induction h with
  | init => exact good_init (by simp)
  | step ev _ hok hs ih => exact good_step ih (fun t ht => by have := hok t ht; simp only [id]; omega) hs

/-- The clock is always right to some extent. -/
theorem good_right {n : Nat} {now lo hi : Int} {s : State} (h0 : lo ≤ now ∧ now ≤ hi)
    (h : Reachable (fun s t => lo ≤ t - s.real ∧ t - s.real ≤ hi) n now s) : Good (fun _ => lo) (hi - lo) s := by
  induction h with
  | init => exact good_init (by omega)
  | step ev _ hok hs ih => exact good_step ih (fun t ht => by have := hok t ht; omega) hs

end Pluto.PoolClock
