import Verif.Proofs.PoolSched
import Verif.Spec.Pool

/-! # Lemmas about the thread pool: calm executions and the scheduler thread -/

namespace Pluto.Pool
open Pluto.Spec.Pool

theorem CalmReachable.reachable {n : Nat} {s : State} (h : CalmReachable n s) : Reachable n s := by
  induction h with
  | init => exact .init
  | step ev _ _ hs ih => exact .step ev ih hs

structure CalmInv (s : State) : Prop where
  crash : s.crash = none ∨ s.crash = some .taskThrew
  one : s.creating + s.assigning.length ≤ 1
  excl : s.scheduler.isSome → s.creating = 0 ∧ s.assigning = []
  creatingIdle : 0 < s.creating → ∀ p ∈ s.schedulers, p = .exited
  bound : ∀ i, i ∈ s.assigning → i < s.schedulers.length
  only : ∀ i p, s.schedulers[i]? = some p → p = .exited ∨ s.scheduler = some i ∨ s.assigning = [i]
  alive : s.stopping = false → ∀ i, s.scheduler = some i ∨ s.assigning = [i] →
    ∃ p, s.schedulers[i]? = some p ∧ p ≠ .exited
  present : ∀ e k, (.waiting e k ∈ s.schedulers ∨ .timedOut e k ∈ s.schedulers) → e ∈ s.scheduled
  noTimeout : s.assigning ≠ [] → ∀ e k, .timedOut e k ∉ s.schedulers
  nonempty : (0 < s.creating ∨ s.assigning ≠ []) → s.scheduled ≠ []
  tended : s.stopping = false → s.scheduled ≠ [] →
    s.scheduler.isSome ∨ 0 < s.creating ∨ s.assigning ≠ []
  prompt : ∀ e k, .waiting e k ∈ s.schedulers →
    (∀ x ∈ s.scheduled, e.time ≤ x.time) ∨ 0 < s.pendingSched

theorem CalmInv.same {s s' : State} (h : CalmInv s)
    (h0 : s'.crash = s.crash ∨ s'.crash = some .taskThrew) (h1 : s'.creating = s.creating)
    (h2 : s'.assigning = s.assigning) (h3 : s'.scheduler = s.scheduler)
    (h4 : s'.schedulers = s.schedulers) (h5 : s'.scheduled = s.scheduled)
    (h6 : s'.pendingSched = s.pendingSched) (h7 : s.stopping = true → s'.stopping = true) :
    CalmInv s' := by
  obtain ⟨a1, a2, a3, a4, a5, a6, a7, a8, a9, a10, a11, a12⟩ := h
  have h7' : s'.stopping = false → s.stopping = false := by
    intro h; cases hs : s.stopping
    · rfl
    · rw [h7 hs] at h; exact h
  constructor <;> (try simp only [h1, h2, h3, h4, h5, h6])
  · rcases h0 with h0 | h0
    · rw [h0]; exact a1
    · exact .inr h0
  · exact a2
  · exact a3
  · exact a4
  · exact a5
  · exact a6
  · exact fun h => a7 (h7' h)
  · exact a8
  · exact a9
  · exact a10
  · exact fun h => a11 (h7' h)
  · exact a12

/-- A scheduler wakes up. -/
theorem CalmInv.wake {s s' : State} (h : CalmInv s) (i : Nat) (e : Timed) (k : Nat)
    (hi : s.schedulers[i]? = some (.waiting e k))
    (h0 : s'.crash = s.crash) (h1 : s'.creating = s.creating)
    (h2 : s'.assigning = s.assigning) (h3 : s'.scheduler = s.scheduler)
    (h4 : s'.schedulers = s.schedulers.set i .ready) (h5 : s'.scheduled = s.scheduled)
    (h7 : s'.stopping = s.stopping) : CalmInv s' := by
  obtain ⟨a1, a2, a3, a4, a5, a6, a7, a8, a9, a10, a11, a12⟩ := h
  have hlt : i < s.schedulers.length := by
    rw [List.getElem?_eq_some_iff] at hi; exact hi.1
  have only' : ∀ j p, (s.schedulers.set i .ready)[j]? = some p →
      p = .exited ∨ s.scheduler = some j ∨ s.assigning = [j] := by
    intro j p hj
    by_cases hij : i = j
    · subst hij
      rcases a6 i _ hi with h | h
      · cases h
      · exact .inr h
    · rw [List.getElem?_set_ne hij] at hj
      exact a6 j p hj
  have nowait : ∀ e' k', SPhase.waiting e' k' ∉ s.schedulers.set i .ready := by
    intro e' k' hm
    obtain ⟨j, hj⟩ := List.mem_iff_getElem?.1 hm
    by_cases hij : i = j
    · subst hij
      rw [List.getElem?_set_self hlt] at hj
      cases hj
    · rw [List.getElem?_set_ne hij] at hj
      have c1 := a6 i _ hi
      have c2 := a6 j _ hj
      simp only [reduceCtorEq, false_or] at c1 c2
      rcases c1 with c1 | c1 <;> rcases c2 with c2 | c2
      · rw [c1] at c2; cases c2; exact hij rfl
      · have := (a3 (by rw [c1]; rfl)).2; rw [this] at c2; cases c2
      · have := (a3 (by rw [c2]; rfl)).2; rw [this] at c1; cases c1
      · rw [c1] at c2; cases c2; exact hij rfl
  have timed : ∀ e' k', SPhase.timedOut e' k' ∈ s.schedulers.set i .ready →
      SPhase.timedOut e' k' ∈ s.schedulers := by
    intro e' k' hm
    rcases List.mem_or_eq_of_mem_set hm with hm | hm
    · exact hm
    · cases hm
  constructor <;> simp only [h0, h1, h2, h3, h4, h5, h7]
  · exact a1
  · exact a2
  · exact a3
  · intro hc
    have := a4 hc _ (List.mem_of_getElem? hi)
    cases this
  · simpa using a5
  · exact only'
  · intro hns j hj
    by_cases hij : i = j
    · subst hij
      exact ⟨.ready, by rw [List.getElem?_set_self hlt], by simp⟩
    · rw [List.getElem?_set_ne hij]
      exact a7 hns j hj
  · intro e' k' hm
    rcases hm with hm | hm
    · exact absurd hm (nowait _ _)
    · exact a8 e' k' (.inr (timed _ _ hm))
  · exact fun hn e' k' hm => a9 hn e' k' (timed _ _ hm)
  · exact a10
  · exact a11
  · exact fun e' k' hm => absurd hm (nowait _ _)

/-- Two scheduler threads are never alive at the same time. -/
theorem CalmInv.unique {s : State} (h : CalmInv s) {i j : Nat} {p q : SPhase}
    (hi : s.schedulers[i]? = some p) (hj : s.schedulers[j]? = some q) (hp : p ≠ .exited)
    (hq : q ≠ .exited) : i = j := by
  have c1 := h.only i _ hi
  have c2 := h.only j _ hj
  simp only [hp, hq, false_or] at c1 c2
  rcases c1 with c1 | c1 <;> rcases c2 with c2 | c2
  · rw [c1] at c2; cases c2; rfl
  · have := (h.excl (by rw [c1]; rfl)).2; rw [this] at c2; cases c2
  · have := (h.excl (by rw [c2]; rfl)).2; rw [this] at c1; cases c1
  · rw [c1] at c2; cases c2; rfl

theorem calm_pass {s : State} {i : Nat} (hlt : i < s.schedulers.length)
    (h : CalmInv { s with schedulers := s.schedulers.set i .ready })
    (hs : s.scheduled.Pairwise DueBefore) : CalmInv (schedulerPass s i) := by
  have hget : (s.schedulers.set i SPhase.ready)[i]? = some .ready := by
    rw [List.getElem?_set_self hlt]
  have hmem : SPhase.ready ∈ s.schedulers.set i .ready := List.mem_of_getElem? hget
  have uniq : ∀ j p, j ≠ i → s.schedulers[j]? = some p → p = .exited := by
    intro j p hj hjp
    by_contra hp
    have hjp' : (s.schedulers.set i SPhase.ready)[j]? = some p := by
      rw [List.getElem?_set_ne (Ne.symm hj)]; exact hjp
    exact hj (h.unique hjp' hget hp (by simp))
  have memset : ∀ x p, p ∈ s.schedulers.set i x → p = x ∨ p = .exited := by
    intro x p hm
    obtain ⟨j, hj⟩ := List.mem_iff_getElem?.1 hm
    by_cases hij : i = j
    · subst hij
      rw [List.getElem?_set_self hlt] at hj
      cases hj; exact .inl rfl
    · rw [List.getElem?_set_ne hij] at hj
      exact .inr (uniq j p (Ne.symm hij) hj)
  obtain ⟨a1, a2, a3, a4, a5, a6, a7, a8, a9, a10, a11, a12⟩ := h
  simp only [List.length_set] at a1 a2 a3 a4 a5 a6 a7 a8 a9 a10 a11 a12
  have notCreating : ¬ 0 < s.creating := by
    intro hc
    have := a4 hc _ hmem
    cases this
  have holder := a6 i _ hget
  simp only [reduceCtorEq, false_or] at holder
  have only' : ∀ x j p, (s.schedulers.set i x)[j]? = some p →
      p = .exited ∨ s.scheduler = some j ∨ s.assigning = [j] := by
    intro x j p hj
    by_cases hij : i = j
    · subst hij; exact .inr holder
    · rw [List.getElem?_set_ne hij] at hj
      exact .inl (uniq j p (Ne.symm hij) hj)
  unfold schedulerPass
  split
  · rename_i e rest heq hns
    have hmin : ∀ x ∈ s.scheduled, e.time ≤ x.time := by
      rw [heq] at hs ⊢
      rw [List.pairwise_cons] at hs
      intro x hx
      rcases List.mem_cons.1 hx with rfl | hx
      · exact Int.le_refl _
      · rcases hs.1 x hx with h | h
        · omega
        · omega
    have hmeme : e ∈ s.scheduled := by rw [heq]; exact List.mem_cons_self ..
    constructor <;> simp only [List.length_set]
    · exact a1
    · exact a2
    · exact a3
    · exact fun hc => absurd hc notCreating
    · exact a5
    · exact only' _
    · intro _ j hj
      by_cases hij : i = j
      · subst hij
        exact ⟨.waiting e s.nextTask, by rw [List.getElem?_set_self hlt], by simp⟩
      · obtain ⟨p, hp, hpe⟩ := a7 hns j hj
        rw [List.getElem?_set_ne hij] at hp ⊢
        exact ⟨p, hp, hpe⟩
    · intro e' k' hm
      rcases hm with hm | hm
      · rcases memset _ _ hm with hm | hm
        · cases hm; exact hmeme
        · cases hm
      · rcases memset _ _ hm with hm | hm <;> cases hm
    · intro _ e' k' hm
      rcases memset _ _ hm with hm | hm <;> cases hm
    · exact a10
    · exact a11
    · intro e' k' hm
      rcases memset _ _ hm with hm | hm
      · cases hm; exact .inl hmin
      · cases hm
  · rename_i hst
    constructor <;> simp only [List.length_set, hst]
    · exact a1
    · exact a2
    · exact a3
    · exact fun hc => absurd hc notCreating
    · exact a5
    · exact only' _
    · intro h; cases h
    · intro e' k' hm
      rcases hm with hm | hm
      · rcases memset _ _ hm with hm | hm <;> cases hm
      · rcases memset _ _ hm with hm | hm <;> cases hm
    · intro _ e' k' hm
      rcases memset _ _ hm with hm | hm <;> cases hm
    · exact a10
    · intro h; cases h
    · intro e' k' hm
      rcases memset _ _ hm with hm | hm <;> cases hm
  · rename_i heq hns
    have hs' : s.scheduler = some i := by
      rcases holder with h | h
      · exact h
      · exact absurd heq (a10 (.inr (by rw [h]; simp)))
    have hex := a3 (by rw [hs']; rfl)
    split
    · constructor <;> simp only [List.length_set, heq]
      · exact a1
      · exact a2
      · intro h; cases h
      · exact fun hc => absurd hc notCreating
      · exact a5
      · intro j p hj
        by_cases hij : i = j
        · subst hij
          rw [List.getElem?_set_self hlt] at hj
          cases hj; exact .inl rfl
        · rw [List.getElem?_set_ne hij] at hj
          exact .inl (uniq j p (Ne.symm hij) hj)
      · intro _ j hj
        rcases hj with hj | hj
        · cases hj
        · rw [hex.2] at hj; cases hj
      · intro e' k' hm
        rcases hm with hm | hm
        · rcases memset _ _ hm with hm | hm <;> cases hm
        · rcases memset _ _ hm with hm | hm <;> cases hm
      · intro _ e' k' hm
        rcases memset _ _ hm with hm | hm <;> cases hm
      · intro hc
        rcases hc with hc | hc
        · exact absurd hc notCreating
        · exact absurd hex.2 hc
      · intro _ h; exact absurd rfl h
      · intro e' k' hm
        rcases memset _ _ hm with hm | hm <;> cases hm
    · rename_i hno; rw [hs'] at hno; cases hno

theorem head_insertTimed {e : Timed} {q : List Timed}
    (h : (insertTimed e q).head?.map (·.time) ≠ some e.time) : ∃ x ∈ q, x.time ≤ e.time := by
  cases q with
  | nil => simp [insertTimed] at h
  | cons y q =>
    unfold insertTimed at h
    split at h
    · simp at h
    · exact ⟨y, List.mem_cons_self .., by omega⟩

theorem calm_runAt {s : State} (h : CalmInv s) (hc : s.creating = 0 ∧ s.assigning = [])
    (time prio : Int) : CalmInv (runAt s time prio) := by
  obtain ⟨a1, a2, a3, a4, a5, a6, a7, a8, a9, a10, a11, a12⟩ := h
  have hne : insertTimed ⟨time, prio, s.nextTask⟩ s.scheduled ≠ [] := by
    intro hn
    have : (⟨time, prio, s.nextTask⟩ : Timed) ∈ insertTimed ⟨time, prio, s.nextTask⟩ s.scheduled :=
      mem_insertTimed.2 (.inl rfl)
    rw [hn] at this; cases this
  have pres : ∀ e k, (SPhase.waiting e k ∈ s.schedulers ∨ SPhase.timedOut e k ∈ s.schedulers) →
      e ∈ insertTimed ⟨time, prio, s.nextTask⟩ s.scheduled :=
    fun e k hm => mem_insertTimed.2 (.inr (a8 e k hm))
  unfold runAt
  simp only
  split
  · rename_i hnone
    have hsn : s.scheduler = none := by simpa using hnone
    have allEx : ∀ p ∈ s.schedulers, p = .exited := by
      intro p hp
      obtain ⟨j, hj⟩ := List.mem_iff_getElem?.1 hp
      rcases a6 j p hj with h | h | h
      · exact h
      · rw [hsn] at h; cases h
      · rw [hc.2] at h; cases h
    constructor <;> simp only [hsn, hc.1, hc.2]
    · exact a1
    · simp
    · intro h; cases h
    · exact fun _ => allEx
    · intro i hi; cases hi
    · intro j p hj; exact .inl (allEx p (List.mem_of_getElem? hj))
    · intro _ i hi
      rcases hi with hi | hi <;> cases hi
    · exact pres
    · intro h; exact absurd rfl h
    · exact fun _ => hne
    · intro _ _; right; left; omega
    · intro e k hm
      have := allEx _ hm; cases this
  · rename_i hsome
    have hss : s.scheduler.isSome := by
      cases hsc : s.scheduler <;> simp_all
    split
    · constructor <;> simp only [hc.1, hc.2] at *
      · exact a1
      · omega
      · exact a3
      · exact a4
      · exact a5
      · exact a6
      · exact a7
      · exact pres
      · exact a9
      · exact fun _ => hne
      · exact fun _ _ => .inl hss
      · exact fun _ _ _ => .inr (by omega)
    · rename_i hhead
      obtain ⟨x0, hx0, hle⟩ := head_insertTimed hhead
      constructor <;> simp only [hc.1, hc.2] at *
      · exact a1
      · omega
      · exact a3
      · exact a4
      · exact a5
      · exact a6
      · exact a7
      · exact pres
      · exact a9
      · exact fun _ => hne
      · exact fun _ _ => .inl hss
      · intro e k hm
        rcases a12 e k hm with h | h
        · left
          intro x hx
          rcases mem_insertTimed.1 hx with rfl | hx
          · have := h x0 hx0
            simp only; omega
          · exact h x hx
        · exact .inr h

theorem calm_step {s s' : State} {ev : Event} (h : CalmInv s) (hl : Live s) (hsc : Sched s) (hc : Calm s ev)
    (hs : step s ev = some s') : CalmInv s' := by
  obtain ⟨hcr, hs⟩ := step_cases hs
  cases hs with
  | runAt time prio caller hcall => exact calm_runAt h hc time prio
  | runAfter d prio caller hcall => exact calm_runAt h hc _ prio
  | createScheduler hpos =>
    obtain ⟨a1, a2, a3, a4, a5, a6, a7, a8, a9, a10, a11, a12⟩ := h
    have hc1 : s.creating = 1 := by omega
    have ha : s.assigning = [] := List.eq_nil_of_length_eq_zero (by omega)
    have hsn : s.scheduler = none := by
      cases hsc' : s.scheduler with
      | none => rfl
      | some i => have := a3 (by rw [hsc']; rfl); omega
    have ex := a4 hpos
    have mem' : ∀ p, p ∈ s.schedulers ++ [SPhase.ready] → p = .exited ∨ p = .ready := by
      intro p hp
      rcases List.mem_append.1 hp with hp | hp
      · exact .inl (ex p hp)
      · exact .inr (List.mem_singleton.1 hp)
    constructor <;> simp only [hc1, ha, hsn]
    · exact a1
    · simp
    · intro h; cases h
    · intro h; omega
    · intro i hi; rw [List.mem_singleton] at hi; subst hi; simp
    · intro j p hj
      by_cases hlt : j < s.schedulers.length
      · rw [List.getElem?_append_left hlt] at hj
        exact .inl (ex p (List.mem_of_getElem? hj))
      · by_cases hje : j = s.schedulers.length
        · subst hje; exact .inr (.inr rfl)
        · rw [List.getElem?_eq_none (by simp; omega)] at hj; cases hj
    · intro _ i hi
      rcases hi with hi | hi
      · cases hi
      · cases hi
        exact ⟨.ready, by simp, by simp⟩
    · intro e k hm
      rcases hm with hm | hm
      · rcases mem' _ hm with h | h <;> cases h
      · rcases mem' _ hm with h | h <;> cases h
    · intro _ e k hm
      rcases mem' _ hm with h | h <;> cases h
    · exact fun _ => a10 (.inl hpos)
    · intro _ _; right; right; simp
    · intro e k hm
      rcases mem' _ hm with h | h <;> cases h
  | assignTwice i j hi hj =>
    have := (h.excl (by rw [hj]; rfl)).2
    rw [this] at hi; cases hi
  | assignScheduler i hi hj =>
    obtain ⟨a1, a2, a3, a4, a5, a6, a7, a8, a9, a10, a11, a12⟩ := h
    have hlen : 0 < s.assigning.length := List.length_pos_of_mem hi
    have ha : s.assigning = [i] := by
      obtain ⟨x, hx⟩ := List.length_eq_one_iff.1 (show s.assigning.length = 1 by omega)
      rw [hx] at hi ⊢
      rw [List.mem_singleton] at hi; rw [hi]
    have hc0 : s.creating = 0 := by omega
    constructor <;> simp only [ha, hc0, List.erase_cons_head]
    · exact a1
    · simp
    · simp
    · intro h; omega
    · intro j hj; cases hj
    · intro j p hj'
      rcases a6 j p hj' with h | h | h
      · exact .inl h
      · rw [hj] at h; cases h
      · rw [ha] at h; cases h; exact .inr (.inl rfl)
    · intro hns j hj'
      rcases hj' with hj' | hj'
      · cases hj'; exact a7 hns i (.inr ha)
      · cases hj'
    · exact a8
    · intro h; exact absurd rfl h
    · intro h; rcases h with h | h
      · omega
      · exact absurd rfl h
    · intro _ _; simp
    · exact a12
  | notifyScheduler i e n hp hi => exact h.wake i e n hi rfl rfl rfl rfl rfl rfl rfl
  | notifyNoScheduler hp hn =>
    obtain ⟨a1, a2, a3, a4, a5, a6, a7, a8, a9, a10, a11, a12⟩ := h
    refine ⟨a1, a2, a3, a4, a5, a6, a7, a8, a9, a10, a11, ?_⟩
    intro e k hm
    rw [List.any_eq_false] at hn
    exact absurd rfl (hn _ hm)
  | spuriousScheduler i e n hi => exact h.wake i e n hi rfl rfl rfl rfl rfl rfl rfl
  | workerReady i hi =>
    unfold workerPass; split
    · split <;> exact h.same (.inl rfl) rfl rfl rfl rfl rfl rfl id
    · split <;> exact h.same (.inl rfl) rfl rfl rfl rfl rfl rfl id
  | workerFinished i t hi =>
    unfold workerPass; split
    · split <;> exact h.same (.inl rfl) rfl rfl rfl rfl rfl rfl id
    · split <;> exact h.same (.inl rfl) rfl rfl rfl rfl rfl rfl id
  | taskThrows i t hi => exact h.same (.inr rfl) rfl rfl rfl rfl rfl rfl id
  | schedulerTimeout i e n hi ht =>
    have hlt : i < s.schedulers.length := by
      rw [List.getElem?_eq_some_iff] at hi; exact hi.1
    have hmem := List.mem_of_getElem? hi
    have ha : s.assigning = [] := hc
    have uniq : ∀ j p, j ≠ i → s.schedulers[j]? = some p → p = .exited := by
      intro j p hj hjp
      by_contra hp
      exact hj (h.unique hjp hi hp (by simp))
    have memset : ∀ x p, p ∈ s.schedulers.set i x → p = x ∨ p = .exited := by
      intro x p hm
      obtain ⟨j, hj⟩ := List.mem_iff_getElem?.1 hm
      by_cases hij : i = j
      · subst hij
        rw [List.getElem?_set_self hlt] at hj
        cases hj; exact .inl rfl
      · rw [List.getElem?_set_ne hij] at hj
        exact .inr (uniq j p (Ne.symm hij) hj)
    obtain ⟨a1, a2, a3, a4, a5, a6, a7, a8, a9, a10, a11, a12⟩ := h
    constructor <;> simp only [List.length_set]
    · exact a1
    · exact a2
    · exact a3
    · intro hcr'
      have := a4 hcr' _ hmem; cases this
    · exact a5
    · intro j p hj
      by_cases hij : i = j
      · subst hij
        have := a6 i _ hi
        simp only [reduceCtorEq, false_or] at this
        exact .inr this
      · rw [List.getElem?_set_ne hij] at hj; exact a6 j p hj
    · intro hns j hj
      by_cases hij : i = j
      · subst hij
        exact ⟨.timedOut e n, by rw [List.getElem?_set_self hlt], by simp⟩
      · rw [List.getElem?_set_ne hij]; exact a7 hns j hj
    · intro e' k' hm
      rcases hm with hm | hm
      · rcases memset _ _ hm with hm | hm <;> cases hm
      · rcases memset _ _ hm with hm | hm
        · cases hm; exact a8 _ _ (.inl hmem)
        · cases hm
    · intro hn; exact absurd ha hn
    · exact a10
    · exact a11
    · intro e' k' hm
      rcases memset _ _ hm with hm | hm <;> cases hm
  | schedulerReady i hi =>
    have hlt : i < s.schedulers.length := by
      rw [List.getElem?_eq_some_iff] at hi; exact hi.1
    refine calm_pass hlt ?_ hsc.sorted
    have : s.schedulers.set i .ready = s.schedulers := by
      rw [List.getElem?_eq_some_iff] at hi
      obtain ⟨h1, h2⟩ := hi
      rw [← h2]; simp
    rw [this]; exact h
  | schedulerDangling i woken e n hi he =>
    exact absurd (h.present e n (.inr (List.mem_of_getElem? hi))) he
  | schedulerMoves i woken e n ws hi he hw =>
    have hlt : i < s.schedulers.length := by
      rw [List.getElem?_eq_some_iff] at hi; exact hi.1
    have hmem := List.mem_of_getElem? hi
    have ha : s.assigning = [] := by
      by_contra hne
      exact h.noTimeout hne _ _ hmem
    have notCreating : ¬ 0 < s.creating := by
      intro hcr'
      have := h.creatingIdle hcr' _ hmem; cases this
    have uniq : ∀ j p, j ≠ i → s.schedulers[j]? = some p → p = .exited := by
      intro j p hj hjp
      by_contra hp
      exact hj (h.unique hjp hi hp (by simp))
    have memset : ∀ x p, p ∈ s.schedulers.set i x → p = x ∨ p = .exited := by
      intro x p hm
      obtain ⟨j, hj⟩ := List.mem_iff_getElem?.1 hm
      by_cases hij : i = j
      · subst hij
        rw [List.getElem?_set_self hlt] at hj
        cases hj; exact .inl rfl
      · rw [List.getElem?_set_ne hij] at hj
        exact .inr (uniq j p (Ne.symm hij) hj)
    refine calm_pass hlt ?_ (hsc.sorted.sublist List.erase_sublist)
    obtain ⟨a1, a2, a3, a4, a5, a6, a7, a8, a9, a10, a11, a12⟩ := h
    have holder := a6 i _ hi
    simp only [reduceCtorEq, false_or] at holder
    have hss : s.scheduler = some i := by
      rcases holder with h | h
      · exact h
      · rw [ha] at h; cases h
    constructor <;> simp only [enqueue, List.length_set]
    · exact a1
    · exact a2
    · exact a3
    · exact fun hc => absurd hc notCreating
    · exact a5
    · intro j p hj
      by_cases hij : i = j
      · subst hij; exact .inr holder
      · rw [List.getElem?_set_ne hij] at hj; exact a6 j p hj
    · intro hns j hj
      by_cases hij : i = j
      · subst hij
        exact ⟨.ready, by rw [List.getElem?_set_self hlt], by simp⟩
      · rw [List.getElem?_set_ne hij]; exact a7 hns j hj
    · intro e' k' hm
      rcases hm with hm | hm
      · rcases memset _ _ hm with hm | hm <;> cases hm
      · rcases memset _ _ hm with hm | hm <;> cases hm
    · intro hn; exact absurd ha hn
    · intro hc
      rcases hc with hc | hc
      · exact absurd hc notCreating
      · exact absurd ha hc
    · intro _ _; left; rw [hss]; rfl
    · intro e' k' hm
      rcases memset _ _ hm with hm | hm <;> cases hm
  | stop hst => exact h.same (.inl rfl) rfl rfl rfl rfl rfl rfl (fun _ => rfl)
  | stopNotifyScheduler hst =>
    have hstop : s.stopping = true := hl.stage.2 (by rw [hst]; decide)
    have mem' : ∀ p, p ∈ s.schedulers.map wakeScheduler → p = .ready ∨ p ∈ s.schedulers := by
      intro p hp
      obtain ⟨q, hq, rfl⟩ := List.mem_map.1 hp
      cases q
      · exact .inl rfl
      · exact .inl rfl
      · exact .inr hq
      · exact .inr hq
    have nowait : ∀ e k, SPhase.waiting e k ∉ s.schedulers.map wakeScheduler := by
      intro e k hp
      obtain ⟨q, hq, hqe⟩ := List.mem_map.1 hp
      cases q <;> cases hqe
    obtain ⟨a1, a2, a3, a4, a5, a6, a7, a8, a9, a10, a11, a12⟩ := h
    constructor <;> simp only [List.length_map, hstop]
    · exact a1
    · exact a2
    · exact a3
    · intro hcr' p hp
      obtain ⟨q, hq, rfl⟩ := List.mem_map.1 hp
      rw [a4 hcr' q hq]; rfl
    · exact a5
    · intro j p hj
      rw [List.getElem?_map, Option.map_eq_some_iff] at hj
      obtain ⟨q, hq, rfl⟩ := hj
      rcases a6 j q hq with h | h
      · subst h; exact .inl rfl
      · exact .inr h
    · intro h; cases h
    · intro e k hm
      rcases hm with hm | hm
      · exact absurd hm (nowait e k)
      · rcases mem' _ hm with h | h
        · cases h
        · exact a8 e k (.inr h)
    · intro hn e k hm
      rcases mem' _ hm with h | h
      · cases h
      · exact a9 hn e k h
    · exact a10
    · intro h; cases h
    · exact fun e k hm => absurd hm (nowait e k)
  | _ => exact h.same (.inl rfl) rfl rfl rfl rfl rfl rfl id

theorem calm {n : Nat} {s : State} (h : CalmReachable n s) : CalmInv s := by
  induction h with
  | init => constructor <;> simp [init]
  | step ev hr hc hs ih =>
    exact calm_step ih (live (CalmReachable.reachable hr)) (sched (CalmReachable.reachable hr)) hc hs

end Pluto.Pool
