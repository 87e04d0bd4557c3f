import Verif.Proofs.PoolProgress
import Verif.Spec.PoolNest
import Mathlib.Data.List.Nodup

/-! # Lemmas about tasks that wait for the pool -/

namespace Pluto.Pool

theorem workerPass_fields (s : State) (i : Nat) :
    (workerPass s i).syncs = s.syncs ∧ (workerPass s i).completed = s.completed ∧
      (workerPass s i).waitNone.length = s.waitNone.length ∧
      (workerPass s i).waitAll.length = s.waitAll.length ∧
      (workerPass s i).scheduled = s.scheduled := by
  unfold workerPass
  split
  · split
    · refine ⟨rfl, rfl, rfl, ?_, rfl⟩
      simp only; split <;> simp [wakeAll]
    · refine ⟨rfl, rfl, ?_, rfl, rfl⟩
      simp only; split <;> simp [wakeAll]
  · split <;> exact ⟨rfl, rfl, rfl, rfl, rfl⟩

theorem schedulerPass_waits (s : State) (i : Nat) :
    (schedulerPass s i).syncs = s.syncs ∧ (schedulerPass s i).waitNone = s.waitNone ∧
      (schedulerPass s i).waitAll = s.waitAll := by
  unfold schedulerPass; split
  · simp
  · simp
  · split <;> simp

theorem runAt_waits (s : State) (time prio : Int) :
    (runAt s time prio).syncs = s.syncs ∧ (runAt s time prio).completed = s.completed ∧
      (runAt s time prio).waitNone = s.waitNone ∧ (runAt s time prio).waitAll = s.waitAll := by
  unfold runAt; simp only; split
  · simp
  · split <;> simp

/-- Only the end of a task adds to the completed tasks. -/
theorem completed_step {s s' : State} {ev : Event} (hs : step s ev = some s') :
    s'.completed = s.completed ∨ ∃ i t, ev = .taskReturns i ∧
      s.workers[i]? = some (.running t) ∧ s'.completed = s.completed ++ [t] := by
  obtain ⟨-, hs⟩ := step_cases hs
  cases hs with
  | taskReturns i t hi => exact .inr ⟨i, t, rfl, hi, rfl⟩
  | runAt time prio caller hc => exact .inl (runAt_waits s time prio).2.1
  | runAfter d prio caller hc => exact .inl (runAt_waits s _ prio).2.1
  | workerReady i hi => exact .inl (workerPass_fields s i).2.1
  | workerFinished i t hi => exact .inl (workerPass_fields _ i).2.1
  | schedulerReady i hi => exact .inl (schedulerPass_fields s i).2.2.2.2.1
  | schedulerMoves i woken e n ws hi he hw => exact .inl (schedulerPass_fields _ i).2.2.2.2.1
  | _ => exact .inl rfl

theorem running_cnt {s : State} {t : Nat} :
    Phase.running t ∈ s.workers ↔ 0 < cnt (isRunning t) s.workers := by
  unfold cnt
  rw [List.countP_pos_iff]
  constructor
  · intro h; exact ⟨_, h, by simp⟩
  · rintro ⟨p, hp, hr⟩
    cases p <;> simp at hr
    subst hr; exact hp

/-- A task runs until it returns. -/
theorem running_step {s s' : State} {ev : Event} (hs : step s ev = some s') {t : Nat}
    (ht : .running t ∈ s.workers) :
    .running t ∈ s'.workers ∨ ∃ i, ev = .taskReturns i ∧ s.workers[i]? = some (.running t) := by
  rw [running_cnt] at ht
  cases hf : flow_step hs with
  | same hq hs hr => left; rw [running_cnt, hr]; exact ht
  | submit prio fromTask hq hs hr => left; rw [running_cnt, hr]; exact ht
  | schedule time prio hq hs hr => left; rw [running_cnt, hr]; exact ht
  | move e he hq hs hr => left; rw [running_cnt, hr]; exact ht
  | start e hq hs hr => left; rw [running_cnt, hr]; omega
  | complete t₀ hq hs' hr hst hc =>
    rcases completed_step hs with h | ⟨i, t', rfl, hi, h⟩
    · rw [hc] at h; simp at h
    · rw [hc] at h
      simp only [List.append_cancel_left_eq, List.cons.injEq, and_true] at h
      subst h
      by_cases he : t₀ = t
      · subst he; exact .inr ⟨i, rfl, hi⟩
      · left
        have := hr t
        rw [if_neg he] at this
        rw [running_cnt]; omega

/-- The calls that wait, in a step that is none of theirs. -/
theorem waits_step {s s' : State} {ev : Event} (hs : step s ev = some s') :
    ((∀ c, ev ≠ .callWaitNone c) → (∀ i, ev ≠ .waitNone i) →
      s'.waitNone.length = s.waitNone.length) ∧
    ((∀ c, ev ≠ .callWaitAll c) → (∀ i, ev ≠ .waitAll i) →
      s'.waitAll.length = s.waitAll.length) ∧
    ((∀ p c, ev ≠ .runSync p c) → (∀ u, ev ≠ .syncReturns u) → s'.syncs = s.syncs) := by
  obtain ⟨-, hs⟩ := step_cases hs
  cases hs with
  | runSync prio caller hc => exact ⟨fun _ _ => rfl, fun _ _ => rfl, fun h => absurd rfl (h _ _)⟩
  | syncReturns t hs hf => exact ⟨fun _ _ => rfl, fun _ _ => rfl, fun _ h => absurd rfl (h _)⟩
  | runAt time prio caller hc =>
    obtain ⟨h1, h2, h3, h4⟩ := runAt_waits s time prio
    exact ⟨fun _ _ => by rw [h3], fun _ _ => by rw [h4], fun _ _ => h1⟩
  | runAfter d prio caller hc =>
    obtain ⟨h1, h2, h3, h4⟩ := runAt_waits s (s.now + d) prio
    exact ⟨fun _ _ => by rw [h3], fun _ _ => by rw [h4], fun _ _ => h1⟩
  | workerReady i hi =>
    obtain ⟨h1, h2, h3, h4, h5⟩ := workerPass_fields s i
    exact ⟨fun _ _ => h3, fun _ _ => h4, fun _ _ => h1⟩
  | workerFinished i t hi =>
    obtain ⟨h1, h2, h3, h4, h5⟩ := workerPass_fields { s with active := s.active - 1 } i
    exact ⟨fun _ _ => h3, fun _ _ => h4, fun _ _ => h1⟩
  | schedulerReady i hi =>
    obtain ⟨h1, h2, h3⟩ := schedulerPass_waits s i
    exact ⟨fun _ _ => by rw [h2], fun _ _ => by rw [h3], fun _ _ => h1⟩
  | schedulerMoves i woken e n ws hi he hw =>
    obtain ⟨h1, h2, h3⟩ := schedulerPass_waits { enqueue s e.prio e.task false with
          scheduled := s.scheduled.erase e
          workers := ws
          moved := s.moved ++ [e] } i
    exact ⟨fun _ _ => by rw [h2]; rfl, fun _ _ => by rw [h3]; rfl, fun _ _ => h1⟩
  | spuriousNone i hi => exact ⟨fun _ _ => by simp, fun _ _ => rfl, fun _ _ => rfl⟩
  | spuriousAll i hi => exact ⟨fun _ _ => rfl, fun _ _ => by simp, fun _ _ => rfl⟩
  | callWaitNone c hc => exact ⟨fun h => absurd rfl (h _), fun _ _ => rfl, fun _ _ => rfl⟩
  | callWaitAll c hc => exact ⟨fun _ _ => rfl, fun h => absurd rfl (h _), fun _ _ => rfl⟩
  | waitNoneBlocks i hi hq => exact ⟨fun _ h => absurd rfl (h _), fun _ _ => rfl, fun _ _ => rfl⟩
  | waitNoneReturns i hi hq => exact ⟨fun _ h => absurd rfl (h _), fun _ _ => rfl, fun _ _ => rfl⟩
  | waitAllBlocks i hi hq => exact ⟨fun _ _ => rfl, fun _ h => absurd rfl (h _), fun _ _ => rfl⟩
  | waitAllReturns i hi hq => exact ⟨fun _ _ => rfl, fun _ h => absurd rfl (h _), fun _ _ => rfl⟩
  | _ => exact ⟨fun _ _ => rfl, fun _ _ => rfl, fun _ _ => rfl⟩

/-- What a caller of `run_sync` waits for is waiting or has been started. -/
theorem sync_entry {n : Nat} {s : State} (h : Reachable n s) :
    s.syncs.Nodup ∧ ∀ u ∈ s.syncs, u < s.nextTask ∧
      ∃ e : Entry, e.task = u ∧ (e ∈ s.queue ∨ e ∈ s.started) := by
  induction h with
  | init => simp [init]
  | @step s s' ev hr hs ih =>
    have keep : ∀ u ∈ s.syncs, u < s'.nextTask ∧
        ∃ e : Entry, e.task = u ∧ (e ∈ s'.queue ∨ e ∈ s'.started) := by
      intro u hu
      obtain ⟨h1, e, he, h2⟩ := ih.2 u hu
      refine ⟨?_, e, he, kept_step h2 hs⟩
      cases flow_step hs <;> omega
    have same : (∀ p c, ev ≠ .runSync p c) → (∀ u, ev ≠ .syncReturns u) → s'.syncs = s.syncs :=
      (waits_step hs).2.2
    by_cases h1 : ∃ p c, ev = .runSync p c
    · obtain ⟨p, c, rfl⟩ := h1
      have hs' := (step_cases hs).2
      cases hs' with
      | runSync _ _ hc =>
        refine ⟨List.nodup_cons.2 ⟨fun hm => ?_, ih.1⟩, ?_⟩
        · have := (ih.2 _ hm).1; omega
        · intro u hu
          rcases List.mem_cons.1 hu with rfl | hu
          · exact ⟨Nat.lt_succ_self _, _, rfl, .inl (mem_insertEntry.2 (.inl rfl))⟩
          · exact keep u hu
    · by_cases h2 : ∃ u, ev = .syncReturns u
      · obtain ⟨u, rfl⟩ := h2
        have hs' := (step_cases hs).2
        cases hs' with
        | syncReturns _ hsy hf =>
          exact ⟨ih.1.erase _, fun v hv => keep v (List.mem_of_mem_erase hv)⟩
      · rw [same (fun p c h => h1 ⟨p, c, h⟩) (fun u h => h2 ⟨u, h⟩)]
        exact ⟨ih.1, keep⟩

end Pluto.Pool

namespace Pluto.PoolNest
open Pluto.Pool (Event Phase Wait cnt isRunning)
open Pluto.Spec.PoolNest

theorem step_spec {s s' : State} {ev : Event} (h : step s ev = some s') :
    held s ev = false ∧ ∃ p, Pool.step s.pool ev = some p ∧ s' = record s p ev := by
  unfold step at h
  split at h
  · cases h
  · rename_i hh
    rw [Option.map_eq_some_iff] at h
    obtain ⟨p, hp, rfl⟩ := h
    exact ⟨by simpa using hh, p, hp, rfl⟩

theorem record_pool (s : State) (p : Pool.State) (ev : Event) : (record s p ev).pool = p := by
  unfold record
  split
  · split <;> rfl
  · rfl
  · rfl
  · rfl
  · split <;> rfl
  · split <;> rfl
  · rfl

theorem pool_step {s s' : State} {ev : Event} (h : step s ev = some s') :
    Pool.step s.pool ev = some s'.pool := by
  obtain ⟨-, p, hp, rfl⟩ := step_spec h
  rw [record_pool]; exact hp

theorem pool_reachable {n : Nat} {s : State} (h : Reachable n s) : Pool.Reachable n s.pool := by
  induction h with
  | init => exact .init
  | step ev _ hs ih => exact .step ev ih (pool_step hs)

theorem pool_run {s s' : State} {evs : List Event} (h : run s evs = some s') :
    Pool.run s.pool evs = some s'.pool := by
  induction evs generalizing s with
  | nil => simp only [run, Option.some.injEq] at h; subst h; rfl
  | cons ev evs ih =>
    simp only [run] at h
    cases hst : step s ev with
    | none => rw [hst] at h; cases h
    | some s1 => rw [hst] at h; simp only [Pool.run, pool_step hst]; exact ih h

theorem reachable_run {n : Nat} {s s' : State} {evs : List Event} (h : Reachable n s)
    (hr : run s evs = some s') : Reachable n s' := by
  induction evs generalizing s with
  | nil => simp only [run, Option.some.injEq] at hr; subst hr; exact h
  | cons ev evs ih =>
    simp only [run] at hr
    cases hst : step s ev with
    | none => rw [hst] at hr; cases hr
    | some s1 => rw [hst] at hr; exact ih (.step ev h hst) hr

theorem taskOf_running {s : Pool.State} {i t : Nat} (h : taskOf s i = some t) :
    s.workers[i]? = some (.running t) := by
  unfold taskOf at h
  split at h
  · cases h; assumption
  · cases h

theorem bind_running {s : Pool.State} {c : Option Nat} {t : Nat} (h : c.bind (taskOf s) = some t) :
    .running t ∈ s.workers := by
  cases c with
  | none => cases h
  | some i => exact List.mem_of_getElem? (taskOf_running h)

/-- The tasks recorded are running, and wait for what the pool knows. -/
structure Nest (s : State) : Prop where
  noneLength : s.noneCallers.length = s.pool.waitNone.length
  allLength : s.allCallers.length = s.pool.waitAll.length
  none : ∀ t, some t ∈ s.noneCallers → .running t ∈ s.pool.workers
  all : ∀ t, some t ∈ s.allCallers → .running t ∈ s.pool.workers
  sync : ∀ x ∈ s.syncing, .running x.1 ∈ s.pool.workers ∧ x.1 < x.2 ∧ x.2 ∈ s.pool.syncs

theorem inside_iff {s : State} {t : Nat} : inside s t = true ↔
    (∃ u, (t, u) ∈ s.syncing) ∨ some t ∈ s.noneCallers ∨ some t ∈ s.allCallers := by
  unfold inside
  simp [or_assoc]

theorem running_lt {n : Nat} {s : Pool.State} (h : Pool.Reachable n s) {t : Nat}
    (ht : .running t ∈ s.workers) : t < s.nextTask := by
  have := (Pool.conserved h).total t
  rw [Pool.running_cnt] at ht
  by_contra hn
  rw [if_neg hn] at this
  omega

theorem nest_step {n : Nat} {s s' : State} {ev : Event} (hr : Reachable n s) (h : Nest s)
    (hs : step s ev = some s') : Nest s' := by
  obtain ⟨hh, p, hp, rfl⟩ := step_spec hs
  have hw := Pool.waits_step hp
  -- tasks that are inside go on running
  have keep : ∀ t, inside s t = true → .running t ∈ s.pool.workers → .running t ∈ p.workers := by
    intro t ht hrun
    rcases Pool.running_step hp hrun with h | ⟨i, rfl, hi⟩
    · exact h
    · have ha : actor s.pool (.taskReturns i) = some t := by simp [actor, taskOf, hi]
      simp only [held, ha] at hh
      rw [hh] at ht; cases ht
  have kn : ∀ t, some t ∈ s.noneCallers → .running t ∈ p.workers := fun t ht =>
    keep t (inside_iff.2 (.inr (.inl ht))) (h.none t ht)
  have ka : ∀ t, some t ∈ s.allCallers → .running t ∈ p.workers := fun t ht =>
    keep t (inside_iff.2 (.inr (.inr ht))) (h.all t ht)
  have ks : ∀ x ∈ s.syncing, .running x.1 ∈ p.workers ∧ x.1 < x.2 := fun x hx =>
    ⟨keep x.1 (inside_iff.2 (.inl ⟨x.2, hx⟩)) (h.sync x hx).1, (h.sync x hx).2.1⟩
  have generic : (∀ pr c, ev ≠ .runSync pr c) → (∀ u, ev ≠ .syncReturns u) →
      (∀ c, ev ≠ .callWaitNone c) → (∀ c, ev ≠ .callWaitAll c) → (∀ i, ev ≠ .waitNone i) →
      (∀ i, ev ≠ .waitAll i) → Nest (record s p ev) := by
    intro h1 h2 h3 h4 h5 h6
    have e : record s p ev = { s with pool := p } := by
      unfold record
      split
      · exact absurd rfl (h1 _ _)
      · exact absurd rfl (h2 _)
      · exact absurd rfl (h3 _)
      · exact absurd rfl (h4 _)
      · exact absurd rfl (h5 _)
      · exact absurd rfl (h6 _)
      · rfl
    rw [e]
    refine ⟨?_, ?_, kn, ka, fun x hx => ⟨(ks x hx).1, (ks x hx).2, ?_⟩⟩
    · simp only; rw [hw.1 h3 h5]; exact h.noneLength
    · simp only; rw [hw.2.1 h4 h6]; exact h.allLength
    · simp only; rw [hw.2.2 h1 h2]; exact (h.sync x hx).2.2
  cases ev with
  | runSync prio c =>
    have l1 := hw.1 (by simp) (by simp)
    have l2 := hw.2.1 (by simp) (by simp)
    have hstep := (Pool.step_cases hp).2
    have hsy : p.syncs = s.pool.nextTask :: s.pool.syncs := by cases hstep; rfl
    have hws : p.workers = s.pool.workers := by cases hstep; rfl
    unfold record
    simp only
    split
    · rename_i t ht
      refine ⟨by simp only; rw [l1]; exact h.noneLength, by simp only; rw [l2]; exact h.allLength,
        kn, ka, ?_⟩
      intro x hx
      simp only [hsy]
      rcases List.mem_cons.1 hx with rfl | hx
      · have hrun := bind_running ht
        refine ⟨by rw [hws]; exact hrun, running_lt (pool_reachable hr) hrun, List.mem_cons_self ..⟩
      · exact ⟨(ks x hx).1, (ks x hx).2, List.mem_cons_of_mem _ (h.sync x hx).2.2⟩
    · refine ⟨by simp only; rw [l1]; exact h.noneLength, by simp only; rw [l2]; exact h.allLength,
        kn, ka, ?_⟩
      intro x hx
      simp only [hsy]
      exact ⟨(ks x hx).1, (ks x hx).2, List.mem_cons_of_mem _ (h.sync x hx).2.2⟩
  | syncReturns u =>
    have l1 := hw.1 (by simp) (by simp)
    have l2 := hw.2.1 (by simp) (by simp)
    have hstep := (Pool.step_cases hp).2
    have hsy : p.syncs = s.pool.syncs.erase u := by cases hstep; rfl
    refine ⟨by simp only [record]; rw [l1]; exact h.noneLength,
      by simp only [record]; rw [l2]; exact h.allLength, kn, ka, ?_⟩
    intro x hx
    simp only [record, List.mem_filter, bne_iff_ne, ne_eq] at hx
    refine ⟨(ks x hx.1).1, (ks x hx.1).2, ?_⟩
    simp only [record, hsy]
    exact (List.mem_erase_of_ne hx.2).2 (h.sync x hx.1).2.2
  | callWaitNone c =>
    have l2 := hw.2.1 (by simp) (by simp)
    have hsy := hw.2.2 (by simp) (by simp)
    have hstep := (Pool.step_cases hp).2
    have hwn : p.waitNone = s.pool.waitNone ++ [.checking] := by cases hstep; rfl
    have hws : p.workers = s.pool.workers := by cases hstep; rfl
    refine ⟨by simp [record, hwn, h.noneLength], by simp only [record]; rw [l2]; exact h.allLength,
      ?_, ka, fun x hx => ⟨(ks x hx).1, (ks x hx).2, by simp only [record, hsy]; exact (h.sync x hx).2.2⟩⟩
    intro t ht
    rcases List.mem_append.1 ht with ht | ht
    · exact kn t ht
    · simp only [List.mem_singleton] at ht
      simp only [record, hws]
      exact bind_running ht.symm
  | callWaitAll c =>
    have l1 := hw.1 (by simp) (by simp)
    have hsy := hw.2.2 (by simp) (by simp)
    have hstep := (Pool.step_cases hp).2
    have hwn : p.waitAll = s.pool.waitAll ++ [.checking] := by cases hstep; rfl
    have hws : p.workers = s.pool.workers := by cases hstep; rfl
    refine ⟨by simp only [record]; rw [l1]; exact h.noneLength, by simp [record, hwn, h.allLength],
      kn, ?_, fun x hx => ⟨(ks x hx).1, (ks x hx).2, by simp only [record, hsy]; exact (h.sync x hx).2.2⟩⟩
    intro t ht
    rcases List.mem_append.1 ht with ht | ht
    · exact ka t ht
    · simp only [List.mem_singleton] at ht
      simp only [record, hws]
      exact bind_running ht.symm
  | waitNone i =>
    have l2 := hw.2.1 (by simp) (by simp)
    have hsy := hw.2.2 (by simp) (by simp)
    have hstep := (Pool.step_cases hp).2
    have hsync : ∀ x ∈ s.syncing, .running x.1 ∈ p.workers ∧ x.1 < x.2 ∧ x.2 ∈ p.syncs :=
      fun x hx => ⟨(ks x hx).1, (ks x hx).2, by rw [hsy]; exact (h.sync x hx).2.2⟩
    cases hstep with
    | waitNoneBlocks _ hi hq =>
      unfold record
      simp only [List.length_set, Nat.lt_irrefl, if_false]
      exact ⟨by simpa using h.noneLength, h.allLength, kn, ka, hsync⟩
    | waitNoneReturns _ hi hq =>
      have hlt : i < s.pool.waitNone.length := (List.getElem?_eq_some_iff.1 hi).1
      unfold record
      simp only
      rw [if_pos (by rw [List.length_eraseIdx_of_lt hlt]; omega)]
      refine ⟨?_, h.allLength, fun t ht => kn t (List.mem_of_mem_eraseIdx ht), ka, hsync⟩
      simp only
      rw [List.length_eraseIdx_of_lt hlt, List.length_eraseIdx_of_lt (by rw [h.noneLength]; exact hlt),
        h.noneLength]
  | waitAll i =>
    have l1 := hw.1 (by simp) (by simp)
    have hsy := hw.2.2 (by simp) (by simp)
    have hstep := (Pool.step_cases hp).2
    have hsync : ∀ x ∈ s.syncing, .running x.1 ∈ p.workers ∧ x.1 < x.2 ∧ x.2 ∈ p.syncs :=
      fun x hx => ⟨(ks x hx).1, (ks x hx).2, by rw [hsy]; exact (h.sync x hx).2.2⟩
    cases hstep with
    | waitAllBlocks _ hi hq =>
      unfold record
      simp only [List.length_set, Nat.lt_irrefl, if_false]
      exact ⟨h.noneLength, by simpa using h.allLength, kn, ka, hsync⟩
    | waitAllReturns _ hi hq =>
      have hlt : i < s.pool.waitAll.length := (List.getElem?_eq_some_iff.1 hi).1
      unfold record
      simp only
      rw [if_pos (by rw [List.length_eraseIdx_of_lt hlt]; omega)]
      refine ⟨h.noneLength, ?_, kn, fun t ht => ka t (List.mem_of_mem_eraseIdx ht), hsync⟩
      simp only
      rw [List.length_eraseIdx_of_lt hlt, List.length_eraseIdx_of_lt (by rw [h.allLength]; exact hlt),
        h.allLength]
  | _ => exact generic (by simp) (by simp) (by simp) (by simp) (by simp) (by simp)

theorem nest {n : Nat} {s : State} (h : Reachable n s) : Nest s := by
  induction h with
  | init => constructor <;> simp [init, Pool.init]
  | step ev hr hs ih => exact nest_step hr ih hs

/-! ## At rest -/

theorem own_step {s : State} {ev : Event} (hh : held s ev = false) (h : step s ev = none) :
    Pool.step s.pool ev = none := by
  unfold step at h
  rw [hh] at h
  simpa using h

theorem not_held {s : State} {ev : Event} (h : actor s.pool ev = none) : held s ev = false := by
  unfold held; rw [h]

/-- What a caller of `run_sync` waits for is waiting, running or, when the call cannot
return, not completed. -/
theorem awaited {n : Nat} {s : State} (hr : Reachable n s) (hc : s.pool.crash = none)
    (hrest : ∀ u, step s (.syncReturns u) = none) {u : Nat} (hu : u ∈ s.pool.syncs) :
    u ∈ s.pool.queue.map (·.task) ∨ .running u ∈ s.pool.workers := by
  obtain ⟨-, e, he, h⟩ := (Pool.sync_entry (pool_reachable hr)).2 u hu
  rcases h with h | h
  · exact .inl (List.mem_map.2 ⟨e, h, he⟩)
  · right
    have h1 := (Pool.conserved (pool_reachable hr)).started u
    have h2 : 0 < (s.pool.started.map (·.task)).count u :=
      List.count_pos_iff.2 (List.mem_map.2 ⟨e, h, he⟩)
    rw [Pool.running_cnt]
    by_contra hn
    have h3 : u ∈ s.pool.completed := List.count_pos_iff.1 (by omega)
    have h4 := (Pool.sync (pool_reachable hr)).told u hu h3
    have := own_step (not_held rfl) (hrest u)
    simp [Pool.step, hc, hu, h4] at this

/-- When nothing can happen, no caller of `wait_until_no_tasks_waiting` is left if no task
waits. -/
theorem none_left {n : Nat} {s : State} (hr : Reachable n s) (hc : s.pool.crash = none)
    (hrest : ∀ i, step s (.waitNone i) = none) (hq : s.pool.queue = []) : s.pool.waitNone = [] := by
  cases hw : s.pool.waitNone with
  | nil => rfl
  | cons x xs =>
    have := own_step (not_held rfl) (hrest 0)
    cases x with
    | checking => simp [Pool.step, hc, hw, hq] at this
    | blocked => exact absurd hq ((Pool.live (pool_reachable hr)).waitNone (by rw [hw]; simp))

/-- The tasks that wait, wait for younger ones: if nothing can happen, no task for which
one waits is in the queue, and no task is inside one of the other functions, then no task
runs. -/
theorem none_running {n : Nat} {s : State} (hr : Reachable n s) (hc : s.pool.crash = none)
    (hsync : ∀ u, step s (.syncReturns u) = none) (hret : ∀ i, step s (.taskReturns i) = none)
    (hq : ∀ x ∈ s.syncing, x.2 ∉ s.pool.queue.map (·.task))
    (hn : ∀ t, some t ∉ s.noneCallers) (ha : ∀ t, some t ∉ s.allCallers) :
    ∀ t, .running t ∉ s.pool.workers := by
  have key : ∀ k t, s.pool.nextTask ≤ t + k → .running t ∉ s.pool.workers := by
    intro k
    induction k with
    | zero =>
      intro t hk hrun
      have := running_lt (pool_reachable hr) hrun
      omega
    | succ k ih =>
      intro t hk hrun
      obtain ⟨i, hi⟩ := List.mem_iff_getElem?.1 hrun
      by_cases hin : inside s t = true
      · rcases inside_iff.1 hin with ⟨u, hu⟩ | h | h
        · obtain ⟨-, h1, h2⟩ := (nest hr).sync _ hu
          rcases awaited hr hc hsync h2 with h | h
          · exact hq _ hu h
          · simp only at h1; exact ih u (by omega) h
        · exact hn t h
        · exact ha t h
      · have hh : held s (.taskReturns i) = false := by
          have : actor s.pool (.taskReturns i) = some t := by simp [actor, taskOf, hi]
          simp only [held, this]
          simpa using hin
        have := own_step hh (hret i)
        obtain ⟨s', h⟩ := Pool.return_enabled hc hi
        rw [this] at h; cases h
  exact fun t => key s.pool.nextTask t (by omega)

/-- When nothing can happen, a worker sleeps, has ended or is occupied by a task that waits. -/
theorem rest_worker {s : State} (hc : s.pool.crash = none)
    (hw : ∀ i, step s (.worker i) = none) (hret : ∀ i, step s (.taskReturns i) = none) :
    ∀ p ∈ s.pool.workers, p = .blocked ∨ p = .exited ∨ ∃ t, p = .running t ∧ inside s t = true := by
  intro p hp
  obtain ⟨i, hi⟩ := List.mem_iff_getElem?.1 hp
  have hw' := own_step (not_held rfl) (hw i)
  cases p with
  | ready => obtain ⟨s', h⟩ := Pool.worker_enabled hc hi (.inl rfl); rw [hw'] at h; cases h
  | finished t =>
    obtain ⟨s', h⟩ := Pool.worker_enabled hc hi (.inr ⟨t, rfl⟩); rw [hw'] at h; cases h
  | blocked => exact .inl rfl
  | exited => exact .inr (.inl rfl)
  | running t =>
    refine .inr (.inr ⟨t, rfl, ?_⟩)
    by_contra hin
    have hh : held s (.taskReturns i) = false := by
      have : actor s.pool (.taskReturns i) = some t := by simp [actor, taskOf, hi]
      simp only [held, this]
      simpa using hin
    have := own_step hh (hret i)
    obtain ⟨s', h⟩ := Pool.return_enabled hc hi
    rw [this] at h; cases h

theorem rest {n : Nat} {s : State} (hr : Reachable n s) (hc : s.pool.crash = none)
    (hns : s.pool.stopping = false) (ht : 0 < s.pool.target)
    (h : ∀ ev, Own ev = true → step s ev = none) :
    AllOccupied s ∨ (∃ t, some t ∈ s.allCallers) ∨
      (s.pool.queue = [] ∧ (∀ p ∈ s.pool.workers, p = .blocked) ∧ s.pool.syncs = [] ∧
        s.pool.waitNone = [] ∧ s.pool.waitAll = []) := by
  by_cases hocc : AllOccupied s
  · exact .inl hocc
  by_cases hall : ∃ t, some t ∈ s.allCallers
  · exact .inr (.inl hall)
  refine .inr (.inr ?_)
  have hl := Pool.live (pool_reachable hr)
  have hw := rest_worker hc (fun i => h _ rfl) (fun i => h _ rfl)
  have hb : Phase.blocked ∈ s.pool.workers := by
    unfold AllOccupied at hocc
    simp only [not_forall] at hocc
    obtain ⟨p, hp, hno⟩ := hocc
    rcases hw p hp with rfl | rfl | h
    · exact hp
    · obtain ⟨i, hi⟩ := List.mem_iff_getElem?.1 hp
      have := Pool.cnt_pos (p := Pool.isExited) hi rfl
      have := hl.noExit hns
      omega
    · exact absurd h hno
  have p1 : s.pool.pendingOne = 0 := by
    by_contra hp
    obtain ⟨woken, ws', hwk⟩ := Pool.wakeOne_enabled s.pool.workers
    have := own_step (not_held rfl) (h (.notifyOne woken) rfl)
    simp only [Pool.step, hc, hwk] at this
    simp [Nat.pos_of_ne_zero hp] at this
  have p2 : s.pool.pendingAll = 0 := by
    by_contra hp
    have := own_step (not_held rfl) (h .notifyAll rfl)
    simp only [Pool.step, hc] at this
    simp [Nat.pos_of_ne_zero hp] at this
  have hready : cnt Pool.isReady s.pool.workers = 0 := by
    unfold cnt
    rw [List.countP_eq_zero]
    intro p hp hrd
    rcases hw p hp with rfl | rfl | ⟨t, rfl, -⟩ <;> simp at hrd
  have hq : s.pool.queue = [] := by
    have := hl.wake hns
    obtain ⟨i, hi⟩ := List.mem_iff_getElem?.1 hb
    have := Pool.cnt_pos (p := Pool.isBlocked) hi rfl
    apply List.eq_nil_of_length_eq_zero
    omega
  have hn := none_left hr hc (fun i => h _ rfl) hq
  have hnc : s.noneCallers = [] := by
    apply List.eq_nil_of_length_eq_zero
    rw [(nest hr).noneLength, hn]; rfl
  have hrun := none_running hr hc (fun u => h _ rfl) (fun i => h _ rfl) (by simp [hq])
    (by simp [hnc]) (fun t ht => hall ⟨t, ht⟩)
  have hws : ∀ p ∈ s.pool.workers, p = .blocked := by
    intro p hp
    rcases hw p hp with h | rfl | ⟨t, rfl, -⟩
    · exact h
    · obtain ⟨i, hi⟩ := List.mem_iff_getElem?.1 hp
      have := Pool.cnt_pos (p := Pool.isExited) hi rfl
      have := hl.noExit hns
      omega
    · exact absurd hp (hrun t)
  refine ⟨hq, hws, ?_, hn, ?_⟩
  · cases hsy : s.pool.syncs with
    | nil => rfl
    | cons u us =>
      rcases awaited hr hc (fun u => h _ rfl) (u := u) (by rw [hsy]; simp) with h | h
      · simp [hq] at h
      · exact absurd h (hrun u)
  · have hact : s.pool.active = 0 := by
      rw [hl.active]
      have : cnt Pool.isActive s.pool.workers = 0 := by
        unfold cnt
        rw [List.countP_eq_zero]
        intro p hp hrd
        rw [hws p hp] at hrd; simp at hrd
      rw [this]; rfl
    cases hwa : s.pool.waitAll with
    | nil => rfl
    | cons x xs =>
      have := own_step (not_held rfl) (h (.waitAll 0) rfl)
      cases x with
      | checking => simp [Pool.step, hc, hwa, hq, hact] at this
      | blocked =>
        rcases hl.waitAll (by rw [hwa]; simp) hns ht with h | h | h | h
        · exact absurd hq h
        · exact absurd hact h
        · omega
        · omega

/-! ## Number of steps -/

def checking (ws : List Wait) : Nat := ws.countP (· == .checking)

/-- Bound for the steps of calls that wait, when `w` steps of other kinds are possible. -/
def steps (w : Nat) (s : State) : Nat :=
  w * (s.pool.waitNone.length + s.pool.waitAll.length + 1) +
    checking s.pool.waitNone + checking s.pool.waitAll + s.pool.syncs.length

theorem checking_le (ws : List Wait) : checking ws ≤ ws.length := List.countP_le_length

theorem checking_set {ws : List Wait} {i : Nat} (h : ws[i]? = some .checking) :
    checking (ws.set i .blocked) + 1 = checking ws := by
  unfold checking
  induction ws generalizing i with
  | nil => simp at h
  | cons w ws ih =>
    cases i with
    | zero =>
      simp only [List.getElem?_cons_zero, Option.some.injEq] at h
      subst h; simp
    | succ i =>
      simp only [List.getElem?_cons_succ] at h
      have := ih h
      simp only [List.set_cons_succ, List.countP_cons]
      omega

theorem checking_erase {ws : List Wait} {i : Nat} (h : ws[i]? = some .checking) :
    checking (ws.eraseIdx i) + 1 = checking ws := by
  unfold checking
  induction ws generalizing i with
  | nil => simp at h
  | cons w ws ih =>
    cases i with
    | zero =>
      simp only [List.getElem?_cons_zero, Option.some.injEq] at h
      subst h; simp
    | succ i =>
      simp only [List.getElem?_cons_succ] at h
      have := ih h
      simp only [List.eraseIdx_cons_succ, List.countP_cons]
      omega

/-- A step of the threads of the pool uses up one of the `w` steps. -/
theorem steps_other {s s' : State} {ev : Event} (hs : step s ev = some s') {w w' : Nat}
    (hw : w' < w) (h1 : ∀ c, ev ≠ .callWaitNone c) (h2 : ∀ i, ev ≠ .waitNone i)
    (h3 : ∀ c, ev ≠ .callWaitAll c) (h4 : ∀ i, ev ≠ .waitAll i) (h5 : ∀ p c, ev ≠ .runSync p c)
    (h6 : ∀ u, ev ≠ .syncReturns u) : steps w' s' < steps w s := by
  obtain ⟨a, b, c⟩ := Pool.waits_step (pool_step hs)
  have a := a h1 h2
  have b := b h3 h4
  have c := c h5 h6
  have d := checking_le s'.pool.waitNone
  have e := checking_le s'.pool.waitAll
  unfold steps
  rw [c]
  rw [a] at d ⊢
  rw [b] at e ⊢
  have := Nat.mul_le_mul_right (s.pool.waitNone.length + s.pool.waitAll.length + 1)
    (Nat.succ_le_of_lt hw)
  rw [Nat.succ_mul] at this
  omega

theorem steps_call {s s' : State} {ev : Event} (hs : step s ev = some s') (w : Nat)
    (h : (∃ i, ev = .waitNone i) ∨ (∃ i, ev = .waitAll i) ∨ ∃ u, ev = .syncReturns u) :
    steps w s' < steps w s := by
  have hp := (Pool.step_cases (pool_step hs)).2
  unfold steps
  generalize hgen : s'.pool = p at hp
  rcases h with ⟨i, rfl⟩ | ⟨i, rfl⟩ | ⟨u, rfl⟩
  · cases hp with
    | waitNoneBlocks _ hi hq =>
      have := checking_set hi
      simp only [List.length_set]
      omega
    | waitNoneReturns _ hi hq =>
      have := checking_erase hi
      have hl : (s.pool.waitNone.eraseIdx i).length + s.pool.waitAll.length + 1 ≤
          s.pool.waitNone.length + s.pool.waitAll.length + 1 := by
        have := List.length_eraseIdx_le s.pool.waitNone i
        omega
      have := Nat.mul_le_mul_left w hl
      simp only
      omega
  · cases hp with
    | waitAllBlocks _ hi hq =>
      have := checking_set hi
      simp only [List.length_set]
      omega
    | waitAllReturns _ hi hq =>
      have := checking_erase hi
      have hl : s.pool.waitNone.length + (s.pool.waitAll.eraseIdx i).length + 1 ≤
          s.pool.waitNone.length + s.pool.waitAll.length + 1 := by
        have := List.length_eraseIdx_le s.pool.waitAll i
        omega
      have := Nat.mul_le_mul_left w hl
      simp only
      omega
  · cases hp with
    | syncReturns _ hu hf =>
      have := List.length_erase_of_mem hu
      have := List.length_pos_of_mem hu
      simp only
      omega

theorem work_call {s s' : State} {ev : Event} (hs : step s ev = some s')
    (h : (∃ i, ev = .waitNone i) ∨ (∃ i, ev = .waitAll i) ∨ ∃ u, ev = .syncReturns u) :
    Pool.work s'.pool = Pool.work s.pool ∧ Pool.endWork s'.pool = Pool.endWork s.pool ∧
      s'.pool.stopping = s.pool.stopping ∧ s'.pool.target = s.pool.target ∧
      s'.pool.crash = s.pool.crash ∧ s'.pool.stage = s.pool.stage := by
  have hp := (Pool.step_cases (pool_step hs)).2
  generalize hgen : s'.pool = p at hp
  rcases h with ⟨i, rfl⟩ | ⟨i, rfl⟩ | ⟨u, rfl⟩ <;> cases hp <;>
    exact ⟨rfl, rfl, rfl, rfl, rfl, rfl⟩

theorem own_bound {s s' : State} {ev : Event} (ho : Own ev = true) (hs : step s ev = some s') :
    steps (Pool.work s'.pool) s' < steps (Pool.work s.pool) s ∧
      s'.pool.stopping = s.pool.stopping ∧ s'.pool.target = s.pool.target ∧
      s'.pool.crash = s.pool.crash := by
  by_cases h : (∃ i, ev = .waitNone i) ∨ (∃ i, ev = .waitAll i) ∨ ∃ u, ev = .syncReturns u
  · obtain ⟨h1, -, h2, h3, h4, -⟩ := work_call hs h
    rw [h1]
    exact ⟨steps_call hs _ h, h2, h3, h4⟩
  · have ho' : Spec.Pool.Own ev = true := by
      cases ev with
      | waitNone i => exact absurd (.inl ⟨i, rfl⟩) h
      | waitAll i => exact absurd (.inr (.inl ⟨i, rfl⟩)) h
      | syncReturns u => exact absurd (.inr (.inr ⟨u, rfl⟩)) h
      | _ => exact ho
    obtain ⟨h1, h2, h3, h4⟩ := Pool.work_own ho' (pool_step hs)
    refine ⟨steps_other hs h1 ?_ ?_ ?_ ?_ ?_ ?_, h2, h3, h4⟩ <;> intros <;> intro he <;> subst he <;>
      cases ho'

theorem own_run {s s' : State} {evs : List Event} (ho : ∀ ev ∈ evs, Own ev = true)
    (hs : run s evs = some s') :
    evs.length + steps (Pool.work s'.pool) s' ≤ steps (Pool.work s.pool) s ∧
      s'.pool.stopping = s.pool.stopping ∧ s'.pool.target = s.pool.target ∧
      s'.pool.crash = s.pool.crash := by
  induction evs generalizing s with
  | nil => simp only [run, Option.some.injEq] at hs; subst hs; simp
  | cons ev evs ih =>
    simp only [run] at hs
    cases hst : step s ev with
    | none => rw [hst] at hs; cases hs
    | some s1 =>
      rw [hst] at hs
      obtain ⟨h1, h2, h3, h4⟩ := ih (fun e he => ho e (List.mem_cons_of_mem _ he)) hs
      obtain ⟨g1, g2, g3, g4⟩ := own_bound (ho ev (List.mem_cons_self ..)) hst
      refine ⟨?_, by rw [h2, g2], by rw [h3, g3], by rw [h4, g4]⟩
      simp only [List.length_cons]
      omega

theorem ending_bound {n : Nat} {s s' : State} {ev : Event} (hr : Reachable n s)
    (ho : Ending ev = true) (hs : step s ev = some s') (hst : s.pool.stage = .joining)
    (hcr : s'.pool.crash = none) :
    steps (Pool.endWork s'.pool) s' < steps (Pool.endWork s.pool) s ∧ s'.pool.stage = .joining := by
  by_cases h : (∃ i, ev = .waitNone i) ∨ (∃ i, ev = .waitAll i) ∨ ∃ u, ev = .syncReturns u
  · obtain ⟨-, h1, -, -, -, h2⟩ := work_call hs h
    rw [h1, h2]
    exact ⟨steps_call hs _ h, hst⟩
  · have ho' : Spec.Pool.Ending ev = true := by
      cases ev with
      | waitNone i => exact absurd (.inl ⟨i, rfl⟩) h
      | waitAll i => exact absurd (.inr (.inl ⟨i, rfl⟩)) h
      | syncReturns u => exact absurd (.inr (.inr ⟨u, rfl⟩)) h
      | _ => exact ho
    obtain ⟨h1, h2⟩ := Pool.ending_step ho' (Pool.live (pool_reachable hr)) hst (pool_step hs) hcr
    refine ⟨steps_other hs h1 ?_ ?_ ?_ ?_ ?_ ?_, h2⟩ <;> intros <;> intro he <;> subst he <;>
      cases ho'

theorem ending_run {n : Nat} {s s' : State} {evs : List Event} (ho : ∀ ev ∈ evs, Ending ev = true)
    (hr : Reachable n s) (hst : s.pool.stage = .joining) (hs : run s evs = some s')
    (hcr : s'.pool.crash = none) :
    evs.length + steps (Pool.endWork s'.pool) s' ≤ steps (Pool.endWork s.pool) s ∧
      s'.pool.stage = .joining := by
  induction evs generalizing s with
  | nil => simp only [run, Option.some.injEq] at hs; subst hs; simp [hst]
  | cons ev evs ih =>
    simp only [run] at hs
    cases hstp : step s ev with
    | none => rw [hstp] at hs; cases hs
    | some s1 =>
      rw [hstp] at hs
      have hcr1 : s1.pool.crash = none := by
        cases evs with
        | nil => simp only [run, Option.some.injEq] at hs; subst hs; exact hcr
        | cons ev' evs' =>
          simp only [run] at hs
          cases hstp' : step s1 ev' with
          | none => rw [hstp'] at hs; cases hs
          | some s2 => exact (Pool.step_cases (pool_step hstp')).1
      obtain ⟨g1, g2⟩ := ending_bound hr (ho ev (List.mem_cons_self ..)) hstp hst hcr1
      obtain ⟨h1, h2⟩ := ih (fun e h => ho e (List.mem_cons_of_mem _ h)) (.step ev hr hstp) g2 hs
      refine ⟨?_, h2⟩
      simp only [List.length_cons]
      omega

/-! ## The destructor -/

theorem exited_pass {k : Nat} {s : Pool.State} (h : Pool.Completing k s) (a : Int) (i : Nat)
    (he : .exited ∈ (Pool.workerPass { s with active := a } i).workers) :
    .exited ∈ s.workers ∨ (Pool.workerPass { s with active := a } i).queue = [] := by
  unfold Pool.workerPass at he ⊢
  simp only at he ⊢
  split at he
  · rename_i hc
    rw [if_pos hc]
    split at he
    · rcases List.mem_or_eq_of_mem_set he with h | h
      · exact .inl h
      · cases h
    · rcases List.mem_or_eq_of_mem_set he with h | h
      · exact .inl h
      · cases h
  · rename_i hc
    right
    rw [if_neg hc, if_neg (by simp [h.stopping])]
    simp only
    by_contra hq
    exact hc ⟨h.size, .inr ⟨h.action, hq⟩⟩

/-- A worker ends only when the queue is empty. -/
theorem exited_step {k : Nat} {s s' : Pool.State} {ev : Event} (h : Pool.Completing k s)
    (hs : Pool.step s ev = some s') (he : .exited ∈ s'.workers) :
    .exited ∈ s.workers ∨ s'.queue = [] := by
  have fixed : s'.workers = s.workers → Phase.exited ∈ s.workers ∨ s'.queue = [] :=
    fun e => .inl (e ▸ he)
  have woken : ∀ (w : Option Nat) (ws : List Phase), Pool.wakeOne w s.workers = some ws →
      .exited ∈ ws → Phase.exited ∈ s.workers := by
    intro w ws hw hm
    rcases Pool.wakeOne_spec hw with ⟨rfl, _⟩ | ⟨i, hi, rfl⟩
    · exact hm
    · rcases List.mem_or_eq_of_mem_set hm with h | h
      · exact h
      · cases h
  have wakeAll : Phase.exited ∈ s.workers.map Pool.wakeWorker → Phase.exited ∈ s.workers := by
    intro hm
    obtain ⟨q, hq, e⟩ := List.mem_map.1 hm
    cases q <;> simp [Pool.wakeWorker] at e
    exact hq
  have hs' := (Pool.step_cases hs).2
  cases hs' with
  | runAt time prio caller hc => exact fixed (Pool.runAt_workers s time prio).1
  | runAfter d prio caller hc => exact fixed (Pool.runAt_workers s _ prio).1
  | grow n caller hc hns hn => rw [h.stopping] at hns; cases hns
  | notifyOne w ws hp hw => exact .inl (woken w ws hw he)
  | notifyAll hp => exact .inl (wakeAll he)
  | spuriousWorker i hi =>
    rcases List.mem_or_eq_of_mem_set he with h | h
    · exact .inl h
    · cases h
  | workerReady i hi => exact exited_pass h s.active i he
  | workerFinished i t hi => exact exited_pass h _ i he
  | taskReturns i t hi =>
    rcases List.mem_or_eq_of_mem_set he with h | h
    · exact .inl h
    · cases h
  | schedulerReady i hi => exact fixed (Pool.schedulerPass_fields s i).2.2.1
  | schedulerMoves i w e n ws hi he' hw =>
    rw [(Pool.schedulerPass_fields _ i).2.2.1] at he
    exact .inl (woken w ws hw he)
  | stopNotifyWorkers hst => exact .inl (wakeAll he)
  | _ => exact fixed rfl

/-- As long as a task waits for one that is in the queue, no worker has ended. -/
def Served (s : State) : Prop :=
  (∃ x ∈ s.syncing, x.2 ∈ s.pool.queue.map (·.task)) → .exited ∉ s.pool.workers

/-- Nothing for which a task waits gets into the queue later. -/
theorem awaited_queue {n : Nat} {s s' : Pool.State} {ev : Event} (hr : Pool.Reachable n s)
    (hs : Pool.step s ev = some s') {u : Nat} (hu : u ∈ s.syncs)
    (h : u ∈ s'.queue.map (·.task)) : u ∈ s.queue.map (·.task) := by
  obtain ⟨hlt, e, he, hin⟩ := (Pool.sync_entry hr).2 u hu
  cases Pool.flow_step hs with
  | same hq => rwa [hq] at h
  | schedule time prio hq => rwa [hq] at h
  | complete t₀ hq => rwa [hq] at h
  | start e hq => rw [hq]; exact List.mem_cons_of_mem _ h
  | submit prio fromTask hq =>
    rw [hq] at h
    obtain ⟨x, hx, hxu⟩ := List.mem_map.1 h
    rcases Pool.mem_insertEntry.1 hx with rfl | hx
    · simp only at hxu; omega
    · exact List.mem_map.2 ⟨x, hx, hxu⟩
  | move e' he' hq =>
    rw [hq] at h
    obtain ⟨x, hx, hxu⟩ := List.mem_map.1 h
    rcases Pool.mem_insertEntry.1 hx with rfl | hx
    · simp only at hxu
      have hc := Pool.conserved hr
      have h1 := hc.total u
      rw [if_pos hlt] at h1
      have h2 := hc.started u
      have h3 : 0 < (s.scheduled.map (·.task)).count u :=
        List.count_pos_iff.2 (List.mem_map.2 ⟨e', he', hxu⟩)
      rcases hin with hin | hin
      · have : 0 < (s.queue.map (·.task)).count u :=
          List.count_pos_iff.2 (List.mem_map.2 ⟨e, hin, he⟩)
        omega
      · have : 0 < (s.started.map (·.task)).count u :=
          List.count_pos_iff.2 (List.mem_map.2 ⟨e, hin, he⟩)
        omega
    · exact List.mem_map.2 ⟨x, hx, hxu⟩

theorem syncing_step {s s' : State} {ev : Event} (hs : step s ev = some s')
    (hev : ∀ p c, ev ≠ .runSync p c) : ∀ x ∈ s'.syncing, x ∈ s.syncing := by
  obtain ⟨-, p, -, rfl⟩ := step_spec hs
  intro x hx
  cases ev with
  | runSync p c => exact absurd rfl (hev p c)
  | syncReturns u => exact (List.mem_filter.1 hx).1
  | waitNone i =>
    simp only [record] at hx
    split at hx <;> exact hx
  | waitAll i =>
    simp only [record] at hx
    split at hx <;> exact hx
  | _ => exact hx

theorem served_step {n k : Nat} {s s' : State} {ev : Event} (hr : Reachable n s)
    (h : Served s) (hc : Pool.Completing k s.pool) (hs : step s ev = some s')
    (hev : ∀ p c, ev ≠ .runSync p c) : Served s' := by
  rintro ⟨x, hx, hq⟩ hex
  have hx' := syncing_step hs hev x hx
  have hq' := awaited_queue (pool_reachable hr) (pool_step hs) ((nest hr).sync x hx').2.2 hq
  rcases exited_step hc (pool_step hs) hex with he | he
  · exact h ⟨x, hx', hq'⟩ he
  · rw [he] at hq; simp at hq

theorem served_run {n k : Nat} {s s' : State} {evs : List Event} (hr : Reachable n s)
    (h : Served s) (hc : Pool.Completing k s.pool) (hs : run s evs = some s')
    (hev : ∀ p c, .runSync p c ∉ evs) (hact : ∀ c, .setOnStop .joinAll c ∉ evs) : Served s' := by
  induction evs generalizing s with
  | nil => simp only [run, Option.some.injEq] at hs; subst hs; exact h
  | cons ev evs ih =>
    simp only [run] at hs
    cases hst : step s ev with
    | none => rw [hst] at hs; cases hs
    | some s1 =>
      rw [hst] at hs
      refine ih (.step ev hr hst) (served_step hr h hc hst ?_)
        (Pool.completing_step hc (Pool.live (pool_reachable hr)) ?_ (pool_step hst)) hs ?_ ?_
      · intro p c hc; exact hev p c (by rw [← hc]; exact List.mem_cons_self ..)
      · intro c hc; exact hact c (by rw [← hc]; exact List.mem_cons_self ..)
      · intro p c hc; exact hev p c (List.mem_cons_of_mem _ hc)
      · intro c hc; exact hact c (List.mem_cons_of_mem _ hc)

/-- When nothing can happen and no task runs, the destructor is able to return. -/
theorem ending_rest {n : Nat} {s : State} (hr : Reachable n s) (hc : s.pool.crash = none)
    (hst : s.pool.stage = .joining) (h : ∀ ev, Ending ev = true → step s ev = none)
    (hrun : ∀ t, .running t ∉ s.pool.workers) :
    ∃ s', step s .stopReturns = some s' ∧ s'.pool.stage = .destroyed := by
  obtain ⟨-, -, p, hp, hd⟩ := Pool.ending_rest (pool_reachable hr) hc hst (by
    intro ev he
    cases ev with
    | taskReturns i =>
      cases hs : Pool.step s.pool (.taskReturns i) with
      | none => rfl
      | some p =>
        have := (Pool.step_cases hs).2
        cases this with
        | taskReturns _ t hi => exact absurd (List.mem_of_getElem? hi) (hrun t)
    | worker i => exact own_step (not_held rfl) (h _ rfl)
    | scheduler i w => exact own_step (not_held rfl) (h _ rfl)
    | _ => cases he)
  refine ⟨record s p .stopReturns, ?_, by rw [record_pool]; exact hd⟩
  simp only [step, hp, Option.map_some]
  rfl

theorem joining_worker {n : Nat} {s : State} (hr : Reachable n s) (hc : s.pool.crash = none)
    (hst : s.pool.stage = .joining) (h : ∀ ev, Ending ev = true → step s ev = none) :
    ∀ p ∈ s.pool.workers, p = .exited ∨ ∃ t, p = .running t ∧ inside s t = true := by
  intro p hp
  rcases rest_worker hc (fun i => h _ rfl) (fun i => h _ rfl) p hp with rfl | h | h
  · obtain ⟨i, hi⟩ := List.mem_iff_getElem?.1 hp
    have := Pool.cnt_pos (p := Pool.isBlocked) hi rfl
    have := (Pool.live (pool_reachable hr)).awake (by rw [hst]; decide) (by rw [hst]; decide)
    omega
  · exact .inl h
  · exact .inr h

/-! ## `wait_until_all_tasks_complete` in a task -/

theorem all_forever {n : Nat} {s s' : State} {ev : Event} (hr : Reachable n s)
    (hs : step s ev = some s') {t : Nat} (ht : some t ∈ s.allCallers) : some t ∈ s'.allCallers := by
  obtain ⟨-, p, hp, rfl⟩ := step_spec hs
  cases ev with
  | waitAll i =>
    simp only [record]
    split
    · rename_i hlt
      exfalso
      have hp' := (Pool.step_cases hp).2
      cases hp' with
      | waitAllBlocks _ hi hq => simp at hlt
      | waitAllReturns _ hi hq =>
        have hrun := (nest hr).all t ht
        obtain ⟨j, hj⟩ := List.mem_iff_getElem?.1 hrun
        have h1 := Pool.cnt_pos (p := Pool.isActive) hj rfl
        have h2 := (Pool.live (pool_reachable hr)).active
        omega
    · exact ht
  | callWaitAll c => simp only [record]; exact List.mem_append_left _ ht
  | runSync pr c =>
    unfold record
    simp only
    split <;> exact ht
  | waitNone i =>
    simp only [record]
    split <;> exact ht
  | _ => exact ht

end Pluto.PoolNest
