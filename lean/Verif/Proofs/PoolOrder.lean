import Verif.Proofs.PoolProgress
import Verif.Proofs.PoolCalm
import Verif.Spec.PoolOrder

/-! # Lemmas about the order of completion and about the schedule of a pool that is destroyed -/

namespace Pluto.Pool
open Pluto.Spec.Pool

/-! ## One worker -/

theorem running_count (s : State) (t : Nat) : (running s).count t = cnt (isRunning t) s.workers := by
  unfold running cnt
  induction s.workers with
  | nil => rfl
  | cons w ws ih =>
    rw [List.filterMap_cons, List.countP_cons]
    cases w <;> simp [ih]
    rw [List.count_cons]
    simp [ih]

theorem running_length (s : State) : (running s).length ≤ s.workers.length :=
  List.length_filterMap_le _ _

theorem eq_of_perm_short {l l' : List Nat} (h : l.Perm l') (hl : l'.length ≤ 1) : l = l' := by
  match l', hl with
  | [], _ => exact List.perm_nil.1 h
  | [a], _ => exact List.perm_singleton.1 h

theorem maxTarget_step {s s' : State} {ev : Event} (h : step s ev = some s') : s.maxTarget ≤ s'.maxTarget := by
  obtain ⟨-, hs⟩ := step_cases h
  have pass : ∀ s : State, ∀ i, (workerPass s i).maxTarget = s.maxTarget := by
    intro s i
    unfold workerPass
    repeat' split
    all_goals rfl
  have spass : ∀ s : State, ∀ i, (schedulerPass s i).maxTarget = s.maxTarget := by
    intro s i
    unfold schedulerPass
    repeat' split
    all_goals rfl
  have rat : ∀ a b, (runAt s a b).maxTarget = s.maxTarget := by
    intro a b
    unfold runAt
    dsimp only
    repeat' split
    all_goals rfl
  cases hs with
  | grow => exact Nat.le_max_left ..
  | shrink => exact Nat.le_max_left ..
  | workerReady => rw [pass]
  | workerFinished => rw [pass]
  | schedulerReady => rw [spass]
  | schedulerMoves => rw [spass]; exact Nat.le_refl _
  | runAt => rw [rat]
  | runAfter => rw [rat]
  | _ => exact Nat.le_refl _

/-- With one worker, tasks are completed in the order in which they are started. -/
theorem single_completed {n : Nat} {s : State} (h : Reachable n s) (hm : s.maxTarget ≤ 1) :
    s.started.map (·.task) = s.completed ++ running s := by
  induction h with
  | init =>
    simp only [init, running, List.map_nil, List.nil_append]
    symm
    rw [List.filterMap_eq_nil_iff]
    intro p hp
    rw [List.eq_of_mem_replicate hp]
  | @step s s' ev hr hs ih =>
    have hm0 := maxTarget_step hs
    have ih := ih (by omega)
    have l0 : (running s).length ≤ 1 := by
      have := running_length s; have := (live hr).high; omega
    have l1 : (running s').length ≤ 1 := by
      have := running_length s'; have := (live (.step _ hr hs)).high; omega
    have same : (∀ t, cnt (isRunning t) s'.workers = cnt (isRunning t) s.workers) → running s' = running s := by
      intro hc
      refine eq_of_perm_short (List.perm_iff_count.2 fun t => ?_) l0
      rw [running_count, running_count, hc]
    cases flow_step hs with
    | same hq hs hr hst hc => rw [hst, hc, same hr, ih]
    | submit prio fromTask hq hs hr hst hc => rw [hst, hc, same hr, ih]
    | schedule time prio hq hs hr hst hc => rw [hst, hc, same hr, ih]
    | move e he hq hs hr hst hc => rw [hst, hc, same hr, ih]
    | start e hq hs hr hst hc =>
      have hp : (running s').Perm (e.task :: running s) := by
        refine List.perm_iff_count.2 fun t => ?_
        rw [running_count, hr, List.count_cons, running_count]
        by_cases ht : e.task = t <;> simp [ht]
      have hl := hp.length_eq
      rw [List.length_cons] at hl
      have h0 : running s = [] := List.length_eq_zero_iff.1 (by omega)
      rw [h0] at hp ih
      rw [hst, hc, List.map_append, ih, List.append_nil, List.perm_singleton.1 hp]
      rfl
    | complete t₀ hq hs hr hst hc =>
      have hp : (t₀ :: running s').Perm (running s) := by
        refine List.perm_iff_count.2 fun t => ?_
        rw [List.count_cons, running_count, running_count, ← hr t]
        by_cases ht : t₀ = t <;> simp [ht]
      have he := eq_of_perm_short hp l0
      rw [hst, hc, ih, ← he]
      simp

/-! ## Waiting together -/

theorem not_queued_and_started {n : Nat} {s : State} {e : Entry} (h : Reachable n s) (hq : e ∈ s.queue) :
    e ∉ s.started := by
  intro hst
  have h1 := (conserved h).seqs e.seq
  have h2 : 0 < (s.queue.map (·.seq)).count e.seq := List.count_pos_iff.2 (List.mem_map_of_mem hq)
  have h3 : 0 < (s.started.map (·.seq)).count e.seq := List.count_pos_iff.2 (List.mem_map_of_mem hst)
  split at h1 <;> omega

theorem started_step {s s' : State} {e : Entry} {ev : Event} (h : e ∈ s.started) (hs : step s ev = some s') :
    e ∈ s'.started := by
  cases flow_step hs with
  | start x hq hs hr hst => rw [hst]; exact List.mem_append_left _ h
  | same hq hs hr hst => rwa [hst]
  | submit prio fromTask hq hs hr hst => rwa [hst]
  | schedule time prio hq hs hr hst => rwa [hst]
  | move x he hq hs hr hst => rwa [hst]
  | complete t₀ hq hs hr hst => rwa [hst]

theorem started_run {s s' : State} {e : Entry} {evs : List Event} (h : e ∈ s.started) (hr : run s evs = some s') :
    e ∈ s'.started := by
  induction evs generalizing s with
  | nil => simp only [run, Option.some.injEq] at hr; subst hr; exact h
  | cons ev evs ih =>
    simp only [run] at hr
    cases hst : step s ev with
    | none => rw [hst] at hr; cases hr
    | some s₁ =>
      rw [hst] at hr
      exact ih (started_step h hst) hr

/-- The second of two waiting entries is started only after the first. -/
def InOrder (e e' : Entry) (s : State) : Prop :=
  (e ∈ s.queue ∧ e' ∉ s.started) ∨ ∃ a b, s.started = a ++ e :: b ∧ e' ∉ a

theorem inOrder_step {n : Nat} {s s' : State} {e e' : Entry} {ev : Event} (h : Reachable n s)
    (hb : e'.prio < e.prio ∨ e'.prio = e.prio ∧ e.seq < e'.seq) (hi : InOrder e e' s) (hs : step s ev = some s') :
    InOrder e e' s' := by
  have keep : s'.started = s.started → (e ∈ s.queue → e ∈ s'.queue) → InOrder e e' s' := by
    intro hst hq
    rcases hi with hi | hi
    · exact .inl ⟨hq hi.1, by rw [hst]; exact hi.2⟩
    · exact .inr (by rw [hst]; exact hi)
  cases flow_step hs with
  | same hq hs hr hst => exact keep hst (by rw [hq]; exact id)
  | submit prio fromTask hq hs hr hst => exact keep hst (by rw [hq]; exact fun h => mem_insertEntry.2 (.inr h))
  | schedule time prio hq hs hr hst => exact keep hst (by rw [hq]; exact id)
  | move x he hq hs hr hst => exact keep hst (by rw [hq]; exact fun h => mem_insertEntry.2 (.inr h))
  | complete t₀ hq hs hr hst => exact keep hst (by rw [hq]; exact id)
  | start x hq hs hr hst hc =>
    rcases hi with ⟨hi, hn⟩ | ⟨a, b, hi, hn⟩
    · rw [hq] at hi
      rcases List.mem_cons.1 hi with rfl | hi'
      · exact .inr ⟨s.started, [], hst, hn⟩
      · refine .inl ⟨hi', ?_⟩
        rw [hst]
        intro hm
        rcases List.mem_append.1 hm with hm | hm
        · exact hn hm
        · have hx := List.mem_singleton.1 hm
          have := (ordered h).sorted
          rw [hq, List.pairwise_cons, ← hx] at this
          rcases this.1 e hi' with h | h <;> rcases hb with hb | hb <;> omega
    · exact .inr ⟨a, b ++ [x], by rw [hst, hi]; simp, hn⟩

theorem inOrder_run {n : Nat} {s s' : State} {e e' : Entry} {evs : List Event} (h : Reachable n s)
    (hb : e'.prio < e.prio ∨ e'.prio = e.prio ∧ e.seq < e'.seq) (hi : InOrder e e' s) (hr : run s evs = some s') :
    InOrder e e' s' := by
  induction evs generalizing s with
  | nil => simp only [run, Option.some.injEq] at hr; subst hr; exact hi
  | cons ev evs ih =>
    simp only [run] at hr
    cases hst : step s ev with
    | none => rw [hst] at hr; cases hr
    | some s₁ =>
      rw [hst] at hr
      exact ih (.step _ h hst) (inOrder_step h hb hi hst) hr

/-- Of two waiting entries the first in the queue is the first started. -/
theorem started_in_order {n : Nat} {s s' : State} {e e' : Entry} {evs : List Event} (h : Reachable n s)
    (he : e ∈ s.queue) (he' : e' ∈ s.queue) (hb : e'.prio < e.prio ∨ e'.prio = e.prio ∧ e.seq < e'.seq)
    (hr : run s evs = some s') (hst : e' ∈ s'.started) :
    ∃ a b c, s'.started = a ++ e :: b ++ e' :: c := by
  rcases inOrder_run h hb (.inl ⟨he, not_queued_and_started h he'⟩) hr with ⟨-, hn⟩ | ⟨a, b, hi, hn⟩
  · exact absurd hst hn
  · rw [hi] at hst
    rcases List.mem_append.1 hst with hm | hm
    · exact absurd hm hn
    · rcases List.mem_cons.1 hm with rfl | hm
      · rcases hb with hb | hb <;> omega
      · obtain ⟨b, c, rfl⟩ := List.append_of_mem hm
        exact ⟨a, b, c, by rw [hi]; simp⟩

/-! ## The schedule after the flag is set -/

theorem countP_set {α : Type} (p : α → Bool) {l : List α} {i : Nat} {x y : α} (hi : l[i]? = some x) :
    (l.set i y).countP p + (if p x then 1 else 0) = l.countP p + if p y then 1 else 0 := by
  induction l generalizing i with
  | nil => simp at hi
  | cons a l ih =>
    cases i with
    | zero =>
      simp only [List.getElem?_cons_zero, Option.some.injEq] at hi
      subst hi
      rw [List.set_cons_zero, List.countP_cons, List.countP_cons]
      omega
    | succ i =>
      simp only [List.getElem?_cons_succ] at hi
      rw [List.set_cons_succ, List.countP_cons, List.countP_cons]
      have := ih hi
      omega

theorem countP_wake (l : List SPhase) : (l.map wakeScheduler).countP tends ≤ l.countP tends := by
  induction l with
  | nil => exact Nat.le_refl _
  | cons a l ih =>
    rw [List.map_cons, List.countP_cons, List.countP_cons]
    cases a <;> simp only [wakeScheduler, tends, if_true, if_false, Bool.false_eq_true] <;> omega

/-- Every entry moved out of the schedule after the flag is set uses up one thread that was waiting before. -/
structure Moving (s s' : State) : Prop where
  stopping : s'.stopping = true
  moved : ∃ d, s'.moved = s.moved ++ d ∧ d.length + s'.schedulers.countP tends ≤ s.schedulers.countP tends ∧
    (∀ e ∈ s.scheduled, e ∈ s'.scheduled ∨ e ∈ d)

theorem Moving.trans {s s₁ s₂ : State} (h : Moving s s₁) (h' : Moving s₁ s₂) : Moving s s₂ := by
  obtain ⟨_, d, h2, h3, h4⟩ := h
  obtain ⟨k1, d', k2, k3, k4⟩ := h'
  refine ⟨k1, d ++ d', by rw [k2, h2, List.append_assoc], by rw [List.length_append]; omega, fun e he => ?_⟩
  rcases h4 e he with h | h
  · rcases k4 e h with h | h
    · exact .inl h
    · exact .inr (List.mem_append_right _ h)
  · exact .inr (List.mem_append_left _ h)

theorem Moving.still {s s' : State} (h1 : s'.stopping = true) (h2 : s'.moved = s.moved)
    (h3 : s'.schedulers.countP tends ≤ s.schedulers.countP tends) (h4 : ∀ e ∈ s.scheduled, e ∈ s'.scheduled) :
    Moving s s' :=
  ⟨h1, [], by rw [h2, List.append_nil], by simpa using h3, fun e he => .inl (h4 e he)⟩

theorem mem_insertTimed' {e x : Timed} {l : List Timed} (h : x ∈ l) : x ∈ insertTimed e l := by
  induction l with
  | nil => cases h
  | cons a l ih =>
    unfold insertTimed
    split
    · exact List.mem_cons_of_mem _ h
    · rcases List.mem_cons.1 h with rfl | h
      · exact List.mem_cons_self ..
      · exact List.mem_cons_of_mem _ (ih h)

theorem moving_step {s s' : State} {ev : Event} (h : s.stopping = true) (hs : step s ev = some s') : Moving s s' := by
  obtain ⟨-, hs⟩ := step_cases hs
  have pass : ∀ (a : Int) i, Moving s (workerPass { s with active := a } i) := by
    intro a i
    unfold workerPass
    repeat' split
    all_goals exact .still h rfl (Nat.le_refl _) fun _ he => he
  have rat : ∀ a b, Moving s (runAt s a b) := by
    intro a b
    unfold runAt
    dsimp only
    repeat' split
    all_goals exact .still h rfl (Nat.le_refl _) fun _ he => mem_insertTimed' he
  have less : ∀ {i x y}, s.schedulers[i]? = some x → (tends y = true → tends x = true) →
      (s.schedulers.set i y).countP tends ≤ s.schedulers.countP tends := by
    intro i x y hi hxy
    have := countP_set tends (y := y) hi
    cases hy : tends y with
    | false => rw [hy] at this; simp only [Bool.false_eq_true, if_false] at this; omega
    | true => rw [hy, hxy hy] at this; omega
  cases hs with
  | workerReady i hi => exact pass s.active i
  | workerFinished i t hi => exact pass _ i
  | runAt a b => exact rat _ _
  | runAfter a b => exact rat _ _
  | stop => exact .still rfl rfl (Nat.le_refl _) fun _ he => he
  | createScheduler =>
    refine .still h rfl ?_ fun _ he => he
    show (s.schedulers ++ [SPhase.ready]).countP tends ≤ _
    rw [List.countP_append]
    exact Nat.le_refl _
  | notifyScheduler i e k hp hi => exact .still h rfl (less hi (fun h => by cases h)) fun _ he => he
  | spuriousScheduler i e k hi => exact .still h rfl (less hi (fun h => by cases h)) fun _ he => he
  | schedulerTimeout i e k hi ht => exact .still h rfl (less hi (fun _ => rfl)) fun _ he => he
  | schedulerReady i hi =>
    rw [schedulerPass_stopping h]
    exact .still h rfl (less hi (fun h => by cases h)) fun _ he => he
  | schedulerMoves i woken e k ws hi he hw =>
    have hp := schedulerPass_stopping (s := { enqueue s e.prio e.task false with
      scheduled := s.scheduled.erase e, workers := ws, moved := s.moved ++ [e] }) h i
    rw [hp]
    refine ⟨h, [e], rfl, ?_, fun x hx => ?_⟩
    · have := countP_set tends (y := .exited) hi
      simp only [tends, if_true, Bool.false_eq_true, if_false] at this
      show 1 + (s.schedulers.set i .exited).countP tends ≤ _
      omega
    · by_cases hxe : x = e
      · exact .inr (by rw [hxe]; exact List.mem_singleton.2 rfl)
      · exact .inl ((List.mem_erase_of_ne hxe).2 hx)
  | stopNotifyScheduler => exact .still h rfl (countP_wake _) fun _ he => he
  | _ => exact .still h rfl (Nat.le_refl _) fun _ he => he

theorem moving_run {s s' : State} {evs : List Event} (h : s.stopping = true) (hr : run s evs = some s') :
    Moving s s' := by
  induction evs generalizing s with
  | nil =>
    simp only [run, Option.some.injEq] at hr
    subst hr
    exact .still h rfl (Nat.le_refl _) fun _ he => he
  | cons ev evs ih =>
    simp only [run] at hr
    cases hst : step s ev with
    | none => rw [hst] at hr; cases hr
    | some s₁ =>
      rw [hst] at hr
      have h1 := moving_step h hst
      exact h1.trans (ih h1.stopping hr)

/-- In calm executions at most one thread tends the schedule. -/
theorem calm_tends {n : Nat} {s : State} (h : CalmReachable n s) : s.schedulers.countP tends ≤ 1 := by
  have hc := calm h
  by_contra hn
  have h2 : ∃ (i j : Nat) (p q : SPhase), i ≠ j ∧ s.schedulers[i]? = some p ∧ s.schedulers[j]? = some q ∧ tends p = true ∧
      tends q = true := by
    generalize s.schedulers = l at hn
    have one : ∀ l : List SPhase, 0 < l.countP tends → ∃ (i : Nat) (p : SPhase), l[i]? = some p ∧ tends p = true := by
      intro l hl
      obtain ⟨p, hp, ht⟩ := List.countP_pos_iff.1 hl
      obtain ⟨i, hi⟩ := List.mem_iff_getElem?.1 hp
      exact ⟨i, p, hi, ht⟩
    induction l with
    | nil => simp at hn
    | cons a l ih =>
      rw [List.countP_cons] at hn
      by_cases ha : tends a = true
      · rw [if_pos ha] at hn
        obtain ⟨i, p, hi, hp⟩ := one l (by omega)
        exact ⟨0, i + 1, a, p, by omega, rfl, by simpa using hi, ha, hp⟩
      · rw [if_neg ha] at hn
        obtain ⟨i, j, p, q, hij, hi, hj, hp, hq⟩ := ih hn
        exact ⟨i + 1, j + 1, p, q, by omega, by simpa using hi, by simpa using hj, hp, hq⟩
  obtain ⟨i, j, p, q, hij, hi, hj, hp, hq⟩ := h2
  have hpe : p ≠ .exited := by rintro rfl; cases hp
  have hqe : q ≠ .exited := by rintro rfl; cases hq
  exact hij (hc.unique hi hj hpe hqe)

end Pluto.Pool
