import Verif.Proofs.Pool
import Mathlib.Data.List.Count
import Mathlib.Data.List.Range

/-! # Lemmas about the thread pool: what happens to tasks -/

namespace Pluto.Pool

def isRunning (t : Nat) (p : Phase) : Bool := p == .running t

@[simp] theorem isRunning_ready (t : Nat) : isRunning t .ready = false := rfl
@[simp] theorem isRunning_blocked (t : Nat) : isRunning t .blocked = false := rfl
@[simp] theorem isRunning_running (t t' : Nat) : isRunning t (.running t') = (t' == t) := by
  unfold isRunning
  by_cases h : t' = t
  · simp [h]
  · simp [h]
@[simp] theorem isRunning_finished (t t' : Nat) : isRunning t (.finished t') = false := by
  simp [isRunning]
@[simp] theorem isRunning_exited (t : Nat) : isRunning t .exited = false := rfl

theorem cnt_isRunning_wake (t : Nat) (ws : List Phase) :
    cnt (isRunning t) (ws.map wakeWorker) = cnt (isRunning t) ws := by
  unfold cnt
  rw [List.countP_map]
  apply List.countP_congr
  intro x _
  cases x <;> simp [wakeWorker]

theorem cnt_isRunning_wakeOne {woken : Option Nat} {ws ws' : List Phase}
    (h : wakeOne woken ws = some ws') (t : Nat) :
    cnt (isRunning t) ws' = cnt (isRunning t) ws := by
  rcases wakeOne_spec h with ⟨rfl, _⟩ | ⟨i, hi, rfl⟩
  · rfl
  · have := cnt_set (p := isRunning t) .ready hi
    simpa using this

/-- What a step does to the tasks. -/
inductive Flow (s s' : State) : Prop where
  | same (hq : s'.queue = s.queue) (hs : s'.scheduled = s.scheduled)
    (hr : ∀ t, cnt (isRunning t) s'.workers = cnt (isRunning t) s.workers)
    (hst : s'.started = s.started) (hc : s'.completed = s.completed) (hm : s'.moved = s.moved)
    (hn : s'.nextTask = s.nextTask) (hk : s'.nextSeq = s.nextSeq) : Flow s s'
  | submit (prio : Int) (fromTask : Bool)
    (hq : s'.queue = insertEntry ⟨prio, s.nextTask, s.nextSeq, fromTask⟩ s.queue)
    (hs : s'.scheduled = s.scheduled)
    (hr : ∀ t, cnt (isRunning t) s'.workers = cnt (isRunning t) s.workers)
    (hst : s'.started = s.started) (hc : s'.completed = s.completed) (hm : s'.moved = s.moved)
    (hn : s'.nextTask = s.nextTask + 1) (hk : s'.nextSeq = s.nextSeq + 1) : Flow s s'
  | schedule (time prio : Int)
    (hq : s'.queue = s.queue)
    (hs : s'.scheduled = insertTimed ⟨time, prio, s.nextTask⟩ s.scheduled)
    (hr : ∀ t, cnt (isRunning t) s'.workers = cnt (isRunning t) s.workers)
    (hst : s'.started = s.started) (hc : s'.completed = s.completed) (hm : s'.moved = s.moved)
    (hn : s'.nextTask = s.nextTask + 1) (hk : s'.nextSeq = s.nextSeq) : Flow s s'
  | move (e : Timed) (he : e ∈ s.scheduled)
    (hq : s'.queue = insertEntry ⟨e.prio, e.task, s.nextSeq, false⟩ s.queue)
    (hs : s'.scheduled = s.scheduled.erase e)
    (hr : ∀ t, cnt (isRunning t) s'.workers = cnt (isRunning t) s.workers)
    (hst : s'.started = s.started) (hc : s'.completed = s.completed) (hm : s'.moved = s.moved ++ [e])
    (hn : s'.nextTask = s.nextTask) (hk : s'.nextSeq = s.nextSeq + 1) : Flow s s'
  | start (e : Entry)
    (hq : s.queue = e :: s'.queue) (hs : s'.scheduled = s.scheduled)
    (hr : ∀ t, cnt (isRunning t) s'.workers =
      cnt (isRunning t) s.workers + if e.task = t then 1 else 0)
    (hst : s'.started = s.started ++ [e]) (hc : s'.completed = s.completed)
    (hm : s'.moved = s.moved) (hn : s'.nextTask = s.nextTask) (hk : s'.nextSeq = s.nextSeq)
    (hsize : s.workers.length ≤ s.target)
    (hstop : s.stopping = false ∨ s.onStop = .completeTasks) : Flow s s'
  | complete (t₀ : Nat)
    (hq : s'.queue = s.queue) (hs : s'.scheduled = s.scheduled)
    (hr : ∀ t, cnt (isRunning t) s'.workers + (if t₀ = t then 1 else 0) =
      cnt (isRunning t) s.workers)
    (hst : s'.started = s.started) (hc : s'.completed = s.completed ++ [t₀])
    (hm : s'.moved = s.moved) (hn : s'.nextTask = s.nextTask) (hk : s'.nextSeq = s.nextSeq) :
    Flow s s'

theorem flow_pass (s : State) (a : Int) (i : Nat) (x : Phase) (hx : s.workers[i]? = some x)
    (hr : ∀ t, isRunning t x = false) : Flow s (workerPass { s with active := a } i) := by
  unfold workerPass
  simp only
  split
  · rename_i hc
    split
    · rename_i hq
      refine .same (by simp [hq]) rfl (fun t => ?_) rfl rfl rfl rfl rfl
      have := cnt_set (p := isRunning t) .blocked hx
      rw [hr] at this; simpa using this
    · rename_i e rest hq
      refine .start e hq rfl (fun t => ?_) rfl rfl rfl rfl rfl hc.1 ?_
      · have := cnt_set (p := isRunning t) (.running e.task) hx
        rw [hr] at this
        simp at this
        simp [this]
        by_cases h : e.task = t <;> simp [h]
      · rcases hc.2 with h | h
        · exact .inl h
        · exact .inr h.1
  · split
    · refine .same rfl rfl (fun t => ?_) rfl rfl rfl rfl rfl
      have := cnt_erase (p := isRunning t) hx
      rw [hr] at this; simpa using this
    · refine .same rfl rfl (fun t => ?_) rfl rfl rfl rfl rfl
      have := cnt_set (p := isRunning t) .exited hx
      rw [hr] at this; simpa using this

theorem schedulerPass_fields (s : State) (i : Nat) :
    (schedulerPass s i).queue = s.queue ∧ (schedulerPass s i).scheduled = s.scheduled ∧
      (schedulerPass s i).workers = s.workers ∧ (schedulerPass s i).started = s.started ∧
      (schedulerPass s i).completed = s.completed ∧ (schedulerPass s i).moved = s.moved ∧
      (schedulerPass s i).nextTask = s.nextTask ∧ (schedulerPass s i).nextSeq = s.nextSeq := by
  unfold schedulerPass
  split
  · simp
  · simp
  · split <;> simp

theorem flow_runAt (s : State) (time prio : Int) : Flow s (runAt s time prio) := by
  unfold runAt
  simp only
  split
  · exact .schedule time prio rfl rfl (fun _ => rfl) rfl rfl rfl rfl rfl
  · split
    · exact .schedule time prio rfl rfl (fun _ => rfl) rfl rfl rfl rfl rfl
    · exact .schedule time prio rfl rfl (fun _ => rfl) rfl rfl rfl rfl rfl

theorem flow_step {s s' : State} {ev : Event} (hs : step s ev = some s') : Flow s s' := by
  obtain ⟨-, hs⟩ := step_cases hs
  cases hs with
  | runAsync prio caller hc =>
    exact .submit prio caller.isSome rfl rfl (fun _ => rfl) rfl rfl rfl rfl rfl
  | runSync prio caller hc =>
    exact .submit prio caller.isSome rfl rfl (fun _ => rfl) rfl rfl rfl rfl rfl
  | runAt time prio caller hc => exact flow_runAt s time prio
  | runAfter d prio caller hc => exact flow_runAt s _ prio
  | grow n caller hc hns hn =>
    refine .same rfl rfl (fun t => ?_) rfl rfl rfl rfl rfl
    simp [cnt_append]
  | notifyOne woken ws hp hw =>
    exact .same rfl rfl (fun t => cnt_isRunning_wakeOne hw t) rfl rfl rfl rfl rfl
  | notifyAll hp => exact .same rfl rfl (fun t => cnt_isRunning_wake t _) rfl rfl rfl rfl rfl
  | spuriousWorker i hi =>
    refine .same rfl rfl (fun t => ?_) rfl rfl rfl rfl rfl
    have := cnt_set (p := isRunning t) .ready hi
    simpa using this
  | workerReady i hi => exact flow_pass s s.active i _ hi (fun t => rfl)
  | workerFinished i t hi =>
    exact flow_pass s (s.active - 1) i _ hi (fun t => isRunning_finished _ _)
  | taskReturns i t hi =>
    refine .complete t rfl rfl (fun t' => ?_) rfl rfl rfl rfl rfl
    have := cnt_set (p := isRunning t') (.finished t) hi
    simp at this
    simp [← this]
    by_cases h : t = t'
    · simp [h]
    · simp [h, beq_eq_false_iff_ne.2 h]
  | schedulerReady i hi =>
    obtain ⟨h1, h2, h3, h4, h5, h6, h7, h8⟩ := schedulerPass_fields s i
    exact .same h1 h2 (fun t => by rw [h3]) h4 h5 h6 h7 h8
  | schedulerMoves i woken e n ws hi he hw =>
    generalize hs1 : ({ enqueue s e.prio e.task false with
          scheduled := s.scheduled.erase e
          workers := ws
          moved := s.moved ++ [e] } : State) = s1
    obtain ⟨h1, h2, h3, h4, h5, h6, h7, h8⟩ := schedulerPass_fields s1 i
    refine .move e he ?_ ?_ (fun t => ?_) ?_ ?_ ?_ ?_ ?_
    · rw [h1, ← hs1]; rfl
    · rw [h2, ← hs1]
    · rw [h3, ← hs1]; exact cnt_isRunning_wakeOne hw t
    · rw [h4, ← hs1]; rfl
    · rw [h5, ← hs1]; rfl
    · rw [h6, ← hs1]
    · rw [h7, ← hs1]; rfl
    · rw [h8, ← hs1]; rfl
  | stopNotifyWorkers hst =>
    exact .same rfl rfl (fun t => cnt_isRunning_wake t _) rfl rfl rfl rfl rfl
  | _ => exact .same rfl rfl (fun _ => rfl) rfl rfl rfl rfl rfl

/-! ## No task is lost or duplicated -/

theorem count_insertEntry (t : Nat) (e : Entry) (q : List Entry) :
    ((insertEntry e q).map (·.task)).count t = (q.map (·.task)).count t + if e.task = t then 1 else 0 := by
  induction q with
  | nil => simp [insertEntry, List.count_cons]
  | cons x q ih =>
    unfold insertEntry
    split
    · simp [List.count_cons]
    · simp only [List.map_cons, List.count_cons, ih]; omega

theorem countSeq_insertEntry (k : Nat) (e : Entry) (q : List Entry) :
    ((insertEntry e q).map (·.seq)).count k = (q.map (·.seq)).count k + if e.seq = k then 1 else 0 := by
  induction q with
  | nil => simp [insertEntry, List.count_cons]
  | cons x q ih =>
    unfold insertEntry
    split
    · simp [List.count_cons]
    · simp only [List.map_cons, List.count_cons, ih]; omega

theorem count_insertTimed (t : Nat) (e : Timed) (q : List Timed) :
    ((insertTimed e q).map (·.task)).count t = (q.map (·.task)).count t + if e.task = t then 1 else 0 := by
  induction q with
  | nil => simp [insertTimed, List.count_cons]
  | cons x q ih =>
    unfold insertTimed
    split
    · simp [List.count_cons]
    · simp only [List.map_cons, List.count_cons, ih]; omega

theorem count_eraseTimed (t : Nat) (e : Timed) (q : List Timed) (h : e ∈ q) :
    ((q.erase e).map (·.task)).count t + (if e.task = t then 1 else 0) = (q.map (·.task)).count t := by
  have := (List.perm_cons_erase h).map (·.task)
  rw [this.count_eq]
  simp [List.count_cons]

structure Conserved (s : State) : Prop where
  total : ∀ t, (s.scheduled.map (·.task)).count t + (s.queue.map (·.task)).count t +
    cnt (isRunning t) s.workers + s.completed.count t = if t < s.nextTask then 1 else 0
  started : ∀ t, (s.started.map (·.task)).count t = cnt (isRunning t) s.workers + s.completed.count t
  seqs : ∀ k, (s.queue.map (·.seq)).count k + (s.started.map (·.seq)).count k =
    if k < s.nextSeq then 1 else 0

theorem conserved_step {s s' : State} {ev : Event} (h : Conserved s) (hs : step s ev = some s') :
    Conserved s' := by
  obtain ⟨h1, h2, h3⟩ := h
  cases flow_step hs with
  | same hq hs hr hst hc hm hn hk =>
    exact ⟨by simpa [hq, hs, hr, hc, hn] using h1, by simpa [hst, hr, hc] using h2,
      by simpa [hq, hst, hk] using h3⟩
  | submit prio fromTask hq hs hr hst hc hm hn hk =>
    refine ⟨fun t => ?_, by simpa [hst, hr, hc] using h2, fun k => ?_⟩
    · have := h1 t
      rw [hq, hs, hr, hc, hn, count_insertEntry]
      simp only
      by_cases h : s.nextTask = t
      · subst h; simp at this ⊢; omega
      · rw [if_neg h]
        rcases Nat.lt_or_gt_of_ne h with h' | h'
        · rw [if_neg (show ¬ t < s.nextTask by omega)] at this; rw [if_neg (show ¬ t < s.nextTask + 1 by omega)]; omega
        · rw [if_pos (show t < s.nextTask by omega)] at this; rw [if_pos (show t < s.nextTask + 1 by omega)]; omega
    · have := h3 k
      rw [hq, hst, hk, countSeq_insertEntry]
      simp only
      split at this <;> split <;> split <;> omega
  | schedule time prio hq hs hr hst hc hm hn hk =>
    refine ⟨fun t => ?_, by simpa [hst, hr, hc] using h2, by simpa [hq, hst, hk] using h3⟩
    have := h1 t
    rw [hq, hs, hr, hc, hn, count_insertTimed]
    simp only
    by_cases h : s.nextTask = t
    · subst h; simp at this ⊢; omega
    · rw [if_neg h]
      rcases Nat.lt_or_gt_of_ne h with h' | h'
      · rw [if_neg (show ¬ t < s.nextTask by omega)] at this; rw [if_neg (show ¬ t < s.nextTask + 1 by omega)]; omega
      · rw [if_pos (show t < s.nextTask by omega)] at this; rw [if_pos (show t < s.nextTask + 1 by omega)]; omega
  | move e he hq hs hr hst hc hm hn hk =>
    refine ⟨fun t => ?_, by simpa [hst, hr, hc] using h2, fun k => ?_⟩
    · have := h1 t
      have := count_eraseTimed t e s.scheduled he
      rw [hq, hs, hr, hc, hn, count_insertEntry]
      simp only
      omega
    · have := h3 k
      rw [hq, hst, hk, countSeq_insertEntry]
      simp only
      split at this <;> split <;> split <;> omega
  | start e hq hs hr hst hc hm hn hk =>
    refine ⟨fun t => ?_, fun t => ?_, fun k => ?_⟩
    · have := h1 t
      rw [hq] at this
      simp only [List.map_cons, List.count_cons, beq_iff_eq] at this
      rw [hs, hr, hc, hn]
      omega
    · have := h2 t
      rw [hst, hr, hc]
      simp only [List.map_append, List.map_cons, List.map_nil, List.count_append, List.count_singleton,
        beq_iff_eq]
      omega
    · have := h3 k
      rw [hq] at this
      simp only [List.map_cons, List.count_cons, beq_iff_eq] at this
      rw [hst, hk]
      simp only [List.map_append, List.map_cons, List.map_nil, List.count_append, List.count_singleton,
        beq_iff_eq]
      omega
  | complete t₀ hq hs hr hst hc hm hn hk =>
    refine ⟨fun t => ?_, fun t => ?_, by simpa [hq, hst, hk] using h3⟩
    · have := h1 t
      have := hr t
      rw [hs, hq, hc, hn]
      simp only [List.count_append, List.count_singleton, beq_iff_eq]
      omega
    · have := h2 t
      have := hr t
      rw [hst, hc]
      simp only [List.count_append, List.count_singleton, beq_iff_eq]
      omega

theorem conserved {n : Nat} {s : State} (h : Reachable n s) : Conserved s := by
  induction h with
  | init =>
    have hr : ∀ t, cnt (isRunning t) (init n).workers = 0 := by
      intro t; simp [init, cnt, List.countP_replicate]
    refine ⟨fun t => ?_, fun t => ?_, fun k => ?_⟩ <;> (try simp only [hr]) <;> simp [init]
  | step ev _ hs ih => exact conserved_step ih hs

/-! ## The order of tasks -/

/-- `a` must start before `b`. -/
def Before (a b : Entry) : Prop := b.prio < a.prio ∨ (b.prio = a.prio ∧ a.seq < b.seq)

theorem mem_insertEntry {e x : Entry} {q : List Entry} :
    x ∈ insertEntry e q ↔ x = e ∨ x ∈ q := by
  induction q with
  | nil => simp [insertEntry]
  | cons y q ih =>
    unfold insertEntry
    split
    · simp
    · simp only [List.mem_cons, ih]
      constructor
      · rintro (h | h | h)
        · exact .inr (.inl h)
        · exact .inl h
        · exact .inr (.inr h)
      · rintro (h | h | h)
        · exact .inr (.inl h)
        · exact .inl h
        · exact .inr (.inr h)

theorem sorted_insertEntry {e : Entry} {q : List Entry} (h : q.Pairwise Before)
    (hs : ∀ x ∈ q, x.seq < e.seq) : (insertEntry e q).Pairwise Before := by
  induction q with
  | nil => simp [insertEntry]
  | cons y q ih =>
    rw [List.pairwise_cons] at h
    unfold insertEntry
    split
    · rename_i hlt
      rw [List.pairwise_cons, List.pairwise_cons]
      refine ⟨?_, h⟩
      intro x hx
      rcases List.mem_cons.1 hx with rfl | hx
      · exact .inl hlt
      · rcases h.1 x hx with h' | h'
        · left; omega
        · left; omega
    · rename_i hle
      rw [List.pairwise_cons]
      refine ⟨?_, ih h.2 (fun x hx => hs x (List.mem_cons_of_mem _ hx))⟩
      intro x hx
      rcases mem_insertEntry.1 hx with rfl | hx
      · have := hs y (List.mem_cons_self ..)
        by_cases heq : x.prio = y.prio
        · exact .inr ⟨heq, this⟩
        · left; omega
      · exact h.1 x hx

structure Ordered (s : State) : Prop where
  sorted : s.queue.Pairwise Before
  seqQueue : ∀ e ∈ s.queue, e.seq < s.nextSeq
  seqStarted : ∀ e ∈ s.started, e.seq < s.nextSeq
  later : ∀ e ∈ s.started, ∀ x ∈ s.queue, x.prio = e.prio → e.seq < x.seq
  startedSorted : s.started.Pairwise fun a b => a.prio = b.prio → a.seq < b.seq

theorem ordered_insert {s s' : State} (h : Ordered s) (e : Entry) (he : e.seq = s.nextSeq)
    (hq : s'.queue = insertEntry e s.queue) (hst : s'.started = s.started)
    (hk : s'.nextSeq = s.nextSeq + 1) : Ordered s' := by
  obtain ⟨h1, h2, h3, h4, h5⟩ := h
  refine ⟨?_, ?_, ?_, ?_, by rw [hst]; exact h5⟩
  · rw [hq]
    exact sorted_insertEntry h1 (fun x hx => by rw [he]; exact h2 x hx)
  · rw [hq, hk]
    intro x hx
    rcases mem_insertEntry.1 hx with rfl | hx
    · omega
    · have := h2 x hx; omega
  · rw [hst, hk]
    intro x hx
    have := h3 x hx; omega
  · rw [hst, hq]
    intro x hx y hy hp
    rcases mem_insertEntry.1 hy with rfl | hy
    · have := h3 x hx; omega
    · exact h4 x hx y hy hp

theorem ordered_step {s s' : State} {ev : Event} (h : Ordered s) (hs : step s ev = some s') :
    Ordered s' := by
  cases flow_step hs with
  | same hq hs hr hst hc hm hn hk =>
    obtain ⟨h1, h2, h3, h4, h5⟩ := h
    exact ⟨by rwa [hq], by rwa [hq, hk], by rwa [hst, hk], by rwa [hst, hq], by rwa [hst]⟩
  | submit prio fromTask hq hs hr hst hc hm hn hk => exact ordered_insert h _ rfl hq hst hk
  | schedule time prio hq hs hr hst hc hm hn hk =>
    obtain ⟨h1, h2, h3, h4, h5⟩ := h
    exact ⟨by rwa [hq], by rwa [hq, hk], by rwa [hst, hk], by rwa [hst, hq], by rwa [hst]⟩
  | move e he hq hs hr hst hc hm hn hk => exact ordered_insert h _ rfl hq hst hk
  | start e hq hs hr hst hc hm hn hk =>
    obtain ⟨h1, h2, h3, h4, h5⟩ := h
    rw [hq] at h1 h2 h4
    rw [List.pairwise_cons] at h1
    refine ⟨h1.2, ?_, ?_, ?_, ?_⟩
    · rw [hk]; exact fun x hx => h2 x (List.mem_cons_of_mem _ hx)
    · rw [hk, hst]
      intro x hx
      rcases List.mem_append.1 hx with hx | hx
      · exact h3 x hx
      · rw [List.mem_singleton] at hx; subst hx; exact h2 x (List.mem_cons_self ..)
    · rw [hst]
      intro x hx y hy hp
      rcases List.mem_append.1 hx with hx | hx
      · exact h4 x hx y (List.mem_cons_of_mem _ hy) hp
      · rw [List.mem_singleton] at hx; subst hx
        rcases h1.1 y hy with h | h
        · omega
        · exact h.2
    · rw [hst, List.pairwise_append]
      refine ⟨h5, by simp, ?_⟩
      intro a ha b hb hp
      rw [List.mem_singleton] at hb; subst hb
      exact h4 a ha b (List.mem_cons_self ..) hp.symm
  | complete t₀ hq hs hr hst hc hm hn hk =>
    obtain ⟨h1, h2, h3, h4, h5⟩ := h
    exact ⟨by rwa [hq], by rwa [hq, hk], by rwa [hst, hk], by rwa [hst, hq], by rwa [hst]⟩

theorem ordered {n : Nat} {s : State} (h : Reachable n s) : Ordered s := by
  induction h with
  | init => constructor <;> simp [init]
  | step ev _ hs ih => exact ordered_step ih hs

end Pluto.Pool
