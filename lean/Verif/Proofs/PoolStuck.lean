import Verif.Proofs.PoolNest

/-! # An execution that gets stuck: every worker runs a task that waits in `run_sync` -/

namespace Pluto.PoolNest
open Pluto.Pool (Event Phase)
open Pluto.Spec.PoolNest

/-- `k` tasks are running, `j` of them wait inside `run_sync`. -/
structure Stuck (n k j : Nat) (s : State) : Prop where
  reach : Reachable n s
  workers : s.pool.workers = (List.range k).map .running ++ List.replicate (n - k) .ready
  queue : s.pool.queue.length = j
  next : s.pool.nextTask = k + j
  target : s.pool.target = n
  stopping : s.pool.stopping = false
  stage : s.pool.stage = .alive
  crash : s.pool.crash = none
  pendingAll : s.pool.pendingAll = 0
  waitNone : s.pool.waitNone = []
  waitAll : s.pool.waitAll = []
  fulfilled : s.pool.fulfilled = []
  syncs : s.pool.syncs.length = j
  completed : s.pool.completed = []
  order : s.syncing.map (·.1) = (List.range j).reverse
  noneCallers : s.noneCallers = []
  allCallers : s.allCallers = []

theorem Stuck.syncing {n k j : Nat} {s : State} (h : Stuck n k j s) (t : Nat) :
    t ∈ s.syncing.map (·.1) ↔ t < j := by
  rw [h.order]; simp

theorem set_middle {α : Type} (xs ys : List α) (x y : α) :
    (xs ++ x :: ys).set xs.length y = xs ++ y :: ys := by
  induction xs with
  | nil => rfl
  | cons a xs ih => simp [ih]

theorem stuck_start {n k : Nat} {s : State} (h : Stuck n k 0 s) (hk : k < n) :
    ∃ s', Stuck n (k + 1) 0 s' := by
  have hq : s.pool.queue = [] := List.eq_nil_of_length_eq_zero h.queue
  obtain ⟨m, hm⟩ : ∃ m, n - k = m + 1 := ⟨n - k - 1, by omega⟩
  have hws := h.workers
  rw [hm, List.replicate_succ] at hws
  have hlen : ((List.range k).map Phase.running).length = k := by simp
  have hget : s.pool.workers[k]? = some .ready := by
    rw [hws, List.getElem?_append_right (by rw [hlen]), hlen]; simp
  have hwl : s.pool.workers.length = n := by rw [h.workers]; simp; omega
  let s1 : State := { s with pool := { s.pool with
    queue := [⟨0, s.pool.nextTask, s.pool.nextSeq, false⟩]
    nextSeq := s.pool.nextSeq + 1
    nextTask := s.pool.nextTask + 1
    pendingOne := s.pool.pendingOne + 1 } }
  have e1 : step s (.runAsync 0 none) = some s1 := by
    simp [step, held, actor, Pool.step, h.crash, Pool.canCall, h.stage, Pool.enqueue, hq,
      Pool.insertEntry, record, s1]
  let s2 : State := { s1 with pool := { s1.pool with
    queue := []
    waitNone := Pool.wakeAll s.pool.waitNone
    active := s.pool.active + 1
    workers := s.pool.workers.set k (.running s.pool.nextTask)
    started := s.pool.started ++ [⟨0, s.pool.nextTask, s.pool.nextSeq, false⟩] } }
  have e2 : step s1 (.worker k) = some s2 := by
    simp [step, held, actor, Pool.step, h.crash, hget, record, Pool.workerPass, hwl, h.target,
      h.stopping, s1, s2]
  refine ⟨s2, .step _ (.step _ h.reach e1) e2, ?_, rfl, ?_, h.target, h.stopping, h.stage, h.crash,
    h.pendingAll, ?_, h.waitAll, h.fulfilled, h.syncs, h.completed, h.order, h.noneCallers, h.allCallers⟩
  · simp only [s2]
    have := set_middle ((List.range k).map Phase.running) (List.replicate m .ready) .ready
      (.running k)
    rw [hlen] at this
    have hn := h.next
    simp only [Nat.add_zero] at hn
    rw [hws, hn, this, List.range_succ, List.map_append, show n - (k + 1) = m by omega]
    simp
  · simp [s2, s1, h.next]
  · simp [s2, h.waitNone, Pool.wakeAll]

theorem stuck_call {n j : Nat} {s : State} (h : Stuck n n j s) (hj : j < n) :
    ∃ s', Stuck n n (j + 1) s' := by
  have hws := h.workers
  rw [Nat.sub_self, List.replicate_zero, List.append_nil] at hws
  have hget : s.pool.workers[j]? = some (.running j) := by
    rw [hws, List.getElem?_map, List.getElem?_range hj]; rfl
  have hin : inside s j = false := by
    have := h.syncing j
    simp [inside, h.noneCallers, h.allCallers]
    intro x hx
    have := this.1 (List.mem_map.2 ⟨_, hx, rfl⟩)
    omega
  let s1 : State := { s with
    syncing := (j, s.pool.nextTask) :: s.syncing
    pool := { s.pool with
      queue := Pool.insertEntry ⟨0, s.pool.nextTask, s.pool.nextSeq, true⟩ s.pool.queue
      nextSeq := s.pool.nextSeq + 1
      nextTask := s.pool.nextTask + 1
      pendingOne := s.pool.pendingOne + 1
      syncs := s.pool.nextTask :: s.pool.syncs } }
  have e1 : step s (.runSync 0 (some j)) = some s1 := by
    simp [step, held, actor, taskOf, hget, hin, Pool.step, h.crash, Pool.canCall, record,
      Pool.enqueue, s1]
  refine ⟨s1, .step _ h.reach e1, h.workers, ?_, ?_, h.target, h.stopping, h.stage, h.crash,
    h.pendingAll, h.waitNone, h.waitAll, h.fulfilled, ?_, h.completed, ?_, h.noneCallers, h.allCallers⟩
  · simp [s1, Pool.length_insertEntry, h.queue]
  · simp [s1, h.next]; omega
  · simp [s1, h.syncs]
  · simp [s1, h.order, List.range_succ]

theorem stuck_notified {n : Nat} {s : State} (h : Stuck n n n s) :
    ∃ s', Stuck n n n s' ∧ s'.pool.pendingOne = 0 := by
  generalize hk : s.pool.pendingOne = k
  induction k generalizing s with
  | zero => exact ⟨s, h, hk⟩
  | succ k ih =>
    have hnb : Phase.blocked ∉ s.pool.workers := by
      rw [h.workers]; simp
    have hs : step s (.notifyOne none) =
        some { s with pool := { s.pool with pendingOne := s.pool.pendingOne - 1 } } := by
      simp [step, held, actor, Pool.step, h.crash, hk, Pool.wakeOne, hnb, record]
    refine ih (s := { s with pool := { s.pool with pendingOne := s.pool.pendingOne - 1 } })
      ⟨.step _ h.reach hs, h.workers, h.queue, h.next, h.target, h.stopping, h.stage, h.crash,
        h.pendingAll, h.waitNone, h.waitAll, h.fulfilled, h.syncs, h.completed, h.order, h.noneCallers,
        h.allCallers⟩ ?_
    simp only; omega

theorem stuck_exists (n : Nat) : ∃ s, Stuck n n n s ∧ s.pool.pendingOne = 0 := by
  have h1 : ∀ k, k ≤ n → ∃ s, Stuck n k 0 s := by
    intro k
    induction k with
    | zero =>
      intro _
      exact ⟨init n, .init, by simp [init, Pool.init], rfl, rfl, rfl, rfl, rfl, rfl, rfl, rfl, rfl,
        rfl, rfl, rfl, rfl, rfl, rfl⟩
    | succ k ih =>
      intro hk
      obtain ⟨s, hs⟩ := ih (by omega)
      exact stuck_start hs (by omega)
  have h2 : ∀ j, j ≤ n → ∃ s, Stuck n n j s := by
    intro j
    induction j with
    | zero => exact fun _ => h1 n (Nat.le_refl _)
    | succ j ih =>
      intro hj
      obtain ⟨s, hs⟩ := ih (by omega)
      exact stuck_call hs (by omega)
  obtain ⟨s, hs⟩ := h2 n (Nat.le_refl _)
  exact stuck_notified hs

theorem stuck_rest {n : Nat} {s : State} (h : Stuck n n n s) (hp : s.pool.pendingOne = 0) :
    AllOccupied s ∧ ∀ ev, Own ev = true → step s ev = none := by
  have hws := h.workers
  rw [Nat.sub_self, List.replicate_zero, List.append_nil] at hws
  have hocc : AllOccupied s := by
    intro p hp
    rw [hws] at hp
    obtain ⟨t, ht, rfl⟩ := List.mem_map.1 hp
    refine ⟨t, rfl, inside_iff.2 (.inl ?_)⟩
    obtain ⟨x, hx, rfl⟩ := List.mem_map.1 ((h.syncing t).2 (List.mem_range.1 ht))
    exact ⟨x.2, hx⟩
  refine ⟨hocc, ?_⟩
  intro ev ho
  have none_of : Pool.step s.pool ev = none → step s ev = none := by
    intro he
    unfold step
    rw [he]
    simp
  cases ev with
  | taskReturns i =>
    cases hi : s.pool.workers[i]? with
    | none => exact none_of (by simp [Pool.step, h.crash, hi])
    | some p =>
      obtain ⟨t, rfl, ht⟩ := hocc p (List.mem_of_getElem? hi)
      simp [step, held, actor, taskOf, hi, ht]
  | worker i =>
    cases hi : s.pool.workers[i]? with
    | none => exact none_of (by simp [Pool.step, h.crash, hi])
    | some p =>
      obtain ⟨t, rfl, ht⟩ := hocc p (List.mem_of_getElem? hi)
      exact none_of (by simp [Pool.step, h.crash, hi])
  | notifyOne w => exact none_of (by simp [Pool.step, h.crash, hp])
  | notifyAll => exact none_of (by simp [Pool.step, h.crash, h.pendingAll])
  | syncReturns u => exact none_of (by simp [Pool.step, h.crash, h.fulfilled])
  | waitNone i => exact none_of (by simp [Pool.step, h.crash, h.waitNone])
  | waitAll i => exact none_of (by simp [Pool.step, h.crash, h.waitAll])
  | _ => cases ho

end Pluto.PoolNest
