import Verif.Proofs.PoolRace

/-!
# Data races on the members of the pool (C116), and threads that outlive it (C117)
-/

namespace Pluto.Props
open Pluto.PoolRace

/-- C116, the part that holds: any number of threads and tasks may call any functions of the pool at the same time; whenever two
threads are about to access the same member and one of them writes, one of the accesses is the assignment to `m_scheduler` in `run_at`,
and the other one is to `m_scheduler` as well. This includes the constructor, the pool's own threads and the destructor. -/
theorem C116_members_partial {s : State} (h : Reachable (fun _ _ => True) s) {i j : Nat} {l : Loc} (hr : Race s i j l) :
    l = .scheduler ∧ ∃ t, (s.threads[i]? = some t ∨ s.threads[j]? = some t) ∧ t.todo.head? = some (.act .assignScheduler) := by
  obtain ⟨hij, t, u, w, v, hi, hj, ht, hu, hwv⟩ := hr
  obtain ⟨ctx, hg⟩ := good (one := False) (fun h => h.elim) h
  have key : ∀ {t : Thread} {k : List Code} {w : Bool}, t.todo = .act .assignScheduler :: k → (l, w) ∈ accesses t → l = .scheduler := by
    intro t k w e ht
    unfold accesses at ht
    rw [e] at ht
    simp only [actAccesses, List.mem_singleton, Prod.mk.injEq] at ht
    exact ht.1
  by_cases h1 : ∃ k, t.todo = .act .assignScheduler :: k
  · obtain ⟨k, e⟩ := h1
    exact ⟨key e ht, t, .inl hi, by rw [e]; rfl⟩
  by_cases h2 : ∃ k, u.todo = .act .assignScheduler :: k
  · obtain ⟨k, e⟩ := h2
    exact ⟨key e hu, u, .inr hj, by rw [e]; rfl⟩
  exact (hg.race hij hi hj ht hu hwv (fun k e => h1 ⟨k, e⟩) (fun k e => h2 ⟨k, e⟩)).elim

theorem reachable_mono {ok ok' : State → Event → Prop} (hok : ∀ s ev, ok s ev → ok' s ev) {s : State} (h : Reachable ok s) :
    Reachable ok' s := by
  induction h with
  | init => exact .init
  | step ev _ ho hs ih => exact ih.step ev (hok _ _ ho) hs

/-- C116: without `run_at` and `run_after` there is no data race at all. -/
theorem C116_without_run_at {s : State} (h : Reachable NoRunAt s) (i j : Nat) (l : Loc) : ¬ Race s i j l := by
  intro hr
  obtain ⟨_, t, ht, he⟩ := C116_members_partial (reachable_mono (fun _ _ _ => trivial) h) hr
  have hm : t ∈ s.threads := by rcases ht with ht | ht <;> exact List.mem_of_getElem? ht
  have := clean_reachable h t hm
  cases hk : t.todo with
  | nil => rw [hk] at he; cases he
  | cons x k =>
    rw [hk] at he this
    cases he
    exact absurd (this _ (List.mem_cons_self ..)) (by decide)

theorem race_run {ok : State → Event → Prop} {s s' : State} (h : Reachable ok s) (evs : List Event)
    (hok : ∀ ev ∈ evs, ∀ s, ok s ev) (hr : run s evs = some s') : Reachable ok s' := by
  induction evs generalizing s with
  | nil => cases hr; exact h
  | cons ev evs ih =>
    unfold run at hr
    split at hr
    · rename_i s1 hs
      exact ih (h.step ev (hok ev (List.mem_cons_self ..) _) hs) (fun ev hev => hok ev (List.mem_cons_of_mem _ hev)) hr
    · cases hr

/-- The thread `i` makes `n` steps, out of every loop. -/
def goes (i n : Nat) : List Event := List.replicate n (.go i false none)

theorem one_goes (i n : Nat) : ∀ ev ∈ goes i n, ∀ s, OneRunAt s ev := by
  intro ev hev s j b e
  rw [List.eq_of_mem_replicate hev] at e
  cases e

theorem one_other {ev : Event} (h : ∀ i b f, ev ≠ .go i b (some f)) (s : State) : OneRunAt s ev := fun i b e => absurd e (h i b _)

/-- A pool without workers has been constructed, and a thread (the one with number 1) calls `run_at`. -/
def called : State := (run {} (goes 0 9 ++ [.user, .go 1 false (some .runAt)])).getD {}

theorem called_reachable : Reachable OneRunAt called := by
  have h1 : Reachable OneRunAt ((run {} (goes 0 9 ++ [.user])).getD {}) := by
    refine race_run .init (goes 0 9 ++ [.user]) ?_ rfl
    intro ev hev s
    rcases List.mem_append.1 hev with hev | hev
    · exact one_goes _ _ ev hev s
    · rw [List.mem_singleton] at hev; subst hev; exact one_other (by simp) s
  refine h1.step (.go 1 false (some .runAt)) ?_ rfl
  intro _ _ _
  decide

/-- C116 fails with a single call of `run_at`: the new scheduler finds nothing to do (its task was due), and detaches `m_scheduler`
while the caller assigns to it. -/
theorem C116_fails : ∃ s, Reachable OneRunAt s ∧ Race s 1 2 .scheduler := by
  refine ⟨(run called (goes 1 9 ++ goes 2 10)).getD {}, race_run called_reachable (goes 1 9 ++ goes 2 10) ?_ rfl, by decide, ?_⟩
  · intro ev hev s
    rcases List.mem_append.1 hev with hev | hev <;> exact one_goes _ _ ev hev s
  · exact ⟨_, _, true, true, rfl, rfl, by decide, by decide, .inl rfl⟩

/-- C117, the part that holds: if calls of `run_at` and `run_after` do not overlap, then no thread does anything to the pool any more when
its destructor has returned. -/
theorem C117_end_partial {s : State} (h : Reachable OneRunAt s) (hd : Destroyed s) : ∀ t ∈ s.threads, t.todo = [] := by
  intro t ht
  obtain ⟨i, hi⟩ := List.mem_iff_getElem?.1 ht
  obtain ⟨ctx, hg⟩ := good (one := True) (fun _ _ _ h => h) h
  rcases hg.destroyed hd hi with h0 | h0
  · exact h0
  · exact absurd trivial h0.2

/-- C117: in any execution, only schedulers can do something to the pool when its destructor has returned. -/
theorem C117_end {s : State} (h : Reachable (fun _ _ => True) s) (hd : Destroyed s) : ∀ t ∈ s.threads, t.kind ≠ .scheduler → t.todo = [] := by
  intro t ht hk
  obtain ⟨i, hi⟩ := List.mem_iff_getElem?.1 ht
  obtain ⟨ctx, hg⟩ := good (one := False) (fun h => h.elim) h
  rcases hg.destroyed hd hi with h0 | h0
  · exact h0
  · exact absurd h0.1 hk

/-- Events other than calls of `run_at`. -/
def noRunAt : Event → Bool
  | .go _ _ (some .runAt) => false
  | _ => true

theorem one_noRunAt {evs : List Event} (h : evs.all noRunAt = true) : ∀ ev ∈ evs, ∀ s, OneRunAt s ev ∧ NoRunAt s ev := by
  intro ev hev s
  have h1 := List.all_eq_true.1 h ev hev
  refine ⟨fun i b e => ?_, fun i b e => ?_⟩ <;> · subst e; exact absurd h1 (by simp [noRunAt])

/-- After the call of `run_at`, a worker is created, the destructor is called, the worker ends, and the destructor returns. -/
def life : List Event :=
  goes 1 12 ++ goes 2 12 ++ [.user, .go 3 false (some .setTarget)] ++ goes 3 6 ++ [.go 3 true none] ++ goes 3 14 ++ [.destroy] ++ goes 5 12 ++
    goes 4 16 ++ goes 5 6

/-- A pool that has had a scheduler and a worker is destroyed. -/
example : ∃ s, Reachable OneRunAt s ∧ Destroyed s ∧ s.threads.map (·.kind) = [.maker, .user, .scheduler, .user, .worker, .destroyer] ∧
    s.crashed = false :=
  ⟨(run called life).getD {}, race_run called_reachable life (fun ev hev s => (one_noRunAt (by decide) ev hev s).1) rfl,
    by unfold Destroyed; decide, by decide, by decide⟩

/-- Without `run_at`: a worker waits for the mutex while another thread, in `tasks_size`, is about to read `m_waitingTasks`. -/
example : ∃ s t u, Reachable NoRunAt s ∧ s.threads[3]? = some t ∧ s.threads[2]? = some u ∧
    accesses t = [(.waiting, false)] ∧ u.kind = .worker ∧ u.todo.head? = some (.act .lock) :=
  ⟨_, _, _, race_run (s' := (run {} (goes 0 9 ++ [.user, .go 1 false (some .setTarget)] ++ goes 1 6 ++ [.go 1 true none] ++ goes 1 14 ++
      [.user, .go 3 false (some (.get .tasksSize))] ++ goes 3 3 ++ goes 2 1)).getD {}) .init
      (goes 0 9 ++ [.user, .go 1 false (some .setTarget)] ++ goes 1 6 ++ [.go 1 true none] ++ goes 1 14 ++
      [.user, .go 3 false (some (.get .tasksSize))] ++ goes 3 3 ++ goes 2 1)
    (fun ev hev s => (one_noRunAt (by decide) ev hev s).2) rfl, rfl, rfl, by decide, rfl, by decide⟩

/-- C117 fails if two calls of `run_at` overlap: both create a scheduler. The second one is assigned first; the first one detaches it,
and is then assigned and joined. The second one is left when the pool is destroyed. -/
theorem C117_fails : ∃ s, Reachable (fun _ _ => True) s ∧ s.crashed = false ∧ Destroyed s ∧ ∃ t ∈ s.threads, t.kind = .scheduler ∧ t.todo ≠ [] := by
  refine ⟨(run called (goes 1 9 ++ [.user, .go 3 false (some .runAt)] ++ goes 3 12 ++ goes 2 12 ++ goes 1 3 ++ [.destroy] ++ goes 5 18)).getD {},
    race_run (reachable_mono (fun _ _ _ => trivial) called_reachable)
      (goes 1 9 ++ [.user, .go 3 false (some .runAt)] ++ goes 3 12 ++ goes 2 12 ++ goes 1 3 ++ [.destroy] ++ goes 5 18)
      (fun _ _ _ => trivial) rfl, by decide, ?_, ?_⟩
  · unfold Destroyed; decide
  · decide

end Pluto.Props
