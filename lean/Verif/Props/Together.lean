import Verif.Proofs.Together

/-!
# C169: pools, caches and loggers that use each other
-/

namespace Pluto.Props
open Pluto.Together

/-- C169: if there is an order of the objects such that a function that is called while a mutex is owned uses only later
objects, then at any time all threads have finished or one can go on, no thread locks a mutex it owns, and all have finished
after a number of steps that does not depend on their order.  Missing from the full property: uses in a circle, see
`C169_fails`. -/
theorem C169_ordered_partial (rank : Mutex → Nat) (cs : List Code) (h : ∀ c ∈ cs, Ordered rank 0 c) (is : List Nat) :
    run (start cs) is ≠ .undefined ∧
      ∀ s, run (start cs) is = .state s → ¬ Deadlocked s ∧ is.length ≤ left (start cs) ∧
        (is.length = left (start cs) ↔ Finished s) := by
  obtain ⟨h1, h2⟩ := run_inv (is := is) (inv_start h)
  refine ⟨h1, fun s hs => ?_⟩
  obtain ⟨h3, h4⟩ := h2 s hs
  refine ⟨fun hd => ?_, by omega, ?_⟩
  · obtain ⟨i, s', hst⟩ := progress h3 hd.1
    rw [hd.2 i] at hst; cases hst
  · rw [← left_zero h3]; omega

/-- C169: such threads can always be continued until all have finished. -/
theorem C169_returns_partial (rank : Mutex → Nat) (cs : List Code) (h : ∀ c ∈ cs, Ordered rank 0 c) (is : List Nat)
    (s : List Thread) (hr : run (start cs) is = .state s) : ∃ js s', run s js = .state s' ∧ Finished s' := by
  have hinv := ((run_inv (is := is) (inv_start h)).2 s hr).1
  generalize hn : left s = n
  induction n generalizing s is with
  | zero => exact ⟨[], s, rfl, (left_zero hinv).1 hn⟩
  | succ n ih =>
    have hnf : ¬ Finished s := fun hf => by rw [(left_zero hinv).2 hf] at hn; cases hn
    obtain ⟨i, t, ht⟩ := progress hinv hnf
    have hst := (step_inv (i := i) hinv).2 t ht
    have hrun : run (start cs) (is ++ [i]) = .state t := by
      have happ : ∀ (is : List Nat) (a : List Thread), run a is = .state s → run a (is ++ [i]) = .state t := by
        intro is
        induction is with
        | nil => intro a ha; simp only [run] at ha; cases ha; simp [run, ht]
        | cons j is ihj =>
          intro a ha
          rw [run] at ha
          rw [List.cons_append, run]
          cases hj : step a j with
          | blocked => simp [hj] at ha
          | undefined => simp [hj] at ha
          | state b => simp only [hj] at ha; exact ihj b ha
      exact happ is _ hr
    obtain ⟨js, s', h5, h6⟩ := ih (is ++ [i]) t hrun hst.1 (by omega)
    exact ⟨i :: js, s', by rw [run, ht]; exact h5, h6⟩

/-- C169: there is such an order exactly if no circle of objects locks each other's mutexes while their own is owned. -/
theorem C169_order (cs : List Code) :
    (∃ rank, ∀ c ∈ cs, Ordered rank 0 c) ↔ ∀ m, ¬ Relation.TransGen (Before cs) m m := by
  constructor
  · rintro ⟨rank, h⟩ m hm
    have hlt : ∀ a b, Relation.TransGen (Before cs) a b → rank a < rank b := by
      intro a b hab
      induction hab with
      | single h1 => obtain ⟨c, hc, hn⟩ := h1; exact (nested_ordered (h c hc)).1 _ hn
      | tail _ h1 ih =>
        obtain ⟨c, hc, hn⟩ := h1
        have := (nested_ordered (h c hc)).1 _ hn
        simp only at this; omega
    exact absurd (hlt m m hm) (Nat.lt_irrefl _)
  · intro h
    obtain ⟨rank, hr⟩ := exists_rank cs h
    exact ⟨rank, fun c hc => ordered_nested (fun x hx => hr x.1 x.2 ⟨c, hc, hx⟩) fun _ _ => Nat.zero_le _⟩

/-- Destructors of tasks of pool 0 use cache 0, whose values log when they are destroyed. -/
example : Ordered (fun | .pool _ => 0 | .cache _ => 1 | .config _ => 2 | .logging _ => 3) 0
    (work 0 (cacheRead 0 .done) (cacheWrite 0 (log 0))) := by
  simp [work, cacheRead, cacheWrite, log, Code.andThen, Ordered]

/-- C169: what tasks and writers do while they are called never matters: nothing is owned then.  So with types whose copies,
comparisons and destructors use none of the objects, any uses by tasks and writers are in order, also in circles: a worker
executes tasks that log and use caches and pools, and the logging thread calls writers that do so. -/
theorem C169_plain (n : Nat) (task call d : Code) (h1 : Plain task) (h2 : Plain call) (h3 : Plain d) (rank : Mutex → Nat) :
    Ordered rank 0 (work n task .done) ∧ Ordered rank 0 (flush n (line n .done call .done)) ∧
      Ordered rank 0 ((cacheRead n .done).andThen d) ∧ Ordered rank 0 ((cacheWrite n .done).andThen d) ∧
      Ordered rank 0 ((log n).andThen d) ∧ Ordered rank 0 ((writer n .done).andThen d) ∧
      Ordered rank 0 ((submit n .done).andThen d) ∧ Ordered rank 0 ((poolState n).andThen d) := by
  refine ⟨ordered_plain ?_ rank, ordered_plain ?_ rank, ordered_plain ?_ rank, ordered_plain ?_ rank, ordered_plain ?_ rank,
    ordered_plain ?_ rank, ordered_plain ?_ rank, ordered_plain ?_ rank⟩
  · simp [work, Plain, plain_andThen, h1]
  · simp [flush, line, Plain, plain_andThen, h2]
  · simp [cacheRead, Plain, plain_andThen, h3]
  · simp [cacheWrite, Plain, plain_andThen, h3]
  · simp [Together.log, Plain, plain_andThen, h3]
  · simp [writer, Plain, plain_andThen, h3]
  · simp [submit, Plain, plain_andThen, h3]
  · simp [poolState, Plain, plain_andThen, h3]

/-- A task that logs and gives another task to its pool, and a writer that does the same. -/
example : Plain ((log 0).andThen (submit 0 .done)) := by
  simp [Together.log, submit, Code.andThen, Plain]

/-- C169: a mutex that a thread owns alone is owned by no other thread, whatever the programs are. -/
theorem C169_exclusive (cs : List Code) (is : List Nat) (s : List Thread) (h : run (start cs) is = .state s) (i j : Nat)
    (ti tj : Thread) (m : Mutex) (sh : Bool) (hij : i ≠ j) (hi : s[i]? = some ti) (hj : s[j]? = some tj)
    (hm : (m, false) ∈ ti.held) : (m, sh) ∉ tj.held := by
  have h0 : Excl (start cs) := by
    intro a b ta tb m sh _ ha _ hma
    obtain ⟨c, _, rfl⟩ := List.mem_map.1 (List.mem_of_getElem? ha)
    cases hma
  exact excl_run h0 h i j ti tj m sh hij hi hj hm

/-- C169: all methods own the mutexes of pools and loggers alone; only the observers of a cache share that of the cache. -/
theorem C169_methods (n : Nat) (a b c : Code) (ha : OnlyCachesShared a) (hb : OnlyCachesShared b) (hc : OnlyCachesShared c) :
    OnlyCachesShared (cacheRead n a) ∧ OnlyCachesShared (cacheWrite n a) ∧ OnlyCachesShared (log n) ∧
      OnlyCachesShared (writer n a) ∧ OnlyCachesShared (submit n a) ∧ OnlyCachesShared (poolState n) ∧
      OnlyCachesShared (work n a b) ∧ OnlyCachesShared (line n a b c) ∧ OnlyCachesShared (flush n a) := by
  simp [cacheRead, cacheWrite, Together.log, writer, submit, poolState, work, line, flush, OnlyCachesShared, shared_andThen,
    ha, hb, hc]

/-- C169: so no two threads are inside methods of the same pool or logger that own the same mutex. -/
theorem C169_alone (cs : List Code) (hcs : ∀ c ∈ cs, OnlyCachesShared c) (is : List Nat) (s : List Thread)
    (h : run (start cs) is = .state s) (i j : Nat) (ti tj : Thread) (m : Mutex) (sh sh' : Bool) (hij : i ≠ j)
    (hi : s[i]? = some ti) (hj : s[j]? = some tj) (hmi : (m, sh) ∈ ti.held) (hmj : (m, sh') ∈ tj.held) :
    sh = true ∧ sh' = true ∧ ∃ n, m = .cache n := by
  have h1 : sh = true := by
    cases sh with
    | true => rfl
    | false => exact absurd hmj (C169_exclusive cs is s h i j ti tj m sh' hij hi hj hmi)
  have h2 : sh' = true := by
    cases sh' with
    | true => rfl
    | false => exact absurd hmi (C169_exclusive cs is s h j i tj ti m sh hij.symm hj hi hmj)
  refine ⟨h1, h2, ?_⟩
  have h0 : CacheShared (start cs) := by
    intro t ht
    obtain ⟨c, hc, rfl⟩ := List.mem_map.1 ht
    exact ⟨fun m hm => absurd hm List.not_mem_nil, acts_shared (hcs c hc)⟩
  subst h1
  exact (cacheShared_run h0 h ti (List.mem_of_getElem? hi)).1 m hmi

/-- Two threads share a mutex that a third one waits for. -/
example : ∃ s, run (start [cacheRead 0 .done, cacheRead 0 .done, cacheWrite 0 .done]) [2, 2, 0, 1] = .state s ∧
    s.map (·.held) = [[(.cache 0, true)], [(.cache 0, true)], []] := ⟨_, rfl, rfl⟩

/-- C169, negation of the full property: a worker destroys a task whose destructor uses a cache, while another thread erases a
value whose destructor uses the pool.  Each owns the mutex that the other one waits for. -/
theorem C169_fails : ∃ s, run (start [work 0 .done (cacheRead 0 .done), cacheWrite 0 (submit 0 .done)]) [0, 0, 0, 1] = .state s ∧
    Deadlocked s := by
  refine ⟨_, rfl, ?_, ?_⟩
  · intro h
    exact absurd (h _ List.mem_cons_self).1 (by decide)
  · intro i
    match i with
    | 0 => decide
    | 1 => decide
    | n + 2 => rfl

/-- C169, negation of the full property: two caches with values whose destructors use the other cache. -/
theorem C169_fails_caches : ∃ s, run (start [cacheWrite 0 (cacheWrite 1 .done), cacheWrite 1 (cacheRead 0 .done)]) [0, 1] = .state s ∧
    Deadlocked s := by
  refine ⟨_, rfl, ?_, ?_⟩
  · intro h
    exact absurd (h _ List.mem_cons_self).1 (by decide)
  · intro i
    match i with
    | 0 => decide
    | 1 => decide
    | n + 2 => rfl

end Pluto.Props
