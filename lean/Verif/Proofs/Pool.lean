import Verif.Proofs.PoolStep
import Mathlib.Tactic.ByContra

/-! # Lemmas about the thread pool: workers, waiting callers and wake-ups -/

namespace Pluto.Pool

/-! ## Counting workers -/

def isReady : Phase → Bool
  | .ready => true
  | _ => false

def isBlocked : Phase → Bool
  | .blocked => true
  | _ => false

def isActive : Phase → Bool
  | .running _ => true
  | .finished _ => true
  | _ => false

def isExited : Phase → Bool
  | .exited => true
  | _ => false

@[simp] theorem isReady_ready : isReady .ready = true := rfl
@[simp] theorem isReady_blocked : isReady .blocked = false := rfl
@[simp] theorem isReady_running (t : Nat) : isReady (.running t) = false := rfl
@[simp] theorem isReady_finished (t : Nat) : isReady (.finished t) = false := rfl
@[simp] theorem isReady_exited : isReady .exited = false := rfl
@[simp] theorem isBlocked_ready : isBlocked .ready = false := rfl
@[simp] theorem isBlocked_blocked : isBlocked .blocked = true := rfl
@[simp] theorem isBlocked_running (t : Nat) : isBlocked (.running t) = false := rfl
@[simp] theorem isBlocked_finished (t : Nat) : isBlocked (.finished t) = false := rfl
@[simp] theorem isBlocked_exited : isBlocked .exited = false := rfl
@[simp] theorem isActive_ready : isActive .ready = false := rfl
@[simp] theorem isActive_blocked : isActive .blocked = false := rfl
@[simp] theorem isActive_running (t : Nat) : isActive (.running t) = true := rfl
@[simp] theorem isActive_finished (t : Nat) : isActive (.finished t) = true := rfl
@[simp] theorem isActive_exited : isActive .exited = false := rfl
@[simp] theorem isExited_ready : isExited .ready = false := rfl
@[simp] theorem isExited_blocked : isExited .blocked = false := rfl
@[simp] theorem isExited_running (t : Nat) : isExited (.running t) = false := rfl
@[simp] theorem isExited_finished (t : Nat) : isExited (.finished t) = false := rfl
@[simp] theorem isExited_exited : isExited .exited = true := rfl

/-- Number of workers with `p`. -/
def cnt (p : Phase → Bool) (ws : List Phase) : Nat := ws.countP p

theorem cnt_set {p : Phase → Bool} {ws : List Phase} {i : Nat} {x : Phase} (y : Phase)
    (h : ws[i]? = some x) : cnt p (ws.set i y) + (p x).toNat = cnt p ws + (p y).toNat := by
  unfold cnt
  induction ws generalizing i with
  | nil => simp at h
  | cons w ws ih =>
    cases i with
    | zero =>
      simp only [List.getElem?_cons_zero, Option.some.injEq] at h
      subst h
      simp only [List.set_cons_zero, List.countP_cons]
      cases p w <;> cases p y <;> simp
    | succ i =>
      simp only [List.getElem?_cons_succ] at h
      have := ih h
      simp only [List.set_cons_succ, List.countP_cons]
      omega

theorem cnt_erase {p : Phase → Bool} {ws : List Phase} {i : Nat} {x : Phase}
    (h : ws[i]? = some x) : cnt p (ws.eraseIdx i) + (p x).toNat = cnt p ws := by
  unfold cnt
  induction ws generalizing i with
  | nil => simp at h
  | cons w ws ih =>
    cases i with
    | zero =>
      simp only [List.getElem?_cons_zero, Option.some.injEq] at h
      subst h
      simp only [List.eraseIdx_cons_zero, List.countP_cons]
      cases p w <;> simp
    | succ i =>
      simp only [List.getElem?_cons_succ] at h
      have := ih h
      simp only [List.eraseIdx_cons_succ, List.countP_cons]
      omega

theorem cnt_pos {p : Phase → Bool} {ws : List Phase} {i : Nat} {x : Phase}
    (h : ws[i]? = some x) (hx : p x = true) : 0 < cnt p ws :=
  List.countP_pos_iff.2 ⟨x, List.mem_of_getElem? h, hx⟩

theorem cnt_total (ws : List Phase) :
    ws.length = cnt isReady ws + cnt isBlocked ws + cnt isActive ws + cnt isExited ws := by
  unfold cnt
  induction ws with
  | nil => rfl
  | cons w ws ih =>
    simp only [List.length_cons, List.countP_cons, ih]
    cases w <;> simp [isReady, isBlocked, isActive, isExited] <;> omega

theorem cnt_wake (ws : List Phase) :
    cnt isReady (ws.map wakeWorker) = cnt isReady ws + cnt isBlocked ws ∧
      cnt isBlocked (ws.map wakeWorker) = 0 ∧
      cnt isActive (ws.map wakeWorker) = cnt isActive ws ∧
      cnt isExited (ws.map wakeWorker) = cnt isExited ws := by
  unfold cnt
  induction ws with
  | nil => simp
  | cons w ws ih =>
    obtain ⟨h1, h2, h3, h4⟩ := ih
    simp only [List.map_cons, List.countP_cons, h1, h2, h3, h4]
    cases w <;> simp [wakeWorker, isReady, isBlocked, isActive, isExited] <;> omega

theorem cnt_append (p : Phase → Bool) (ws : List Phase) (n : Nat) :
    cnt p (ws ++ List.replicate n .ready) = cnt p ws + if p .ready then n else 0 := by
  unfold cnt
  rw [List.countP_append, List.countP_replicate]

theorem cnt_blocked_zero {ws : List Phase} (h : Phase.blocked ∉ ws) : cnt isBlocked ws = 0 := by
  unfold cnt
  rw [List.countP_eq_zero]
  intro a ha hb
  cases a <;> simp [isBlocked] at hb
  exact h ha

theorem wakeOne_spec {woken : Option Nat} {ws ws' : List Phase} (h : wakeOne woken ws = some ws') :
    (ws' = ws ∧ cnt isBlocked ws = 0) ∨
      ∃ i, ws[i]? = some .blocked ∧ ws' = ws.set i .ready := by
  unfold wakeOne at h
  split at h
  · split at h
    · rename_i i hi
      cases h; exact .inr ⟨i, hi, rfl⟩
    · cases h
  · split at h
    · cases h
    · rename_i hb
      cases h; exact .inl ⟨rfl, cnt_blocked_zero hb⟩

/-- How waking one worker changes the counts. -/
theorem wakeOne_cnt {woken : Option Nat} {ws ws' : List Phase} (h : wakeOne woken ws = some ws') :
    ws'.length = ws.length ∧ cnt isActive ws' = cnt isActive ws ∧
      cnt isExited ws' = cnt isExited ws ∧
      ((cnt isBlocked ws = 0 ∧ cnt isBlocked ws' = 0 ∧ cnt isReady ws' = cnt isReady ws) ∨
        (cnt isBlocked ws' + 1 = cnt isBlocked ws ∧ cnt isReady ws' = cnt isReady ws + 1)) := by
  rcases wakeOne_spec h with ⟨rfl, h0⟩ | ⟨i, hi, rfl⟩
  · exact ⟨rfl, rfl, rfl, .inl ⟨h0, h0, rfl⟩⟩
  · have a := cnt_set (p := isActive) .ready hi
    have b := cnt_set (p := isBlocked) .ready hi
    have c := cnt_set (p := isReady) .ready hi
    have d := cnt_set (p := isExited) .ready hi
    simp at a b c d
    refine ⟨by simp, a, d, .inr ⟨b, c⟩⟩

theorem length_insertEntry (e : Entry) (q : List Entry) :
    (insertEntry e q).length = q.length + 1 := by
  induction q with
  | nil => rfl
  | cons x q ih => unfold insertEntry; split <;> simp [ih]

theorem insertEntry_ne_nil (e : Entry) (q : List Entry) : insertEntry e q ≠ [] := by
  intro h
  have := length_insertEntry e q
  rw [h] at this; simp at this

theorem blocked_not_mem_wakeAll (ws : List Wait) : Wait.blocked ∉ wakeAll ws := by
  unfold wakeAll; simp

/-! ## The invariant -/

/-- Counters, sizes and wake-ups. -/
structure Live (s : State) : Prop where
  active : s.active = cnt isActive s.workers
  stage : s.stopping = true ↔ s.stage ≠ .alive
  noExit : s.stopping = false → cnt isExited s.workers = 0
  low : s.target ≤ s.workers.length
  high : s.workers.length ≤ s.maxTarget
  targetMax : s.target ≤ s.maxTarget
  shrink : s.stopping = false → s.target < s.workers.length →
    0 < s.pendingAll ∨ cnt isBlocked s.workers = 0
  wake : s.stopping = false → cnt isBlocked s.workers = 0 ∨ 0 < s.pendingAll ∨
    s.queue.length ≤ s.pendingOne + cnt isReady s.workers
  waitNone : .blocked ∈ s.waitNone → s.queue ≠ []
  waitAll : .blocked ∈ s.waitAll → s.stopping = false → 0 < s.target →
    s.queue ≠ [] ∨ s.active ≠ 0 ∨ 0 < cnt isReady s.workers ∨ 0 < s.pendingAll
  awake : s.stage ≠ .alive → s.stage ≠ .flagged → cnt isBlocked s.workers = 0

theorem live_init (n : Nat) : Live (init n) := by
  have hr : ∀ p : Phase → Bool, cnt p (init n).workers = if p .ready then n else 0 := by
    intro p; simp [init, cnt, List.countP_replicate]
  constructor <;> (try simp [hr]) <;> (try simp [init])

theorem live_pass {s : State} (h : Live s) (i : Nat) (x : Phase) (hx : s.workers[i]? = some x)
    (hx' : x = .ready ∨ ∃ t, x = .finished t) (a : Int) (ha : a = s.active - (isActive x).toNat) :
    Live (workerPass { s with active := a } i) := by
  have tot := cnt_total s.workers
  have cA0 := cnt_erase (p := isActive) hx
  have hact := h.active
  have bx : isBlocked x = false := by rcases hx' with rfl | ⟨t, rfl⟩ <;> rfl
  have ex : isExited x = false := by rcases hx' with rfl | ⟨t, rfl⟩ <;> rfl
  have rax : (isReady x).toNat + (isActive x).toNat = 1 := by
    rcases hx' with rfl | ⟨t, rfl⟩ <;> rfl
  have hlow := h.low
  have hshr := h.shrink
  have hwk := h.wake
  have hne := h.noExit
  unfold workerPass
  simp only
  split
  · rename_i hc
    split
    · -- sleep
      rename_i hq
      have cA := cnt_set (p := isActive) .blocked hx
      have cB := cnt_set (p := isBlocked) .blocked hx
      have cR := cnt_set (p := isReady) .blocked hx
      have cE := cnt_set (p := isExited) .blocked hx
      rw [bx] at cB
      rw [ex] at cE
      simp at cA cB cR cE
      have hns : s.stopping = false := by
        rcases hc.2 with h | h
        · exact h
        · exact absurd hq h.2
      refine ⟨?_, h.stage, ?_, ?_, ?_, h.targetMax, ?_, ?_, ?_, ?_, ?_⟩
      · simp only; omega
      · simp only; intro _; have := hne hns; omega
      · simpa using h.low
      · simpa using h.high
      · simp only [List.length_set]; intro _ hlt; omega
      · simp only [hq]; intro _; right; right; simp
      · exact h.waitNone
      · simp only
        intro hb _ htp
        split at hb
        · exact absurd hb (blocked_not_mem_wakeAll _)
        · rename_i hne; exact .inr (.inl hne)
      · simp only
        intro h1
        exact absurd hns (by have := (h.stage).2 h1; simp [this])
    · -- start a task
      rename_i e rest hq
      have cA := cnt_set (p := isActive) (.running e.task) hx
      have cB := cnt_set (p := isBlocked) (.running e.task) hx
      have cR := cnt_set (p := isReady) (.running e.task) hx
      have cE := cnt_set (p := isExited) (.running e.task) hx
      rw [bx] at cB
      rw [ex] at cE
      simp at cA cB cR cE
      have hql : s.queue.length = rest.length + 1 := by rw [hq]; rfl
      refine ⟨?_, h.stage, ?_, ?_, ?_, h.targetMax, ?_, ?_, ?_, ?_, ?_⟩
      · simp only; omega
      · simp only; intro hs; have := hne hs; omega
      · simpa using h.low
      · simpa using h.high
      · simp only [List.length_set]; intro hs hlt; have := hshr hs hlt; omega
      · simp only; intro hs; have := hwk hs; omega
      · simp only
        intro hb
        split at hb
        · exact absurd hb (blocked_not_mem_wakeAll _)
        · assumption
      · simp only
        intro _ _ _
        right; left; omega
      · simp only; intro h1 h2; have := h.awake h1 h2; omega
  · rename_i hc
    split
    · -- leave the table
      rename_i hns
      have cA := cnt_erase (p := isActive) hx
      have cB := cnt_erase (p := isBlocked) hx
      have cR := cnt_erase (p := isReady) hx
      have cE := cnt_erase (p := isExited) hx
      rw [bx] at cB
      rw [ex] at cE
      simp only [Bool.toNat_false, Nat.add_zero] at cB cE
      have tot' := cnt_total (s.workers.eraseIdx i)
      have hgt : s.target < s.workers.length := by
        by_contra hle
        exact hc ⟨by omega, .inl hns⟩
      have hE := hne hns
      have hS := hshr hns hgt
      refine ⟨?_, h.stage, ?_, ?_, ?_, h.targetMax, ?_, ?_, h.waitNone, ?_, ?_⟩
      · simp only; omega
      · simp only; intro _; omega
      · simp only; omega
      · simp only; have := h.high; omega
      · simp only; intro _ _; omega
      · simp only; intro _; omega
      · simp only
        intro hb _ htp
        by_cases hq : s.queue = []
        · right
          by_cases ha0 : a = 0
          · right; omega
          · left; exact ha0
        · exact .inl hq
      · simp only
        intro h1
        exact absurd hns (by have := (h.stage).2 h1; simp [this])
    · -- end while the pool is stopping
      rename_i hns
      simp only [Bool.not_eq_false] at hns
      have cA := cnt_set (p := isActive) .exited hx
      have cB := cnt_set (p := isBlocked) .exited hx
      have cR := cnt_set (p := isReady) .exited hx
      rw [bx] at cB
      simp at cA cB cR
      refine ⟨?_, h.stage, ?_, ?_, ?_, h.targetMax, ?_, ?_, h.waitNone, ?_, ?_⟩
      · simp only; omega
      · simp [hns]
      · simpa using h.low
      · simpa using h.high
      · simp [hns]
      · simp [hns]
      · simp [hns]
      · simp only; intro h1 h2; have := h.awake h1 h2; omega

theorem Live.same {s s' : State} (h : Live s) (h1 : s'.active = s.active) (h2 : s'.workers = s.workers)
    (h3 : s'.stopping = s.stopping) (h4 : s'.stage = s.stage) (h5 : s'.target = s.target)
    (h6 : s'.maxTarget = s.maxTarget) (h7 : s'.pendingAll = s.pendingAll)
    (h8 : s'.pendingOne = s.pendingOne) (h9 : s'.queue = s.queue) (h10 : s'.waitNone = s.waitNone)
    (h11 : s'.waitAll = s.waitAll) : Live s' := by
  obtain ⟨a1, a2, a3, a4, a5, a6, a7, a8, a9, a10, a11⟩ := h
  constructor <;> simp only [h1, h2, h3, h4, h5, h6, h7, h8, h9, h10, h11] <;> assumption

theorem live_schedulerPass {s : State} (h : Live s) (i : Nat) : Live (schedulerPass s i) := by
  unfold schedulerPass
  split
  · exact h.same rfl rfl rfl rfl rfl rfl rfl rfl rfl rfl rfl
  · exact h.same rfl rfl rfl rfl rfl rfl rfl rfl rfl rfl rfl
  · split <;> exact h.same rfl rfl rfl rfl rfl rfl rfl rfl rfl rfl rfl

theorem live_runAt {s : State} (h : Live s) (time prio : Int) : Live (runAt s time prio) := by
  unfold runAt
  simp only
  split
  · exact h.same rfl rfl rfl rfl rfl rfl rfl rfl rfl rfl rfl
  · split <;> exact h.same rfl rfl rfl rfl rfl rfl rfl rfl rfl rfl rfl

/-- A task is put into the queue and, now or later, a worker is notified. -/
theorem live_enqueue {s : State} (h : Live s) (e : Entry) (ws : List Phase) (n1 : Nat)
    (hw : (ws = s.workers ∧ n1 = s.pendingOne + 1) ∨
      (n1 = s.pendingOne ∧ ∃ woken, wakeOne woken s.workers = some ws))
    {s' : State} (h1 : s'.active = s.active) (h2 : s'.workers = ws)
    (h3 : s'.stopping = s.stopping) (h4 : s'.stage = s.stage) (h5 : s'.target = s.target)
    (h6 : s'.maxTarget = s.maxTarget) (h7 : s'.pendingAll = s.pendingAll)
    (h8 : s'.pendingOne = n1) (h9 : s'.queue = insertEntry e s.queue)
    (h10 : s'.waitNone = s.waitNone) (h11 : s'.waitAll = s.waitAll) : Live s' := by
  have hq := length_insertEntry e s.queue
  have hne := insertEntry_ne_nil e s.queue
  have c : ws.length = s.workers.length ∧ cnt isActive ws = cnt isActive s.workers ∧
      cnt isExited ws = cnt isExited s.workers ∧ cnt isBlocked ws ≤ cnt isBlocked s.workers ∧
      (cnt isBlocked ws = 0 ∨ n1 + cnt isReady ws = s.pendingOne + cnt isReady s.workers + 1) := by
    rcases hw with ⟨rfl, rfl⟩ | ⟨rfl, woken, hw⟩
    · exact ⟨rfl, rfl, rfl, by omega, by omega⟩
    · have := wakeOne_cnt hw
      omega
  obtain ⟨c1, c2, c3, c4, c5⟩ := c
  obtain ⟨a1, a2, a3, a4, a5, a6, a7, a8, a9, a10, a11⟩ := h
  constructor <;> simp only [h1, h2, h3, h4, h5, h6, h7, h8, h9, h10, h11]
  · omega
  · exact a2
  · intro hs; have := a3 hs; omega
  · omega
  · omega
  · exact a6
  · intro hs hlt; have := a7 hs (by omega); omega
  · intro hs; have := a8 hs; omega
  · intro _; exact hne
  · intro _ _ _; exact .inl hne
  · intro x y; have := a11 x y; omega

theorem blocked_mem_set {ws : List Wait} {i : Nat} (h : Wait.blocked ∈ ws.set i .checking) :
    Wait.blocked ∈ ws := by
  rcases List.mem_or_eq_of_mem_set h with h | h
  · exact h
  · cases h

theorem live_step {s s' : State} (h : Live s) (ev : Event) (hs : step s ev = some s') : Live s' := by
  obtain ⟨-, hs⟩ := step_cases hs
  have tot := cnt_total s.workers
  cases hs with
  | runAsync prio caller hc =>
    exact live_enqueue h _ _ _ (.inl ⟨rfl, rfl⟩) rfl rfl rfl rfl rfl rfl rfl rfl rfl rfl rfl
  | runSync prio caller hc =>
    exact live_enqueue h _ _ _ (.inl ⟨rfl, rfl⟩) rfl rfl rfl rfl rfl rfl rfl rfl rfl rfl rfl
  | syncReturns t _ _ => exact h.same rfl rfl rfl rfl rfl rfl rfl rfl rfl rfl rfl
  | runAt time prio caller hc => exact live_runAt h time prio
  | runAfter d prio caller hc => exact live_runAt h _ prio
  | createScheduler _ => exact h.same rfl rfl rfl rfl rfl rfl rfl rfl rfl rfl rfl
  | assignTwice i j _ _ => exact h.same rfl rfl rfl rfl rfl rfl rfl rfl rfl rfl rfl
  | assignScheduler i _ _ => exact h.same rfl rfl rfl rfl rfl rfl rfl rfl rfl rfl rfl
  | grow n caller hc hns hn =>
    have tA := cnt_append isActive s.workers (n - s.workers.length)
    have tB := cnt_append isBlocked s.workers (n - s.workers.length)
    have tR := cnt_append isReady s.workers (n - s.workers.length)
    have tE := cnt_append isExited s.workers (n - s.workers.length)
    simp at tA tB tR tE
    obtain ⟨a1, a2, a3, a4, a5, a6, a7, a8, a9, a10, a11⟩ := h
    have b3 := a3 hns
    have b4 := a4
    have b8 := a8 hns
    constructor <;> simp only [tA, tB, tR, tE, List.length_append, List.length_replicate]
    · exact a1
    · exact a2
    · exact a3
    · omega
    · omega
    · omega
    · omega
    · intro _; omega
    · exact a9
    · intro hb _ hpos
      by_cases hq : s.queue = []
      · right
        by_cases hlt : s.target < s.workers.length
        · have := a7 hns hlt; omega
        · by_cases hn' : n = s.workers.length
          · have := a10 hb hns (by omega)
            rcases this with this | this
            · exact absurd hq this
            · omega
          · omega
      · exact .inl hq
    · intro x y; exact a11 x y
  | shrink n caller hc hns hn =>
    obtain ⟨a1, a2, a3, a4, a5, a6, a7, a8, a9, a10, a11⟩ := h
    constructor <;> simp only
    · exact a1
    · exact a2
    · exact a3
    · omega
    · omega
    · omega
    · omega
    · intro _; omega
    · exact a9
    · intro _ _ _; right; right; right; omega
    · exact a11
  | setTargetLate n caller hc hst => exact h
  | setOnStop a caller hc => exact h.same rfl rfl rfl rfl rfl rfl rfl rfl rfl rfl rfl
  | notifyOne woken ws hp hw =>
    have c := wakeOne_cnt hw
    obtain ⟨a1, a2, a3, a4, a5, a6, a7, a8, a9, a10, a11⟩ := h
    constructor <;> simp only
    · omega
    · exact a2
    · intro hs; have := a3 hs; omega
    · omega
    · omega
    · exact a6
    · intro hs hlt; have := a7 hs (by omega); omega
    · intro hs; have := a8 hs; omega
    · exact a9
    · intro hb hs hpos
      rcases a10 hb hs hpos with hq | hq
      · exact .inl hq
      · right; have tot' := cnt_total ws; omega
    · intro x y; have := a11 x y; omega
  | notifyAll hp =>
    have c := cnt_wake s.workers
    obtain ⟨a1, a2, a3, a4, a5, a6, a7, a8, a9, a10, a11⟩ := h
    constructor <;> simp only [List.length_map]
    · omega
    · exact a2
    · intro hs; have := a3 hs; omega
    · exact a4
    · exact a5
    · exact a6
    · intro _ _; right; exact c.2.1
    · intro _; left; exact c.2.1
    · exact a9
    · intro hb hs hpos
      have b3 := a3 hs
      have b4 := a4
      rcases a10 hb hs hpos with hq | hq
      · exact .inl hq
      · have tot' := cnt_total (s.workers.map wakeWorker)
        simp only [List.length_map] at tot'
        right
        omega
    · intro _ _; exact c.2.1
  | notifyScheduler i e n _ _ => exact h.same rfl rfl rfl rfl rfl rfl rfl rfl rfl rfl rfl
  | notifyNoScheduler _ _ => exact h.same rfl rfl rfl rfl rfl rfl rfl rfl rfl rfl rfl
  | spuriousWorker i hi =>
    have cA := cnt_set (p := isActive) .ready hi
    have cB := cnt_set (p := isBlocked) .ready hi
    have cR := cnt_set (p := isReady) .ready hi
    have cE := cnt_set (p := isExited) .ready hi
    simp at cA cB cR cE
    obtain ⟨a1, a2, a3, a4, a5, a6, a7, a8, a9, a10, a11⟩ := h
    constructor <;> simp only [List.length_set]
    · omega
    · exact a2
    · intro hs; have := a3 hs; omega
    · exact a4
    · exact a5
    · exact a6
    · intro hs hlt; have := a7 hs hlt; omega
    · intro hs; have := a8 hs; omega
    · exact a9
    · intro hb hs hpos; omega
    · intro x y; have := a11 x y; omega
  | spuriousScheduler i e n _ => exact h.same rfl rfl rfl rfl rfl rfl rfl rfl rfl rfl rfl
  | spuriousNone i hi =>
    obtain ⟨a1, a2, a3, a4, a5, a6, a7, a8, a9, a10, a11⟩ := h
    exact ⟨a1, a2, a3, a4, a5, a6, a7, a8, fun hb => a9 (blocked_mem_set hb), a10, a11⟩
  | spuriousAll i hi =>
    obtain ⟨a1, a2, a3, a4, a5, a6, a7, a8, a9, a10, a11⟩ := h
    exact ⟨a1, a2, a3, a4, a5, a6, a7, a8, a9, fun hb => a10 (blocked_mem_set hb), a11⟩
  | clock t => exact h.same rfl rfl rfl rfl rfl rfl rfl rfl rfl rfl rfl
  | workerReady i hi =>
    exact live_pass h i _ hi (.inl rfl) s.active (by simp)
  | workerFinished i t hi =>
    exact live_pass h i _ hi (.inr ⟨t, rfl⟩) (s.active - 1) (by simp)
  | taskReturns i t hi =>
    have cA := cnt_set (p := isActive) (.finished t) hi
    have cB := cnt_set (p := isBlocked) (.finished t) hi
    have cR := cnt_set (p := isReady) (.finished t) hi
    have cE := cnt_set (p := isExited) (.finished t) hi
    simp at cA cB cR cE
    obtain ⟨a1, a2, a3, a4, a5, a6, a7, a8, a9, a10, a11⟩ := h
    constructor <;> simp only [List.length_set, cA, cB, cR, cE] <;> assumption
  | taskThrows i t hi => exact h.same rfl rfl rfl rfl rfl rfl rfl rfl rfl rfl rfl
  | schedulerTimeout i e n _ _ => exact h.same rfl rfl rfl rfl rfl rfl rfl rfl rfl rfl rfl
  | schedulerReady i hi => exact live_schedulerPass h i
  | schedulerDangling i woken e n _ _ => exact h.same rfl rfl rfl rfl rfl rfl rfl rfl rfl rfl rfl
  | schedulerMoves i woken e n ws hi he hw =>
    refine live_schedulerPass ?_ i
    exact live_enqueue h _ ws _ (.inr ⟨rfl, woken, hw⟩) rfl rfl rfl rfl rfl rfl rfl rfl rfl rfl rfl
  | callWaitNone caller hc =>
    obtain ⟨a1, a2, a3, a4, a5, a6, a7, a8, a9, a10, a11⟩ := h
    exact ⟨a1, a2, a3, a4, a5, a6, a7, a8, fun hb => a9 (by simpa using hb), a10, a11⟩
  | callWaitAll caller hc =>
    obtain ⟨a1, a2, a3, a4, a5, a6, a7, a8, a9, a10, a11⟩ := h
    exact ⟨a1, a2, a3, a4, a5, a6, a7, a8, a9, fun hb => a10 (by simpa using hb), a11⟩
  | waitNoneBlocks i hi hq =>
    obtain ⟨a1, a2, a3, a4, a5, a6, a7, a8, a9, a10, a11⟩ := h
    exact ⟨a1, a2, a3, a4, a5, a6, a7, a8, fun _ => hq, a10, a11⟩
  | waitNoneReturns i hi hq =>
    obtain ⟨a1, a2, a3, a4, a5, a6, a7, a8, a9, a10, a11⟩ := h
    exact ⟨a1, a2, a3, a4, a5, a6, a7, a8, fun hb => a9 (List.mem_of_mem_eraseIdx hb), a10, a11⟩
  | waitAllBlocks i hi hq =>
    obtain ⟨a1, a2, a3, a4, a5, a6, a7, a8, a9, a10, a11⟩ := h
    refine ⟨a1, a2, a3, a4, a5, a6, a7, a8, a9, fun _ _ _ => ?_, a11⟩
    rcases hq with hq | hq
    · exact .inl hq
    · exact .inr (.inl hq)
  | waitAllReturns i hi hq =>
    obtain ⟨a1, a2, a3, a4, a5, a6, a7, a8, a9, a10, a11⟩ := h
    exact ⟨a1, a2, a3, a4, a5, a6, a7, a8, a9, fun hb => a10 (List.mem_of_mem_eraseIdx hb), a11⟩
  | stop hst =>
    obtain ⟨a1, a2, a3, a4, a5, a6, a7, a8, a9, a10, a11⟩ := h
    constructor <;> simp <;> assumption
  | stopNotifyWorkers hst =>
    have c := cnt_wake s.workers
    obtain ⟨a1, a2, a3, a4, a5, a6, a7, a8, a9, a10, a11⟩ := h
    have hstop : s.stopping = true := a2.2 (by rw [hst]; decide)
    constructor <;> simp [hstop]
    · omega
    · exact a4
    · exact a5
    · exact a6
    · exact a9
    · exact c.2.1
  | stopNotifyScheduler hst =>
    obtain ⟨a1, a2, a3, a4, a5, a6, a7, a8, a9, a10, a11⟩ := h
    have hstop : s.stopping = true := a2.2 (by rw [hst]; decide)
    refine ⟨a1, by simp [hstop], a3, a4, a5, a6, a7, a8, a9, a10, fun _ _ => ?_⟩
    exact a11 (by rw [hst]; decide) (by rw [hst]; decide)
  | stopReturns hst hw hsch =>
    obtain ⟨a1, a2, a3, a4, a5, a6, a7, a8, a9, a10, a11⟩ := h
    have hstop : s.stopping = true := a2.2 (by rw [hst]; decide)
    refine ⟨a1, by simp [hstop], a3, a4, a5, a6, a7, a8, a9, a10, fun _ _ => ?_⟩
    exact a11 (by rw [hst]; decide) (by rw [hst]; decide)

theorem live {n : Nat} {s : State} (h : Reachable n s) : Live s := by
  induction h with
  | init => exact live_init n
  | step ev _ hs ih => exact live_step ih ev hs

end Pluto.Pool
