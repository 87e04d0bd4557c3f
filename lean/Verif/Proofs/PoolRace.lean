import Verif.Spec.PoolRace

/-! # Lemmas about the accesses of the thread pool -/

namespace Pluto.PoolRace

/-- What is known at a point of a program. -/
structure Ctx where
  /-- the thread holds the mutex -/
  held : Bool := false
  /-- and `m_isStopping` is false -/
  running : Bool := false
  /-- `m_isStopping` is true -/
  stopped : Bool := false
  /-- the thread has removed itself from the pool -/
  gone : Bool := false
  /-- and has unlocked the mutex -/
  fin : Bool := false
  /-- all workers have ended -/
  alone : Bool := false
  /-- the thread is inside `run_at` -/
  inAt : Bool := false
  /-- and has seen that there is no scheduler -/
  saw : Bool := false
  /-- and has created one -/
  made : Bool := false
  /-- all schedulers have ended -/
  swept : Bool := false
deriving DecidableEq

/-- Whether a member may be read. -/
def readOk (kd : Kind) (c : Ctx) : Loc → Bool
  | .workers => c.held || (kd = .destroyer && c.stopped)
  | .handles => kd = .destroyer && c.stopped
  | .scheduler => false
  | _ => c.held

/-- Whether a member may be written. -/
def writeOk (kd : Kind) (c : Ctx) : Loc → Bool
  | .workers | .scheduler | .stopping => false
  | .handles => (c.held && c.running) || (kd = .destroyer && c.stopped)
  | _ => c.held

/-- Whether an action is allowed, and what is known afterwards. -/
def checkAct (kd : Kind) (c : Ctx) : Act → Option Ctx
  | .lock => if c.gone = false ∧ c.held = false ∧ c.running = false then some { c with held := true } else none
  | .unlock => if c.held = true then some { c with held := false, running := false, fin := c.gone } else none
  | .read l => if c.gone = false ∧ readOk kd c l = true then some c else none
  | .write l => if c.gone = false ∧ writeOk kd c l = true then some c else none
  | .notify => if c.gone = false then some c else none
  | .setStopping =>
    if c.gone = false ∧ c.held = true ∧ kd = .destroyer then some { c with stopped := true, running := false } else none
  | .spawnWorker => if c.gone = false ∧ c.held = true ∧ (c.running = true ∨ kd = .maker) then some c else none
  | .eraseSelf => if c.gone = false ∧ c.held = true ∧ c.running = true ∧ kd = .worker then some { c with gone := true } else none
  | .spawnScheduler =>
    if c.gone = false ∧ c.saw = true ∧ c.made = false ∧ c.held = false then some { c with made := true } else none
  | .assignScheduler =>
    if c.gone = false ∧ c.saw = true ∧ c.made = true ∧ c.held = false then some { c with saw := false, made := false } else none
  | .detachScheduler =>
    if c.gone = false ∧ c.held = true ∧ c.running = true ∧ kd = .scheduler then some { c with gone := true } else none
  | .joinWorkers => if c.gone = false ∧ kd = .destroyer ∧ c.stopped = true then some { c with alone := true } else none
  | .joinScheduler => if c.gone = false ∧ kd = .destroyer ∧ c.alone = true then some { c with swept := true } else none

/-- Whether a program is allowed when `c` is known, and what is known afterwards is allowed by `q`. -/
def check (kd : Kind) : Code → (Ctx → Bool) → Ctx → Bool
  | .skip, q, c => q c
  | .act a, q, c =>
    match checkAct kd c a with
    | some c => q c
    | none => false
  | .seq a b, q, c => check kd a (fun c => !c.fin && check kd b q c) c
  | .choice a b, q, c => check kd a q c && check kd b q c
  | .loop a, q, c => check kd a (fun c' => decide (c' = c)) c && q c
  | .cond .stopping a b, q, c => c.held && !c.gone && check kd a q c && check kd b q { c with running := true }
  | .cond .joinable a b, q, c =>
    !c.gone && check kd a q c &&
      if kd = .destroyer then c.alone && check kd b q { c with swept := true }
      else (kd = .user || kd = .worker) && c.held && c.inAt && !c.saw && !c.made && check kd b q { c with saw := true }
  | .call, q, c => (kd = .user || kd = .worker) && decide (c = {}) && q c
  | .ret, q, c => !c.saw && !c.made && !c.gone && q { c with inAt := false }

/-- What is known at the end. -/
def final (kd : Kind) (c : Ctx) : Bool :=
  !c.held && !c.saw && !c.made && (kd ≠ .destroyer || (c.stopped && c.alone && c.swept))

/-- Likewise, for all that is left to do. -/
def Ok (kd : Kind) : List Code → Ctx → Bool
  | [], c => final kd c
  | x :: k, c => !c.fin && check kd x (Ok kd k) c

theorem ok_constructor : Ok .maker [constructor] {} = true := by decide
theorem ok_working : Ok .worker [working] {} = true := by decide
theorem ok_scheduling : Ok .scheduler [scheduling] {} = true := by decide
theorem ok_destructor : Ok .destroyer [destructor] {} = true := by decide
theorem ok_user : Ok .user [.call] {} = true := by decide

theorem check_code {kd : Kind} (h : kd = .user ∨ kd = .worker) (f : Fn) :
    check kd (code f) (fun c => decide (c = { inAt := f = .runAt })) { inAt := f = .runAt } = true := by
  rcases h with rfl | rfl <;> cases f with
  | get g => cases g <;> decide
  | _ => decide

theorem check_mono {kd : Kind} {a : Code} {q q' : Ctx → Bool} {c : Ctx} (h : ∀ c, q c = true → q' c = true)
    (hc : check kd a q c = true) : check kd a q' c = true := by
  induction a generalizing q q' c with
  | skip => exact h _ hc
  | act a =>
    unfold check at hc ⊢
    cases hx : checkAct kd c a with
    | none => simp [hx] at hc
    | some c' => simp only [hx] at hc ⊢; exact h _ hc
  | seq a b iha ihb =>
    unfold check at hc ⊢
    refine iha (fun c hc => ?_) hc
    simp only [Bool.and_eq_true] at hc ⊢
    exact ⟨hc.1, ihb h hc.2⟩
  | choice a b iha ihb =>
    unfold check at hc ⊢
    simp only [Bool.and_eq_true] at hc ⊢
    exact ⟨iha h hc.1, ihb h hc.2⟩
  | loop a iha =>
    unfold check at hc ⊢
    simp only [Bool.and_eq_true] at hc ⊢
    exact ⟨hc.1, h _ hc.2⟩
  | cond e a b iha ihb =>
    cases e with
    | stopping =>
      unfold check at hc ⊢
      simp only [Bool.and_eq_true] at hc ⊢
      exact ⟨⟨hc.1.1, iha h hc.1.2⟩, ihb h hc.2⟩
    | joinable =>
      unfold check at hc ⊢
      simp only [Bool.and_eq_true] at hc ⊢
      refine ⟨⟨hc.1.1, iha h hc.1.2⟩, ?_⟩
      have := hc.2
      by_cases hk : kd = .destroyer
      · rw [if_pos hk, Bool.and_eq_true] at this ⊢
        exact ⟨this.1, ihb h this.2⟩
      · rw [if_neg hk, Bool.and_eq_true] at this ⊢
        exact ⟨this.1, ihb h this.2⟩
  | call =>
    unfold check at hc ⊢
    simp only [Bool.and_eq_true] at hc ⊢
    exact ⟨hc.1, h _ hc.2⟩
  | ret =>
    unfold check at hc ⊢
    simp only [Bool.and_eq_true] at hc ⊢
    exact ⟨hc.1, h _ hc.2⟩

/-! ## The invariant -/

/-- What is known of a thread is true. `one` says that calls of `run_at` do not overlap. -/
structure Valid (one : Prop) (s : State) (i : Nat) (t : Thread) (c : Ctx) : Prop where
  ok : Ok t.kind t.todo c = true
  held : c.held = true ↔ s.owner = some i
  running : c.running = true → c.held = true ∧ s.stopping = false
  stopped : c.stopped = true → s.stopping = true ∧ t.kind = .destroyer
  gone : c.gone = true → c.running = true ∨ c.fin = true
  alone : c.alone = true → c.stopped = true ∧ ∀ w ∈ s.workers, finished s w = true
  inAt : c.inAt = true → t.inside = some .runAt
  saw : c.saw = true → c.inAt = true ∧ (t.kind = .user ∨ t.kind = .worker) ∧ (one → s.handle = none)
  made : c.made = true → c.saw = true
  swept : one → c.swept = true → c.alone = true ∧ ∀ (j : Nat) (u : Thread), s.threads[j]? = some u → u.kind = .scheduler → u.todo = []

/-- What is true of all threads. -/
structure Good (one : Prop) (s : State) (ctx : Nat → Ctx) : Prop where
  owner : ∀ i, s.owner = some i → i < s.threads.length
  valid : ∀ (i : Nat) (t : Thread), s.threads[i]? = some t → Valid one s i t (ctx i)
  registered : ∀ (i : Nat) (t : Thread), s.threads[i]? = some t → t.kind = .worker → t.todo ≠ [] → i ∈ s.workers ∨ (ctx i).gone = true
  unique : ∀ (i j : Nat) (t u : Thread), s.threads[i]? = some t → s.threads[j]? = some u → t.kind = .destroyer → u.kind = .destroyer → i = j
  destroyer : ∀ (i : Nat) (t : Thread), s.threads[i]? = some t → t.kind = .destroyer → s.destroying = true
  users : s.destroying = true → ∀ (i : Nat) (t : Thread), s.threads[i]? = some t → (t.kind = .user ∨ t.kind = .maker) → t.todo = []
  single : one → ∀ (i j : Nat) (t u : Thread), s.threads[i]? = some t → s.threads[j]? = some u → t.inside = some .runAt → u.inside = some .runAt →
    i = j
  pending : one → ∀ (j : Nat) (u : Thread), s.threads[j]? = some u → u.kind = .scheduler → u.todo ≠ [] →
    s.handle = some j ∨ (∃ (i : Nat) (t : Thread), s.threads[i]? = some t ∧ (ctx i).made = true ∧ t.temp = some j) ∨ (ctx j).gone = true

theorem finished_iff {s : State} {i : Nat} : finished s i = true ↔ ∃ t, s.threads[i]? = some t ∧ t.todo = [] := by
  unfold finished
  cases s.threads[i]? with
  | none => simp
  | some t => simp

/-- What is known of another thread stays true. -/
theorem Valid.frame {one : Prop} {s s' : State} {j : Nat} {u : Thread} {c : Ctx} (h : Valid one s j u c)
    (hown : s'.owner = some j ↔ s.owner = some j) (hst : s.stopping = true → s'.stopping = true)
    (hrun : c.running = true → s'.stopping = s.stopping)
    (hal : c.alone = true → ∀ w ∈ s'.workers, finished s' w = true)
    (hh : one → c.saw = true → s'.handle = none)
    (hsw : one → c.swept = true → ∀ (j : Nat) (u : Thread), s'.threads[j]? = some u → u.kind = .scheduler → u.todo = []) :
    Valid one s' j u c where
  ok := h.ok
  held := h.held.trans hown.symm
  running hr := ⟨(h.running hr).1, (hrun hr).trans (h.running hr).2⟩
  stopped hs := ⟨hst (h.stopped hs).1, (h.stopped hs).2⟩
  gone := h.gone
  alone ha := ⟨(h.alone ha).1, hal ha⟩
  inAt := h.inAt
  saw hs := ⟨(h.saw hs).1, (h.saw hs).2.1, fun ho => hh ho hs⟩
  made := h.made
  swept ho hs := ⟨(h.swept ho hs).1, hsw ho hs⟩

theorem get_set {α : Type} {l : List α} {i j : Nat} {a b x : α} (hi : l[i]? = some b) (h : (l.set i a)[j]? = some x) :
    (j = i ∧ x = a) ∨ (j ≠ i ∧ l[j]? = some x) := by
  by_cases hj : j = i
  · subst hj
    have hlt : j < l.length := (List.getElem?_eq_some_iff.1 hi).1
    rw [List.getElem?_set_self hlt] at h
    exact .inl ⟨rfl, (Option.some.inj h).symm⟩
  · rw [List.getElem?_set_ne (fun e => hj e.symm)] at h
    exact .inr ⟨hj, h⟩

/-- The context of one thread changes. -/
def upd (ctx : Nat → Ctx) (i : Nat) (c : Ctx) : Nat → Ctx := fun j => if j = i then c else ctx j

theorem upd_self {ctx : Nat → Ctx} {i : Nat} {c : Ctx} : upd ctx i c i = c := if_pos rfl
theorem upd_ne {ctx : Nat → Ctx} {i j : Nat} {c : Ctx} (h : j ≠ i) : upd ctx i c j = ctx j := if_neg h

/-- A step of the thread `i` that creates no thread. -/
theorem Good.step {one : Prop} {s s' : State} {ctx : Nat → Ctx} {i : Nat} {t t' : Thread} {c' : Ctx} (h : Good one s ctx)
    (hi : s.threads[i]? = some t) (hne : t.todo ≠ []) (hT : s'.threads = s.threads.set i t') (hD : s'.destroying = s.destroying)
    (hk : t'.kind = t.kind) (hv : Valid one s' i t' c')
    (hown : ∀ j, j ≠ i → (s'.owner = some j ↔ s.owner = some j)) (hst : s.stopping = true → s'.stopping = true)
    (hrun : s'.stopping = s.stopping ∨ s.owner = some i)
    (hw : ∀ w, w ∈ s'.workers → w ∈ s.workers) (hw' : ∀ w, w ≠ i → w ∈ s.workers → w ∈ s'.workers)
    (hwi : i ∈ s.workers → i ∈ s'.workers ∨ c'.gone = true) (hg : (ctx i).gone = true → c'.gone = true)
    (hh : one → s.handle = none → s'.handle = none ∨ t.inside = some .runAt)
    (hin : one → t'.inside = some .runAt → t.inside = some .runAt ∨ ∀ u ∈ s.threads, u.inside ≠ some .runAt)
    (hp1 : one → ∀ j, s.handle = some j → s'.handle = some j ∨ (j = i ∧ c'.gone = true) ∨ finished s j = true)
    (hp2 : one → (ctx i).made = true → (c'.made = true ∧ t'.temp = t.temp) ∨ s'.handle = t.temp) :
    Good one s' (upd ctx i c') := by
  have fin : ∀ w, finished s w = true → finished s' w = true := by
    intro w hf
    obtain ⟨u, hu, hu0⟩ := finished_iff.1 hf
    refine finished_iff.2 ⟨u, ?_, hu0⟩
    rw [hT, List.getElem?_set_ne ?_]
    · exact hu
    · intro e; subst e; rw [hi] at hu; cases hu; exact hne hu0
  refine ⟨?_, ?_, ?_, ?_, ?_, ?_, ?_, ?_⟩
  · intro j hj
    rw [hT, List.length_set]
    by_cases hji : j = i
    · subst hji; exact (List.getElem?_eq_some_iff.1 hi).1
    · exact h.owner j ((hown j hji).1 hj)
  · intro j u hu
    rw [hT] at hu
    rcases get_set hi hu with ⟨rfl, rfl⟩ | ⟨hj, hu⟩
    · rw [upd_self]; exact hv
    · rw [upd_ne hj]
      have V := h.valid j u hu
      refine V.frame (hown j hj) hst ?_ ?_ ?_ ?_
      · intro hr
        rcases hrun with hrun | hrun
        · exact hrun
        · have := V.held.1 (V.running hr).1
          rw [hrun] at this
          exact absurd (Option.some.inj this).symm hj
      · exact fun ha w hw1 => fin w ((V.alone ha).2 w (hw w hw1))
      · intro ho hs
        rcases hh ho ((V.saw hs).2.2 ho) with hn | hin'
        · exact hn
        · exact absurd (h.single ho j i u t hu hi (V.inAt (V.saw hs).1) hin') hj
      · intro ho hs k v hv' hkd
        rw [hT] at hv'
        rcases get_set hi hv' with ⟨rfl, rfl⟩ | ⟨_, hv'⟩
        · exact absurd ((V.swept ho hs).2 _ t hi (hk ▸ hkd)) hne
        · exact (V.swept ho hs).2 _ _ hv' hkd
  · intro j u hu hkd hu0
    rw [hT] at hu
    rcases get_set hi hu with ⟨rfl, rfl⟩ | ⟨hj, hu⟩
    · rw [upd_self]
      rcases h.registered _ t hi (hk ▸ hkd) hne with hm | hm
      · exact hwi hm
      · exact .inr (hg hm)
    · rw [upd_ne hj]
      rcases h.registered _ u hu hkd hu0 with hm | hm
      · exact .inl (hw' j hj hm)
      · exact .inr hm
  · intro j k u v hu hv' hju hkv
    rw [hT] at hu hv'
    have key : ∀ {j : Nat} {u : Thread}, (s.threads.set i t')[j]? = some u → u.kind = .destroyer →
        ∃ u', s.threads[j]? = some u' ∧ u'.kind = .destroyer := by
      intro j u hu hkd
      rcases get_set hi hu with ⟨rfl, rfl⟩ | ⟨_, hu⟩
      · exact ⟨t, hi, hk ▸ hkd⟩
      · exact ⟨u, hu, hkd⟩
    obtain ⟨u', hu', hk1⟩ := key hu hju
    obtain ⟨v', hv'', hk2⟩ := key hv' hkv
    exact h.unique _ _ _ _ hu' hv'' hk1 hk2
  · intro j u hu hkd
    rw [hT] at hu
    rw [hD]
    rcases get_set hi hu with ⟨rfl, rfl⟩ | ⟨_, hu⟩
    · exact h.destroyer _ t hi (hk ▸ hkd)
    · exact h.destroyer _ u hu hkd
  · intro hd j u hu hkd
    rw [hT] at hu
    rw [hD] at hd
    rcases get_set hi hu with ⟨rfl, rfl⟩ | ⟨_, hu⟩
    · exact absurd (h.users hd _ t hi (hk ▸ hkd)) hne
    · exact h.users hd _ u hu hkd
  · intro ho j k u v hu hv' hju hkv
    rw [hT] at hu hv'
    have one_side : ∀ {k : Nat} {v : Thread}, t'.inside = some .runAt → s.threads[k]? = some v → v.inside = some .runAt →
        i = k := by
      intro k v hti hv hvi
      rcases hin ho hti with hti | hno
      · exact h.single ho _ _ _ _ hi hv hti hvi
      · exact absurd hvi (hno v (List.mem_of_getElem? hv))
    rcases get_set hi hu with ⟨rfl, rfl⟩ | ⟨_, hu1⟩ <;> rcases get_set hi hv' with ⟨rfl, rfl⟩ | ⟨_, hv1⟩
    · rfl
    · exact one_side hju hv1 hkv
    · exact (one_side hkv hu1 hju).symm
    · exact h.single ho _ _ _ _ hu1 hv1 hju hkv
  · intro ho j u hu hkd hu0
    rw [hT] at hu
    have old : ∃ u', s.threads[j]? = some u' ∧ u'.kind = .scheduler ∧ u'.todo ≠ [] := by
      rcases get_set hi hu with ⟨rfl, rfl⟩ | ⟨_, hu⟩
      · exact ⟨t, hi, hk ▸ hkd, hne⟩
      · exact ⟨u, hu, hkd, hu0⟩
    obtain ⟨u', hu', hk', hu0'⟩ := old
    rcases h.pending ho j u' hu' hk' hu0' with hm | ⟨k, v, hv', hmade, htemp⟩ | hm
    · rcases hp1 ho j hm with h1 | ⟨rfl, h1⟩ | h1
      · exact .inl h1
      · exact .inr (.inr (by rw [upd_self]; exact h1))
      · obtain ⟨w, hw1, hw2⟩ := finished_iff.1 h1
        rw [hu'] at hw1; cases hw1; exact absurd hw2 hu0'
    · by_cases hki : k = i
      · subst hki
        rw [hi] at hv'; cases hv'
        rcases hp2 ho hmade with ⟨h1, h2⟩ | h1
        · refine .inr (.inl ⟨k, t', ?_, ?_, ?_⟩)
          · rw [hT, List.getElem?_set_self (List.getElem?_eq_some_iff.1 hi).1]
          · rw [upd_self]; exact h1
          · rw [h2, htemp]
        · exact .inl (h1.trans htemp)
      · refine .inr (.inl ⟨k, v, ?_, ?_, htemp⟩)
        · rw [hT, List.getElem?_set_ne (fun e => hki e.symm)]; exact hv'
        · rw [upd_ne hki]; exact hmade
    · refine .inr (.inr ?_)
      by_cases hji : j = i
      · subst hji; rw [upd_self]; exact hg hm
      · rw [upd_ne hji]; exact hm

theorem get_append {α : Type} {l : List α} {j : Nat} {a x : α} (h : (l ++ [a])[j]? = some x) :
    (j = l.length ∧ x = a) ∨ (j ≠ l.length ∧ l[j]? = some x) := by
  rcases Nat.lt_trichotomy j l.length with hj | hj | hj
  · rw [List.getElem?_append_left hj] at h
    exact .inr ⟨Nat.ne_of_lt hj, h⟩
  · subst hj
    simp at h
    exact .inl ⟨rfl, h.symm⟩
  · rw [List.getElem?_eq_none (by simp; omega)] at h
    cases h

theorem get_old {α : Type} {l : List α} {j : Nat} {a x : α} (h : l[j]? = some x) : (l ++ [a])[j]? = some x := by
  rw [List.getElem?_append_left (List.getElem?_eq_some_iff.1 h).1]; exact h

/-- A new thread. -/
theorem Good.add {one : Prop} {s s' : State} {ctx : Nat → Ctx} {u : Thread} (h : Good one s ctx)
    (hT : s'.threads = s.threads ++ [u]) (ho : s'.owner = s.owner) (hs : s'.stopping = s.stopping) (hh : s'.handle = s.handle)
    (hw : s'.workers = s.workers ∨
      (s'.workers = s.workers ++ [s.threads.length] ∧ ∀ (i : Nat) (t : Thread), s.threads[i]? = some t → (ctx i).alone = false))
    (hok : Ok u.kind u.todo {} = true)
    (hin : u.inside = none) (hreg : u.kind = .worker → s.threads.length ∈ s'.workers)
    (hd : s.destroying = true → s'.destroying = true)
    (hdes : u.kind = .destroyer → s.destroying = false ∧ s'.destroying = true)
    (husr : s'.destroying = true → s.destroying = false →
      ∀ (i : Nat) (t : Thread), s.threads[i]? = some t → (t.kind = .user ∨ t.kind = .maker) → t.todo = [])
    (hu : u.kind = .user ∨ u.kind = .maker → s'.destroying = false)
    (hsched : u.kind = .scheduler → (∀ (i : Nat) (t : Thread), s.threads[i]? = some t → (ctx i).alone = false) ∧
      (one → ∃ (i : Nat) (t : Thread), s.threads[i]? = some t ∧ (ctx i).made = true ∧ t.temp = some s.threads.length)) :
    Good one s' (upd ctx s.threads.length {}) := by
  have fin : ∀ w, finished s w = true → finished s' w = true := by
    intro w hf
    obtain ⟨v, hv, hv0⟩ := finished_iff.1 hf
    exact finished_iff.2 ⟨v, by rw [hT]; exact get_old hv, hv0⟩
  have hd' : s'.destroying = true → s.destroying = true ∨ s.destroying = false := fun _ => by cases s.destroying <;> simp
  refine ⟨?_, ?_, ?_, ?_, ?_, ?_, ?_, ?_⟩
  · intro j hj
    rw [hT, List.length_append]
    exact Nat.lt_add_right _ (h.owner j (ho ▸ hj))
  · intro j v hv
    rw [hT] at hv
    rcases get_append hv with ⟨rfl, rfl⟩ | ⟨hj, hv1⟩
    · rw [upd_self]
      refine ⟨hok, ?_, ?_, ?_, ?_, ?_, ?_, ?_, ?_, ?_⟩
      · have hne : s.owner ≠ some s.threads.length := fun e => Nat.lt_irrefl _ (h.owner _ e)
        rw [ho]; simp [hne]
      all_goals simp
    · rw [upd_ne hj]
      have V := h.valid j v hv1
      refine V.frame (by rw [ho]) (fun e => hs ▸ e) (fun _ => hs) ?_ ?_ ?_
      · intro ha w hw1
        rcases hw with hw | ⟨hw, hno⟩
        · exact fin w ((V.alone ha).2 w (hw ▸ hw1))
        · rw [hno j v hv1] at ha; cases ha
      · intro h1 h2; rw [hh]; exact (V.saw h2).2.2 h1
      · intro h1 h2 k x hx hkd
        rw [hT] at hx
        rcases get_append hx with ⟨rfl, rfl⟩ | ⟨_, hx⟩
        · have := (hsched hkd).1 j v hv1
          rw [(V.swept h1 h2).1] at this; cases this
        · exact (V.swept h1 h2).2 k x hx hkd
  · intro j v hv hkd hv0
    rw [hT] at hv
    rcases get_append hv with ⟨rfl, rfl⟩ | ⟨hj, hv⟩
    · exact .inl (hreg hkd)
    · rw [upd_ne hj]
      rcases h.registered j v hv hkd hv0 with hm | hm
      · left
        rcases hw with hw | ⟨hw, _⟩
        · rw [hw]; exact hm
        · rw [hw]; exact List.mem_append_left _ hm
      · exact .inr hm
  · intro j k v x hv hx hjv hkx
    rw [hT] at hv hx
    rcases get_append hv with ⟨rfl, rfl⟩ | ⟨_, hv1⟩ <;> rcases get_append hx with ⟨rfl, rfl⟩ | ⟨_, hx1⟩
    · rfl
    · have := h.destroyer _ _ hx1 hkx
      rw [(hdes hjv).1] at this; cases this
    · have := h.destroyer _ _ hv1 hjv
      rw [(hdes hkx).1] at this; cases this
    · exact h.unique _ _ _ _ hv1 hx1 hjv hkx
  · intro j v hv hkd
    rw [hT] at hv
    rcases get_append hv with ⟨rfl, rfl⟩ | ⟨_, hv⟩
    · exact (hdes hkd).2
    · exact hd (h.destroyer _ _ hv hkd)
  · intro hde j v hv hkd
    rw [hT] at hv
    rcases get_append hv with ⟨rfl, rfl⟩ | ⟨_, hv⟩
    · have := hu hkd
      rw [hde] at this; cases this
    · rcases hd' hde with he | he
      · exact h.users he _ _ hv hkd
      · exact husr hde he _ _ hv hkd
  · intro h1 j k v x hv hx hjv hkx
    rw [hT] at hv hx
    rcases get_append hv with ⟨rfl, rfl⟩ | ⟨_, hv1⟩ <;> rcases get_append hx with ⟨rfl, rfl⟩ | ⟨_, hx1⟩
    · rfl
    · rw [hin] at hjv; cases hjv
    · rw [hin] at hkx; cases hkx
    · exact h.single h1 _ _ _ _ hv1 hx1 hjv hkx
  · intro h1 j v hv hkd hv0
    have keep : ∀ {j : Nat}, (∃ (i : Nat) (t : Thread), s.threads[i]? = some t ∧ (ctx i).made = true ∧ t.temp = some j) →
        ∃ (i : Nat) (t : Thread), s'.threads[i]? = some t ∧ (upd ctx s.threads.length {} i).made = true ∧ t.temp = some j := by
      rintro j ⟨i, t, hi, hm, ht⟩
      refine ⟨i, t, by rw [hT]; exact get_old hi, ?_, ht⟩
      rw [upd_ne (Nat.ne_of_lt (List.getElem?_eq_some_iff.1 hi).1)]; exact hm
    rw [hT] at hv
    rcases get_append hv with ⟨rfl, rfl⟩ | ⟨hj, hv⟩
    · exact .inr (.inl (keep ((hsched hkd).2 h1)))
    · rcases h.pending h1 j v hv hkd hv0 with hm | hm | hm
      · exact .inl (hh ▸ hm)
      · exact .inr (.inl (keep hm))
      · exact .inr (.inr (by rw [upd_ne hj]; exact hm))

/-! ## The steps -/

/-- Facts about the thread that makes a step. -/
theorem ok_cons {kd : Kind} {x : Code} {k : List Code} {c : Ctx} (h : Ok kd (x :: k) c = true) :
    c.fin = false ∧ check kd x (Ok kd k) c = true := by
  unfold Ok at h
  simpa using h

theorem ok_intro {kd : Kind} {x : Code} {k : List Code} {c : Ctx} (hf : c.fin = false) (h : check kd x (Ok kd k) c = true) :
    Ok kd (x :: k) c = true := by
  unfold Ok
  simp [hf, h]

section
variable {one : Prop} {s : State} {ctx : Nat → Ctx} {i : Nat} {t : Thread} {k : List Code}

/-- `Good.step` where what is known is in terms of the state before. -/
theorem Good.step' {s' : State} {t' : Thread} {c' : Ctx} (h : Good one s ctx)
    (hi : s.threads[i]? = some t) (hne : t.todo ≠ []) (hT : s'.threads = s.threads.set i t') (hD : s'.destroying = s.destroying)
    (hk : t'.kind = t.kind) (hok : Ok t.kind t'.todo c' = true) (hheld : c'.held = true ↔ s'.owner = some i)
    (hrunning : c'.running = true → c'.held = true ∧ s'.stopping = false)
    (hstopped : c'.stopped = true → s'.stopping = true ∧ t.kind = .destroyer)
    (hgone : c'.gone = true → c'.running = true ∨ c'.fin = true)
    (halone : c'.alone = true → c'.stopped = true ∧ ∀ w ∈ s.workers, finished s w = true)
    (hinAt : c'.inAt = true → t'.inside = some .runAt)
    (hsaw : c'.saw = true → c'.inAt = true ∧ (t.kind = .user ∨ t.kind = .worker) ∧ (one → s'.handle = none))
    (hmade : c'.made = true → c'.saw = true)
    (hswept : one → c'.swept = true → c'.alone = true ∧
      ∀ (j : Nat) (u : Thread), s.threads[j]? = some u → u.kind = .scheduler → u.todo = [])
    (hown : ∀ j, j ≠ i → (s'.owner = some j ↔ s.owner = some j)) (hst : s.stopping = true → s'.stopping = true)
    (hrun : s'.stopping = s.stopping ∨ s.owner = some i)
    (hw : ∀ w, w ∈ s'.workers → w ∈ s.workers) (hw' : ∀ w, w ≠ i → w ∈ s.workers → w ∈ s'.workers)
    (hwi : i ∈ s.workers → i ∈ s'.workers ∨ c'.gone = true) (hg : (ctx i).gone = true → c'.gone = true)
    (hh : one → s.handle = none → s'.handle = none ∨ t.inside = some .runAt)
    (hin : one → t'.inside = some .runAt → t.inside = some .runAt ∨ ∀ u ∈ s.threads, u.inside ≠ some .runAt)
    (hp1 : one → ∀ j, s.handle = some j → s'.handle = some j ∨ (j = i ∧ c'.gone = true) ∨ finished s j = true)
    (hp2 : one → (ctx i).made = true → (c'.made = true ∧ t'.temp = t.temp) ∨ s'.handle = t.temp) :
    Good one s' (upd ctx i c') := by
  refine h.step hi hne hT hD hk ?_ hown hst hrun hw hw' hwi hg hh hin hp1 hp2
  refine ⟨hk ▸ hok, hheld, hrunning, hk ▸ hstopped, hgone, ?_, hinAt, hk ▸ hsaw, hmade, ?_⟩
  · refine fun ha => ⟨(halone ha).1, fun w hw1 => ?_⟩
    obtain ⟨u, hu, hu0⟩ := finished_iff.1 ((halone ha).2 w (hw w hw1))
    refine finished_iff.2 ⟨u, ?_, hu0⟩
    rw [hT, List.getElem?_set_ne ?_]
    · exact hu
    · intro e; subst e; rw [hi] at hu; cases hu; exact hne hu0
  · refine fun ho hs => ⟨(hswept ho hs).1, fun j u hu hkd => ?_⟩
    rw [hT] at hu
    rcases get_set hi hu with ⟨rfl, rfl⟩ | ⟨_, hu⟩
    · exact absurd ((hswept ho hs).2 _ t hi (hk ▸ hkd)) hne
    · exact (hswept ho hs).2 _ _ hu hkd

/-- Steps that do not change the pool, nor what is known. -/
theorem Good.same (h : Good one s ctx) (hi : s.threads[i]? = some t) (hne : t.todo ≠ []) (hok : Ok t.kind k (ctx i) = true) :
    Good one { s with threads := s.threads.set i { t with todo := k } } (upd ctx i (ctx i)) := by
  have V := h.valid i t hi
  exact h.step' (t' := { t with todo := k }) hi hne rfl rfl rfl hok V.held V.running V.stopped V.gone V.alone V.inAt V.saw V.made V.swept
    (fun _ _ => Iff.rfl) id (.inl rfl) (fun _ => id) (fun _ _ => id)
    .inl id (fun _ => .inl) (fun _ => .inl) (fun _ _ => .inl) (fun _ hm => .inl ⟨hm, rfl⟩)

/-- A thread that goes on although the pool is being destroyed has not removed itself. -/
theorem Good.not_gone (h : Good one s ctx) (hst : s.stopping = true) (hi : s.threads[i]? = some t) (hne : t.todo ≠ []) :
    (ctx i).gone = false := by
  have V := h.valid i t hi
  cases hg : (ctx i).gone with
  | false => rfl
  | true =>
    exfalso
    rcases V.gone hg with hr | hf
    · have := (V.running hr).2
      rw [hst] at this; cases this
    · have hok := V.ok
      cases ht : t.todo with
      | nil => exact hne ht
      | cons x k =>
        rw [ht] at hok
        rw [(ok_cons hok).1] at hf; cases hf

/-- A thread that has seen that there is no scheduler goes on. -/
theorem Good.saw_ne (h : Good one s ctx) (hi : s.threads[i]? = some t) (hs : (ctx i).saw = true) : t.todo ≠ [] := by
  intro e
  have hok := (h.valid i t hi).ok
  rw [e] at hok
  simp [Ok, final, hs] at hok

/-- If a thread knows that all workers have ended, no user and no worker goes on. -/
theorem Good.nobody (h : Good one s ctx) {j : Nat} {u : Thread} (hj : s.threads[j]? = some u) (ha : (ctx j).alone = true)
    (hi : s.threads[i]? = some t) (hne : t.todo ≠ []) :
    t.kind = .scheduler ∨ t.kind = .destroyer := by
  have V := h.valid j u hj
  have hst := V.stopped (V.alone ha).1
  have hd := h.destroyer j u hj hst.2
  cases hk : t.kind with
  | maker => exact absurd (h.users hd i t hi (.inr hk)) hne
  | user => exact absurd (h.users hd i t hi (.inl hk)) hne
  | worker =>
    rcases h.registered i t hi hk hne with hm | hm
    · obtain ⟨v, hv, hv0⟩ := finished_iff.1 ((V.alone ha).2 i hm)
      rw [hi] at hv; cases hv; exact absurd hv0 hne
    · rw [h.not_gone hst.1 hi hne] at hm; cases hm
  | scheduler => exact .inl rfl
  | destroyer => exact .inr rfl

theorem Good.act (h : Good one s ctx) (hi : s.threads[i]? = some t) {a : Act} (ht : t.todo = .act a :: k) {s' : State}
    (hs : PoolRace.act s i t k a = some s') : ∃ ctx', Good one s' ctx' := by
  have V := h.valid i t hi
  have hne : t.todo ≠ [] := by rw [ht]; simp
  have hok := V.ok
  rw [ht] at hok
  obtain ⟨hfin, hc⟩ := ok_cons hok
  unfold check at hc
  cases hca : checkAct t.kind (ctx i) a with
  | none => rw [hca] at hc; cases hc
  | some c' =>
    rw [hca] at hc
    simp only at hc
    cases a with
    | lock =>
      simp only [checkAct] at hca
      split at hca
      · rename_i hx
        cases hca
        simp only [PoolRace.act] at hs
        split at hs
        · rename_i hown
          cases hs
          refine ⟨_, h.step' (t' := { t with todo := k }) (c' := { ctx i with held := true }) hi hne rfl rfl rfl hc ?_ ?_ V.stopped ?_ V.alone V.inAt
            V.saw V.made V.swept ?_ id (.inl rfl) (fun _ => id) (fun _ _ => id) .inl id (fun _ => .inl) (fun _ => .inl)
            (fun _ _ => .inl) (fun _ hm => .inl ⟨hm, rfl⟩)⟩
          · simp
          · intro hr; simp only at hr; rw [hx.2.2] at hr; cases hr
          · exact V.gone
          · intro j hj
            simp only [Option.some.injEq, hown]
            exact ⟨fun e => absurd e.symm hj, fun e => by cases e⟩
        · cases hs
      · cases hca
    | unlock =>
      simp only [checkAct] at hca
      split at hca
      · rename_i hx
        cases hca
        cases hs
        have hown := V.held.1 hx
        refine ⟨_, h.step' (t' := { t with todo := k }) (c' := { ctx i with held := false, running := false, fin := (ctx i).gone }) hi hne rfl rfl rfl
          hc ?_ ?_ V.stopped ?_ V.alone V.inAt
          V.saw V.made V.swept ?_ id (.inl rfl) (fun _ => id) (fun _ _ => id) .inl id (fun _ => .inl) (fun _ => .inl)
          (fun _ _ => .inl) (fun _ hm => .inl ⟨hm, rfl⟩)⟩
        · simp
        · simp
        · exact fun hg => .inr hg
        · intro j hj
          simp only [hown, Option.some.injEq]
          exact ⟨fun e => (by cases e), fun e => absurd e.symm hj⟩
      · cases hca
    | read l =>
      simp only [checkAct] at hca
      split at hca
      · cases hca; cases hs; exact ⟨_, h.same hi hne hc⟩
      · cases hca
    | write l =>
      simp only [checkAct] at hca
      split at hca
      · cases hca; cases hs; exact ⟨_, h.same hi hne hc⟩
      · cases hca
    | notify =>
      simp only [checkAct] at hca
      split at hca
      · cases hca; cases hs; exact ⟨_, h.same hi hne hc⟩
      · cases hca
    | setStopping =>
      simp only [checkAct] at hca
      split at hca
      · rename_i hx
        cases hca
        cases hs
        refine ⟨_, h.step' (t' := { t with todo := k }) (c' := { ctx i with stopped := true, running := false }) hi hne rfl rfl rfl hc V.held
          ?_ (fun _ => ⟨rfl, hx.2.2⟩) ?_ ?_ V.inAt
          V.saw V.made V.swept (fun _ _ => Iff.rfl) (fun _ => rfl) (.inr (V.held.1 hx.2.1)) (fun _ => id) (fun _ _ => id) .inl id (fun _ => .inl)
          (fun _ => .inl) (fun _ _ => .inl) (fun _ hm => .inl ⟨hm, rfl⟩)⟩
        · simp
        · intro hg'; simp only at hg'; rw [hx.1] at hg'; cases hg'
        · exact fun ha => ⟨rfl, (V.alone ha).2⟩
      · cases hca
    | spawnWorker =>
      simp only [checkAct] at hca
      split at hca
      · rename_i hx
        cases hca
        cases hs
        have h1 := h.same hi hne hc
        refine ⟨_, h1.add (u := ⟨.worker, [working], none, none⟩) rfl rfl rfl rfl (.inr ⟨by simp, ?_⟩) ok_working rfl (fun _ => by simp)
          id (fun e => by cases e) (fun e1 e2 => by simp only at e1 e2; rw [e1] at e2; cases e2) (fun e => by rcases e with e | e <;> cases e)
          (fun e => by cases e)⟩
        intro j u hj
        have V' := h1.valid j u hj
        cases ha : (upd ctx i (ctx i) j).alone with
        | false => rfl
        | true =>
          exfalso
          have hst := V'.stopped (V'.alone ha).1
          rcases hx.2.2 with hr | hm
          · have := (V.running hr).2
            simp only at hst
            rw [hst.1] at this; cases this
          · have hd := h1.destroyer j u hj hst.2
            exact hne (h.users hd i t hi (.inr hm))
      · cases hca
    | eraseSelf =>
      simp only [checkAct] at hca
      split at hca
      · rename_i hx
        cases hca
        cases hs
        refine ⟨_, h.step' (t' := { t with todo := k }) (c' := { ctx i with gone := true }) hi hne rfl rfl rfl hc V.held
          V.running V.stopped (fun _ => .inl hx.2.2.1) V.alone V.inAt
          V.saw V.made V.swept (fun _ _ => Iff.rfl) id (.inl rfl) (fun _ hm => List.mem_of_mem_erase hm)
          (fun w hwi hm => (List.mem_erase_of_ne hwi).2 hm) (fun _ => .inr rfl) (fun _ => rfl) (fun _ => .inl)
          (fun _ => .inl) (fun _ _ => .inl) (fun _ hm => .inl ⟨hm, rfl⟩)⟩
      · cases hca
    | spawnScheduler =>
      simp only [checkAct] at hca
      split at hca
      · rename_i hx
        cases hca
        cases hs
        have h1 := h.step' (s' := { s with threads := s.threads.set i { t with todo := k, temp := some s.threads.length } })
          (t' := { t with todo := k, temp := some s.threads.length }) (c' := { ctx i with made := true }) hi hne rfl rfl rfl hc
          V.held V.running V.stopped V.gone V.alone V.inAt
          V.saw (fun _ => hx.2.1) V.swept (fun _ _ => Iff.rfl) id (.inl rfl) (fun _ => id)
          (fun _ _ => id) .inl id (fun _ => .inl)
          (fun _ => .inl) (fun _ _ => .inl) (fun _ hm => by rw [hx.2.2.1] at hm; cases hm)
        have hlt : i < s.threads.length := (List.getElem?_eq_some_iff.1 hi).1
        have hkd := (V.saw hx.2.1).2.1
        refine ⟨_, h1.add (u := ⟨.scheduler, [scheduling], none, none⟩) rfl rfl rfl rfl (.inl rfl) ok_scheduling rfl (fun e => by cases e)
          id (fun e => by cases e) (fun e1 e2 => by simp only at e1 e2; rw [e1] at e2; cases e2) (fun e => by rcases e with e | e <;> cases e)
          (fun _ => ⟨?_, fun _ => ⟨i, _, List.getElem?_set_self hlt, by rw [upd_self], by simp⟩⟩)⟩
        intro j u hj
        cases ha : (upd ctx i { ctx i with made := true } j).alone with
        | false => rfl
        | true =>
          exfalso
          rcases get_set hi hj with ⟨rfl, rfl⟩ | ⟨hji, hj⟩
          · rw [upd_self] at ha
            have := (V.stopped (V.alone ha).1).2
            rcases hkd with hkd | hkd <;> rw [hkd] at this <;> cases this
          · rw [upd_ne hji] at ha
            rcases h.nobody hj ha hi hne with hn | hn <;> rcases hkd with hkd | hkd <;> rw [hkd] at hn <;> cases hn
      · cases hca
    | assignScheduler =>
      simp only [checkAct] at hca
      split at hca
      · rename_i hx
        cases hca
        simp only [PoolRace.act] at hs
        have hS := V.saw hx.2.1
        split at hs
        · rename_i hn
          cases hs
          refine ⟨_, h.step' (t' := { t with todo := k, temp := none }) (c' := { ctx i with saw := false, made := false }) hi hne rfl rfl rfl hc
            V.held V.running V.stopped V.gone V.alone V.inAt
            (fun e => by cases e) (fun e => by cases e) V.swept (fun _ _ => Iff.rfl) id (.inl rfl) (fun _ => id)
            (fun _ _ => id) .inl id (fun _ _ => .inr (V.inAt hS.1))
            (fun _ => .inl) (fun _ j hj => by rw [hn] at hj; cases hj) (fun _ _ => .inr rfl)⟩
        · cases hs
          exact ⟨ctx, ⟨h.owner, fun i t hi => let V := h.valid i t hi; ⟨V.ok, V.held, V.running, V.stopped, V.gone, V.alone, V.inAt, V.saw, V.made, V.swept⟩,
            h.registered, h.unique, h.destroyer, h.users, h.single, h.pending⟩⟩
      · cases hca
    | detachScheduler =>
      simp only [checkAct] at hca
      split at hca
      · rename_i hx
        cases hca
        simp only [PoolRace.act] at hs
        split at hs
        · cases hs
          exact ⟨ctx, ⟨h.owner, fun i t hi => let V := h.valid i t hi; ⟨V.ok, V.held, V.running, V.stopped, V.gone, V.alone, V.inAt, V.saw, V.made, V.swept⟩,
            h.registered, h.unique, h.destroyer, h.users, h.single, h.pending⟩⟩
        · rename_i hn
          cases hs
          refine ⟨_, h.step' (t' := { t with todo := k }) (c' := { ctx i with gone := true }) hi hne rfl rfl rfl hc V.held
            V.running V.stopped (fun _ => .inl hx.2.2.1) V.alone V.inAt
            (fun hs => ⟨(V.saw hs).1, (V.saw hs).2.1, fun _ => rfl⟩) V.made V.swept (fun _ _ => Iff.rfl) id (.inl rfl) (fun _ => id)
            (fun _ _ => id) .inl (fun _ => rfl) (fun _ _ => .inl rfl)
            (fun _ => .inl) ?_ (fun _ hm => .inl ⟨hm, rfl⟩)⟩
          intro ho j hj
          refine .inr (.inl ⟨?_, rfl⟩)
          rcases h.pending ho i t hi hx.2.2.2 hne with hm | ⟨m, v, hv, hmade, _⟩ | hm
          · rw [hj] at hm; exact Option.some.inj hm
          · have Vm := h.valid m v hv
            exact absurd ((Vm.saw (Vm.made hmade)).2.2 ho) hn
          · rw [hx.1] at hm; cases hm
      · cases hca
    | joinWorkers =>
      simp only [checkAct] at hca
      split at hca
      · rename_i hx
        cases hca
        simp only [PoolRace.act] at hs
        split at hs
        · rename_i hall
          cases hs
          refine ⟨_, h.step' (t' := { t with todo := k }) (c' := { ctx i with alone := true }) hi hne rfl rfl rfl hc V.held
            V.running V.stopped V.gone (fun _ => ⟨hx.2.2, fun w hw => List.all_eq_true.1 hall w hw⟩) V.inAt
            V.saw V.made (fun ho hs => ⟨rfl, (V.swept ho hs).2⟩) (fun _ _ => Iff.rfl) id (.inl rfl) (fun _ => id)
            (fun _ _ => id) .inl id (fun _ => .inl)
            (fun _ => .inl) (fun _ _ => .inl) (fun _ hm => .inl ⟨hm, rfl⟩)⟩
        · cases hs
      · cases hca
    | joinScheduler =>
      simp only [checkAct] at hca
      split at hca
      · rename_i hx
        cases hca
        simp only [PoolRace.act] at hs
        split at hs
        · rename_i j hj
          split at hs
          · rename_i hf
            cases hs
            refine ⟨_, h.step' (t' := { t with todo := k }) (c' := { ctx i with swept := true }) hi hne rfl rfl rfl hc V.held
              V.running V.stopped V.gone V.alone V.inAt
              (fun hs => ⟨(V.saw hs).1, (V.saw hs).2.1, fun _ => rfl⟩) V.made ?_ (fun _ _ => Iff.rfl) id (.inl rfl) (fun _ => id)
              (fun _ _ => id) .inl id (fun _ _ => .inl rfl)
              (fun _ => .inl) ?_ (fun _ hm => .inl ⟨hm, rfl⟩)⟩
            · intro ho _
              refine ⟨hx.2.2, fun m v hv hkd => ?_⟩
              refine Classical.byContradiction fun hv0 => ?_
              rcases h.pending ho m v hv hkd hv0 with hm | ⟨n, w, hw, hmade, _⟩ | hm
              · rw [hj] at hm; cases hm
                obtain ⟨w, hw, hw0⟩ := finished_iff.1 hf
                rw [hv] at hw; cases hw; exact hv0 hw0
              · have Vn := h.valid n w hw
                have hs := Vn.made hmade
                rcases h.nobody hi hx.2.2 hw (h.saw_ne hw hs) with e | e <;> rcases (Vn.saw hs).2.1 with e' | e' <;>
                  rw [e] at e' <;> cases e'
              · rw [h.not_gone (V.stopped (V.alone hx.2.2).1).1 hv hv0] at hm; cases hm
            · intro ho j' hj'
              rw [hj] at hj'; cases hj'
              exact .inr (.inr hf)
          · cases hs
        · cases hs
          exact ⟨ctx, ⟨h.owner, fun i t hi => let V := h.valid i t hi; ⟨V.ok, V.held, V.running, V.stopped, V.gone, V.alone, V.inAt, V.saw, V.made, V.swept⟩,
            h.registered, h.unique, h.destroyer, h.users, h.single, h.pending⟩⟩
      · cases hca

theorem Good.go (h : Good one s ctx) (hi : s.threads[i]? = some t) {b : Bool} {f : Option Fn}
    (hone : one → f = some .runAt → ∀ u ∈ s.threads, u.inside ≠ some .runAt) {s' : State}
    (hs : PoolRace.go s i t b f = some s') : ∃ ctx', Good one s' ctx' := by
  have V := h.valid i t hi
  unfold PoolRace.go at hs
  split at hs
  · cases hs
  · rename_i a k ht
    exact h.act hi ht hs
  · rename_i k ht
    cases hs
    have hok := V.ok
    rw [ht] at hok
    obtain ⟨_, hc⟩ := ok_cons hok
    exact ⟨_, h.same hi (by rw [ht]; simp) hc⟩
  · rename_i c d k ht
    cases hs
    have hok := V.ok
    rw [ht] at hok
    obtain ⟨hf, hc⟩ := ok_cons hok
    refine ⟨_, h.same hi (by rw [ht]; simp) (ok_intro hf ?_)⟩
    unfold check at hc
    exact check_mono (fun c hc => by unfold Ok; exact hc) hc
  · rename_i c d k ht
    cases hs
    have hok := V.ok
    rw [ht] at hok
    obtain ⟨hf, hc⟩ := ok_cons hok
    refine ⟨_, h.same hi (by rw [ht]; simp) (ok_intro hf ?_)⟩
    unfold check at hc
    rw [Bool.and_eq_true] at hc
    cases b
    · exact hc.2
    · exact hc.1
  · rename_i c k ht
    cases hs
    have hok := V.ok
    rw [ht] at hok
    obtain ⟨hf, hc⟩ := ok_cons hok
    have hc' := hc
    unfold check at hc
    rw [Bool.and_eq_true] at hc
    refine ⟨_, h.same hi (by rw [ht]; simp) ?_⟩
    cases b
    · exact hc.2
    · refine ok_intro hf (check_mono (fun c1 h1 => ?_) hc.1)
      rw [of_decide_eq_true h1]
      exact ok_intro hf hc'
  · rename_i e c d k ht
    have hne : t.todo ≠ [] := by rw [ht]; simp
    have hok := V.ok
    rw [ht] at hok
    obtain ⟨hf, hc⟩ := ok_cons hok
    cases hs
    cases e with
    | stopping =>
      unfold check at hc
      simp only [Bool.and_eq_true, Bool.not_eq_true'] at hc
      by_cases hst : holds s .stopping = true
      · rw [if_pos hst]
        exact ⟨_, h.same hi hne (ok_intro hf hc.1.2)⟩
      · rw [if_neg hst]
        have hst' : s.stopping = false := by simpa [holds] using hst
        exact ⟨_, h.step' (t' := { t with todo := d :: k }) (c' := { ctx i with running := true }) hi hne rfl rfl rfl (ok_intro hf hc.2)
          V.held (fun _ => ⟨hc.1.1.1, hst'⟩) V.stopped (fun _ => .inl rfl) V.alone V.inAt
          V.saw V.made V.swept (fun _ _ => Iff.rfl) id (.inl rfl) (fun _ => id) (fun _ _ => id) .inl id (fun _ => .inl) (fun _ => .inl)
          (fun _ _ => .inl) (fun _ hm => .inl ⟨hm, rfl⟩)⟩
    | joinable =>
      unfold check at hc
      simp only [Bool.and_eq_true, Bool.not_eq_true'] at hc
      by_cases hh : holds s .joinable = true
      · rw [if_pos hh]
        exact ⟨_, h.same hi hne (ok_intro hf hc.1.2)⟩
      · rw [if_neg hh]
        have hh' : s.handle = none := by simpa [holds] using hh
        have hc2 := hc.2
        by_cases hk : t.kind = .destroyer
        · rw [if_pos hk, Bool.and_eq_true] at hc2
          refine ⟨_, h.step' (t' := { t with todo := d :: k }) (c' := { ctx i with swept := true }) hi hne rfl rfl rfl (ok_intro hf hc2.2)
            V.held V.running V.stopped V.gone V.alone V.inAt
            V.saw V.made ?_ (fun _ _ => Iff.rfl) id (.inl rfl) (fun _ => id) (fun _ _ => id) .inl id (fun _ => .inl) (fun _ => .inl)
            (fun _ _ => .inl) (fun _ hm => .inl ⟨hm, rfl⟩)⟩
          intro ho _
          refine ⟨hc2.1, fun m v hv hkd => ?_⟩
          refine Classical.byContradiction fun hv0 => ?_
          rcases h.pending ho m v hv hkd hv0 with hm | ⟨n, w, hw, hmade, _⟩ | hm
          · rw [hh'] at hm; cases hm
          · have Vn := h.valid n w hw
            have hs := Vn.made hmade
            rcases h.nobody hi hc2.1 hw (h.saw_ne hw hs) with e | e <;> rcases (Vn.saw hs).2.1 with e' | e' <;>
              rw [e] at e' <;> cases e'
          · rw [h.not_gone (V.stopped (V.alone hc2.1).1).1 hv hv0] at hm; cases hm
        · rw [if_neg hk] at hc2
          simp only [Bool.and_eq_true, Bool.or_eq_true, decide_eq_true_eq, Bool.not_eq_true'] at hc2
          obtain ⟨⟨⟨⟨⟨hkd, hheld⟩, hat⟩, _⟩, hmade⟩, hc2⟩ := hc2
          exact ⟨_, h.step' (t' := { t with todo := d :: k }) (c' := { ctx i with saw := true }) hi hne rfl rfl rfl (ok_intro hf hc2)
            V.held V.running V.stopped V.gone V.alone V.inAt
            (fun _ => ⟨hat, hkd, fun _ => hh'⟩) (fun _ => rfl) V.swept (fun _ _ => Iff.rfl) id (.inl rfl) (fun _ => id) (fun _ _ => id) .inl id
            (fun _ => .inl) (fun _ => .inl)
            (fun _ _ => .inl) (fun _ hm => .inl ⟨hm, rfl⟩)⟩
  · rename_i k ht
    have hne : t.todo ≠ [] := by rw [ht]; simp
    have hok := V.ok
    rw [ht] at hok
    obtain ⟨hf, hc⟩ := ok_cons hok
    have hc' := hc
    unfold check at hc
    simp only [Bool.and_eq_true, Bool.or_eq_true, decide_eq_true_eq] at hc
    obtain ⟨⟨hkd, h0⟩, hq⟩ := hc
    split at hs
    · rename_i f
      cases hs
      have hown : s.owner ≠ some i := fun e => by have := V.held.2 e; rw [h0] at this; cases this
      refine ⟨_, h.step' (t' := { t with todo := code f :: .ret :: .call :: k, inside := some f }) (c' := { inAt := f = .runAt }) hi hne rfl rfl rfl
        (ok_intro rfl (check_mono (fun c1 h1 => ?_) (check_code hkd f)))
        ⟨fun e => (by cases e), fun e => absurd e hown⟩ (fun e => (by cases e)) (fun e => (by cases e)) (fun e => (by cases e))
        (fun e => (by cases e)) (fun e => by rw [of_decide_eq_true e])
        (fun e => (by cases e)) (fun e => (by cases e)) (fun _ e => (by cases e)) (fun _ _ => Iff.rfl) id (.inl rfl) (fun _ => id)
        (fun _ _ => id) .inl (fun e => by rw [h0] at e; cases e)
        (fun _ => .inl) (fun ho e => .inr (hone ho (by simpa using e)))
        (fun _ _ => .inl) (fun _ hm => by rw [h0] at hm; cases hm)⟩
      rw [of_decide_eq_true h1]
      refine ok_intro rfl ?_
      unfold check
      simp only [Bool.not_false, Bool.true_and]
      rw [h0] at hc' hf
      exact ok_intro hf hc'
    · cases hs
      exact ⟨_, h.same hi hne hq⟩
  · rename_i k ht
    have hne : t.todo ≠ [] := by rw [ht]; simp
    have hok := V.ok
    rw [ht] at hok
    obtain ⟨hf, hc⟩ := ok_cons hok
    unfold check at hc
    simp only [Bool.and_eq_true, Bool.not_eq_true'] at hc
    obtain ⟨⟨⟨hsaw, hmade⟩, hg⟩, hq⟩ := hc
    cases hs
    exact ⟨_, h.step' (t' := { t with todo := k, inside := none }) (c' := { ctx i with inAt := false }) hi hne rfl rfl rfl hq
      V.held V.running V.stopped V.gone V.alone (fun e => (by cases e))
      (fun e => by simp only at e; rw [hsaw] at e; cases e) V.made V.swept (fun _ _ => Iff.rfl) id (.inl rfl) (fun _ => id) (fun _ _ => id)
      .inl id (fun _ => .inl) (fun _ e => (by cases e))
      (fun _ _ => .inl) (fun _ hm => .inl ⟨hm, rfl⟩)⟩

end

theorem good_init (one : Prop) : Good one {} (fun _ => {}) := by
  have key : ∀ (i : Nat) (t : Thread), ({} : State).threads[i]? = some t → i = 0 ∧ t = ⟨.maker, [constructor], none, none⟩ := by
    intro i t h
    cases i with
    | zero => exact ⟨rfl, (Option.some.inj h).symm⟩
    | succ i => simp at h
  refine ⟨?_, ?_, ?_, ?_, ?_, ?_, ?_, ?_⟩
  · intro i h; cases h
  · intro i t h
    obtain ⟨rfl, rfl⟩ := key i t h
    refine ⟨ok_constructor, ?_, ?_, ?_, ?_, ?_, ?_, ?_, ?_, ?_⟩
    all_goals simp
  · intro i t h hk; obtain ⟨rfl, rfl⟩ := key i t h; cases hk
  · intro i j t u h _ hk; obtain ⟨rfl, rfl⟩ := key i t h; cases hk
  · intro i t h hk; obtain ⟨rfl, rfl⟩ := key i t h; cases hk
  · intro h; cases h
  · intro _ i j t u h _ hk; obtain ⟨rfl, rfl⟩ := key i t h; cases hk
  · intro _ i t h hk; obtain ⟨rfl, rfl⟩ := key i t h; cases hk

theorem good_step {one : Prop} {s s' : State} {ctx : Nat → Ctx} {ev : Event} (h : Good one s ctx) (hone : one → OneRunAt s ev)
    (hs : step s ev = some s') : ∃ ctx', Good one s' ctx' := by
  unfold step at hs
  split at hs
  · cases hs
  cases ev with
  | go i b f =>
    simp only at hs
    split at hs
    · rename_i t hi
      exact h.go hi (fun ho hf => hone ho i b (by rw [hf])) hs
    · cases hs
  | user =>
    simp only at hs
    split at hs
    · rename_i hc
      cases hs
      refine ⟨_, h.add (u := ⟨.user, [.call], none, none⟩) rfl rfl rfl rfl (.inl rfl) ok_user rfl (fun e => by cases e) id (fun e => by cases e)
        (fun e1 e2 => by simp only at e1 e2; rw [e1] at e2; cases e2) (fun _ => hc.2) (fun e => by cases e)⟩
    · cases hs
  | destroy =>
    simp only at hs
    split at hs
    · rename_i hc
      cases hs
      refine ⟨_, h.add (u := ⟨.destroyer, [destructor], none, none⟩) rfl rfl rfl rfl (.inl rfl) ok_destructor rfl (fun e => by cases e) (fun _ => rfl)
        (fun _ => ⟨hc.1, rfl⟩) (fun _ _ i t hi hk => ?_) (fun e => by rcases e with e | e <;> cases e) (fun e => by cases e)⟩
      have := List.all_eq_true.1 hc.2 t (List.mem_of_getElem? hi)
      rcases hk with hk | hk <;> simpa [hk] using this
    · cases hs

theorem good {one : Prop} {ok : State → Event → Prop} (hok : one → ∀ s ev, ok s ev → OneRunAt s ev) {s : State} (h : Reachable ok s) :
    ∃ ctx, Good one s ctx := by
  induction h with
  | init => exact ⟨_, good_init one⟩
  | step ev _ ho hs ih =>
    obtain ⟨ctx, ih⟩ := ih
    exact good_step ih (fun h1 => hok h1 _ _ ho) hs

/-! ## Accesses -/

/-- An access of a thread that holds the mutex. -/
def Locked (t : Thread) (c : Ctx) (l : Loc) (w : Bool) : Prop :=
  c.held = true ∧ (l = .workers → w = true → c.running = true ∨ t.kind = .maker) ∧
    (l = .handles → c.running = true ∨ t.kind = .maker) ∧
    (l = .scheduler → t.kind = .user ∨ t.kind = .worker ∨ c.running = true)

/-- An access of the destructor. -/
def Last (t : Thread) (c : Ctx) (l : Loc) (w : Bool) : Prop :=
  t.kind = .destroyer ∧ c.stopped = true ∧ ((l = .workers ∧ w = false) ∨ l = .handles ∨ (l = .scheduler ∧ c.alone = true))

theorem access {one : Prop} {s : State} {i : Nat} {t : Thread} {c : Ctx} (V : Valid one s i t c) {l : Loc} {w : Bool}
    (h : (l, w) ∈ accesses t) (hna : ∀ k, t.todo ≠ .act .assignScheduler :: k) : Locked t c l w ∨ Last t c l w := by
  unfold accesses at h
  have hok := V.ok
  split at h
  · rename_i a k ht
    rw [ht] at hok
    obtain ⟨hf, hc⟩ := ok_cons hok
    unfold check at hc
    cases hca : checkAct t.kind c a with
    | none => rw [hca] at hc; cases hc
    | some c' =>
      clear hc
      cases a with
      | lock => cases h
      | unlock => cases h
      | notify => cases h
      | spawnScheduler => cases h
      | assignScheduler => exact absurd ht (hna k)
      | read l' =>
        simp only [actAccesses, List.mem_singleton, Prod.mk.injEq] at h
        obtain ⟨rfl, rfl⟩ := h
        simp only [checkAct] at hca
        split at hca
        · rename_i hx
          have hr := hx.2
          cases l <;> simp only [readOk, Bool.or_eq_true, Bool.and_eq_true, decide_eq_true_eq, Bool.false_eq_true] at hr
          case workers =>
            rcases hr with hr | hr
            · exact .inl ⟨hr, by simp, by simp, by simp⟩
            · exact .inr ⟨hr.1, hr.2, .inl ⟨rfl, rfl⟩⟩
          case handles => exact .inr ⟨hr.1, hr.2, .inr (.inl rfl)⟩
          all_goals exact .inl ⟨hr, by simp, by simp, by simp⟩
        · cases hca
      | write l' =>
        simp only [actAccesses, List.mem_singleton, Prod.mk.injEq] at h
        obtain ⟨rfl, rfl⟩ := h
        simp only [checkAct] at hca
        split at hca
        · rename_i hx
          have hr := hx.2
          cases l <;> simp only [writeOk, Bool.or_eq_true, Bool.and_eq_true, decide_eq_true_eq, Bool.false_eq_true] at hr
          case handles =>
            rcases hr with hr | hr
            · exact .inl ⟨hr.1, by simp, fun _ => .inl hr.2, by simp⟩
            · exact .inr ⟨hr.1, hr.2, .inr (.inl rfl)⟩
          all_goals exact .inl ⟨hr, by simp, by simp, by simp⟩
        · cases hca
      | setStopping =>
        simp only [actAccesses, List.mem_singleton, Prod.mk.injEq] at h
        obtain ⟨rfl, rfl⟩ := h
        simp only [checkAct] at hca
        split at hca
        · rename_i hx
          exact .inl ⟨hx.2.1, by simp, by simp, by simp⟩
        · cases hca
      | spawnWorker =>
        simp only [checkAct] at hca
        split at hca
        · rename_i hx
          simp only [actAccesses, List.mem_cons, Prod.mk.injEq, List.not_mem_nil, or_false] at h
          rcases h with ⟨rfl, rfl⟩ | ⟨rfl, rfl⟩
          · exact .inl ⟨hx.2.1, fun _ _ => hx.2.2, by simp, by simp⟩
          · exact .inl ⟨hx.2.1, by simp, fun _ => hx.2.2, by simp⟩
        · cases hca
      | eraseSelf =>
        simp only [checkAct] at hca
        split at hca
        · rename_i hx
          simp only [actAccesses, List.mem_cons, Prod.mk.injEq, List.not_mem_nil, or_false] at h
          rcases h with ⟨rfl, rfl⟩ | ⟨rfl, rfl⟩
          · exact .inl ⟨hx.2.1, fun _ _ => .inl hx.2.2.1, by simp, by simp⟩
          · exact .inl ⟨hx.2.1, by simp, fun _ => .inl hx.2.2.1, by simp⟩
        · cases hca
      | detachScheduler =>
        simp only [checkAct] at hca
        split at hca
        · rename_i hx
          simp only [actAccesses, List.mem_singleton, Prod.mk.injEq] at h
          obtain ⟨rfl, rfl⟩ := h
          exact .inl ⟨hx.2.1, by simp, by simp, fun _ => .inr (.inr hx.2.2.1)⟩
        · cases hca
      | joinWorkers =>
        simp only [checkAct] at hca
        split at hca
        · rename_i hx
          simp only [actAccesses, List.mem_cons, Prod.mk.injEq, List.not_mem_nil, or_false] at h
          rcases h with ⟨rfl, rfl⟩ | ⟨rfl, rfl⟩
          · exact .inr ⟨hx.2.1, hx.2.2, .inl ⟨rfl, rfl⟩⟩
          · exact .inr ⟨hx.2.1, hx.2.2, .inr (.inl rfl)⟩
        · cases hca
      | joinScheduler =>
        simp only [checkAct] at hca
        split at hca
        · rename_i hx
          simp only [actAccesses, List.mem_singleton, Prod.mk.injEq] at h
          obtain ⟨rfl, rfl⟩ := h
          exact .inr ⟨hx.2.1, (V.alone hx.2.2).1, .inr (.inr ⟨rfl, hx.2.2⟩)⟩
        · cases hca
  · rename_i c1 d1 k ht
    rw [ht] at hok
    obtain ⟨hf, hc⟩ := ok_cons hok
    unfold check at hc
    simp only [Bool.and_eq_true, Bool.not_eq_true'] at hc
    simp only [List.mem_singleton, Prod.mk.injEq] at h
    obtain ⟨rfl, rfl⟩ := h
    exact .inl ⟨hc.1.1.1, by simp, by simp, by simp⟩
  · rename_i c1 d1 k ht
    rw [ht] at hok
    obtain ⟨hf, hc⟩ := ok_cons hok
    unfold check at hc
    simp only [Bool.and_eq_true, Bool.not_eq_true'] at hc
    simp only [List.mem_singleton, Prod.mk.injEq] at h
    obtain ⟨rfl, rfl⟩ := h
    have hc2 := hc.2
    by_cases hk : t.kind = .destroyer
    · rw [if_pos hk, Bool.and_eq_true] at hc2
      exact .inr ⟨hk, (V.alone hc2.1).1, .inr (.inr ⟨rfl, hc2.1⟩)⟩
    · rw [if_neg hk] at hc2
      simp only [Bool.and_eq_true, Bool.or_eq_true, decide_eq_true_eq] at hc2
      exact .inl ⟨hc2.1.1.1.1.2, by simp, by simp, fun _ => hc2.1.1.1.1.1.elim .inl (fun e => .inr (.inl e))⟩
  · cases h

theorem accesses_ne {t : Thread} {x : Loc × Bool} (h : x ∈ accesses t) : t.todo ≠ [] := by
  intro e
  unfold accesses at h
  rw [e] at h
  cases h

/-- An access of a thread that holds the mutex and one of the destructor do not meet. -/
theorem Good.apart {one : Prop} {s : State} {ctx : Nat → Ctx} (h : Good one s ctx) {i j : Nat} {t u : Thread} {l : Loc} {w v : Bool}
    (hi : s.threads[i]? = some t) (hj : s.threads[j]? = some u) (hne : t.todo ≠ [])
    (hA : Locked t (ctx i) l w) (hB : Last u (ctx j) l v) (hwv : w = true ∨ v = true) : False := by
  have V := h.valid i t hi
  have U := h.valid j u hj
  have hst := (U.stopped hB.2.1).1
  have hd := h.destroyer j u hj hB.1
  have hrun : (ctx i).running = true ∨ t.kind = .maker → False := by
    rintro (hr | hm)
    · have := (V.running hr).2
      rw [hst] at this; cases this
    · exact hne (h.users hd i t hi (.inr hm))
  rcases hB.2.2 with ⟨rfl, rfl⟩ | rfl | ⟨rfl, ha⟩
  · have hw : w = true := by simpa using hwv
    exact hrun (hA.2.1 rfl hw)
  · exact hrun (hA.2.2.1 rfl)
  · rcases hA.2.2.2 rfl with hk | hk | hr
    · exact hne (h.users hd i t hi (.inl hk))
    · rcases h.nobody hj ha hi hne with e | e <;> rw [hk] at e <;> cases e
    · exact hrun (.inl hr)

theorem Good.race {one : Prop} {s : State} {ctx : Nat → Ctx} (h : Good one s ctx) {i j : Nat} {t u : Thread} {l : Loc} {w v : Bool}
    (hij : i ≠ j) (hi : s.threads[i]? = some t) (hj : s.threads[j]? = some u) (ht : (l, w) ∈ accesses t) (hu : (l, v) ∈ accesses u)
    (hwv : w = true ∨ v = true) (hna : ∀ k, t.todo ≠ .act .assignScheduler :: k)
    (hnb : ∀ k, u.todo ≠ .act .assignScheduler :: k) : False := by
  have V := h.valid i t hi
  have U := h.valid j u hj
  have hdd : t.kind = .destroyer → u.kind = .destroyer → False := fun e1 e2 => hij (h.unique i j t u hi hj e1 e2)
  rcases access V ht hna with hA | hA <;> rcases access U hu hnb with hB | hB
  · have e1 := V.held.1 hA.1
    have e2 := U.held.1 hB.1
    rw [e1] at e2
    exact hij (Option.some.inj e2)
  · exact h.apart hi hj (accesses_ne ht) hA hB hwv
  · exact h.apart hj hi (accesses_ne hu) hB hA hwv.symm
  · exact hdd hA.1 hB.1

/-- When the destructor has returned, only schedulers go on; none if calls of `run_at` did not overlap. -/
theorem Good.destroyed {one : Prop} {s : State} {ctx : Nat → Ctx} (h : Good one s ctx) (hd : Destroyed s) {i : Nat} {t : Thread}
    (hi : s.threads[i]? = some t) : t.todo = [] ∨ (t.kind = .scheduler ∧ ¬ one) := by
  obtain ⟨u, hu, hk, h0⟩ := hd
  obtain ⟨j, hj⟩ := List.mem_iff_getElem?.1 hu
  have U := h.valid j u hj
  have hok := U.ok
  rw [h0, hk] at hok
  simp only [Ok, final, Bool.and_eq_true, Bool.or_eq_true, ne_eq, not_true_eq_false, decide_false,
    Bool.false_eq_true, false_or] at hok
  have ha : (ctx j).alone = true := hok.2.1.2
  have hs : (ctx j).swept = true := hok.2.2
  by_cases hne : t.todo = []
  · exact .inl hne
  · right
    rcases h.nobody hj ha hi hne with e | e
    · exact ⟨e, fun ho => hne ((U.swept ho hs).2 i t hi e)⟩
    · exfalso
      have := h.unique i j t u hi hj e hk
      subst this
      rw [hi] at hj; cases hj
      exact hne h0

/-! ## Without `run_at` -/

/-- A program without the assignment of `run_at`. -/
def clean : Code → Bool
  | .act a => a ≠ .assignScheduler
  | .seq c d | .choice c d | .cond _ c d => clean c && clean d
  | .loop c => clean c
  | _ => true

theorem clean_code {f : Fn} (h : f ≠ .runAt) : clean (code f) = true := by
  cases f with
  | get g => cases g <;> decide
  | runAt => exact absurd rfl h
  | _ => decide

theorem clean_set {s : State} (h : ∀ t ∈ s.threads, ∀ c ∈ t.todo, clean c = true) {i : Nat} {t : Thread}
    (hc : ∀ c ∈ t.todo, clean c = true) : ∀ u ∈ s.threads.set i t, ∀ c ∈ u.todo, clean c = true := by
  intro u hu
  rcases List.mem_or_eq_of_mem_set hu with hu | rfl
  · exact h u hu
  · exact hc

theorem clean_add {l : List Thread} (h : ∀ t ∈ l, ∀ c ∈ t.todo, clean c = true) {t : Thread}
    (hc : ∀ c ∈ t.todo, clean c = true) : ∀ u ∈ l ++ [t], ∀ c ∈ u.todo, clean c = true := by
  intro u hu
  rcases List.mem_append.1 hu with hu | hu
  · exact h u hu
  · rw [List.mem_singleton] at hu; subst hu; exact hc

theorem clean_act {s s' : State} {i : Nat} {t : Thread} {k : List Code} {a : Act} (h : ∀ t ∈ s.threads, ∀ c ∈ t.todo, clean c = true)
    (hk : ∀ c ∈ k, clean c = true) (hs : act s i t k a = some s') : ∀ t ∈ s'.threads, ∀ c ∈ t.todo, clean c = true := by
  have key : ∀ u ∈ s.threads.set i { t with todo := k }, ∀ c ∈ u.todo, clean c = true := clean_set h hk
  cases a with
  | lock =>
    simp only [act] at hs
    split at hs <;> cases hs
    exact key
  | spawnWorker => cases hs; exact clean_add key (by decide)
  | spawnScheduler =>
    cases hs
    exact clean_add (clean_set (t := { t with todo := k, temp := some s.threads.length }) h hk) (by decide)
  | assignScheduler =>
    simp only [act] at hs
    split at hs <;> cases hs
    · exact clean_set (t := { t with todo := k, temp := none }) h hk
    · exact h
  | detachScheduler =>
    simp only [act] at hs
    split at hs <;> cases hs
    · exact h
    · exact key
  | joinWorkers =>
    simp only [act] at hs
    split at hs <;> cases hs
    exact key
  | joinScheduler =>
    simp only [act] at hs
    split at hs
    · split at hs <;> cases hs
      exact key
    · cases hs; exact h
  | _ => cases hs; exact key

theorem clean_step {s s' : State} {ev : Event} (h : ∀ t ∈ s.threads, ∀ c ∈ t.todo, clean c = true) (hn : NoRunAt s ev)
    (hs : step s ev = some s') : ∀ t ∈ s'.threads, ∀ c ∈ t.todo, clean c = true := by
  unfold step at hs
  split at hs
  · cases hs
  cases ev with
  | go i b f =>
    simp only at hs
    split at hs
    · rename_i t hi
      have ht := h t (List.mem_of_getElem? hi)
      unfold go at hs
      split at hs
      · cases hs
      · rename_i a k e
        rw [e] at ht
        exact clean_act h (fun c hc => ht c (List.mem_cons_of_mem _ hc)) hs
      · rename_i k e
        rw [e] at ht
        cases hs
        exact clean_set (t := { t with todo := k }) h (fun c hc => ht c (List.mem_cons_of_mem _ hc))
      · rename_i c d k e
        rw [e] at ht
        cases hs
        have h1 := ht _ (List.mem_cons_self ..)
        simp only [clean, Bool.and_eq_true] at h1
        refine clean_set (t := { t with todo := c :: d :: k }) h ?_
        simp only [List.mem_cons, forall_eq_or_imp]
        exact ⟨h1.1, h1.2, fun c hc => ht c (List.mem_cons_of_mem _ hc)⟩
      · rename_i c d k e
        rw [e] at ht
        cases hs
        have h1 := ht _ (List.mem_cons_self ..)
        simp only [clean, Bool.and_eq_true] at h1
        refine clean_set (t := { t with todo := (if b then c else d) :: k }) h ?_
        simp only [List.mem_cons, forall_eq_or_imp]
        refine ⟨?_, fun c hc => ht c (List.mem_cons_of_mem _ hc)⟩
        cases b
        · exact h1.2
        · exact h1.1
      · rename_i c k e
        rw [e] at ht
        cases hs
        have h1 := ht _ (List.mem_cons_self ..)
        have h2 := h1
        simp only [clean] at h1
        refine clean_set (t := { t with todo := if b then c :: .loop c :: k else k }) h ?_
        cases b
        · exact fun c hc => ht c (List.mem_cons_of_mem _ hc)
        · simp only [if_true, List.mem_cons, forall_eq_or_imp]
          exact ⟨h1, h2, fun c hc => ht c (List.mem_cons_of_mem _ hc)⟩
      · rename_i b' c d k e
        rw [e] at ht
        cases hs
        have h1 := ht _ (List.mem_cons_self ..)
        simp only [clean, Bool.and_eq_true] at h1
        refine clean_set (t := { t with todo := (if holds s b' then c else d) :: k }) h ?_
        simp only [List.mem_cons, forall_eq_or_imp]
        refine ⟨?_, fun c hc => ht c (List.mem_cons_of_mem _ hc)⟩
        cases holds s b'
        · exact h1.2
        · exact h1.1
      · rename_i k e
        rw [e] at ht
        split at hs
        · rename_i f
          cases hs
          refine clean_set (t := { t with todo := code f :: .ret :: .call :: k, inside := some f }) h ?_
          simp only [List.mem_cons, forall_eq_or_imp]
          exact ⟨clean_code (fun e => hn i b (by rw [e])), rfl, rfl, fun c hc => ht c (List.mem_cons_of_mem _ hc)⟩
        · cases hs
          exact clean_set (t := { t with todo := k }) h (fun c hc => ht c (List.mem_cons_of_mem _ hc))
      · rename_i k e
        rw [e] at ht
        cases hs
        exact clean_set (t := { t with todo := k, inside := none }) h (fun c hc => ht c (List.mem_cons_of_mem _ hc))
    · cases hs
  | user =>
    simp only at hs
    split at hs <;> cases hs
    exact clean_add h (by decide)
  | destroy =>
    simp only at hs
    split at hs <;> cases hs
    exact clean_add h (by decide)

theorem clean_reachable {s : State} (h : Reachable NoRunAt s) : ∀ t ∈ s.threads, ∀ c ∈ t.todo, clean c = true := by
  induction h with
  | init => decide
  | step ev _ ho hs ih => exact clean_step ih ho hs

end Pluto.PoolRace
