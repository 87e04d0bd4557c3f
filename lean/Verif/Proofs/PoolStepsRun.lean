import Verif.Proofs.PoolStepsSim

/-! # A thread pool, statement by statement: executions -/

namespace Pluto.Proofs.PoolSteps
open Pluto Pluto.PoolSteps Pluto.Spec.PoolSteps
open Pluto.Pool (Event Entry Timed Phase SPhase Wait Action Crash Stage)

/-- The pool and the one whose sections are executed at once. -/
def Sim (f : State) (l : List Item) (a : Pool.State) : Prop :=
  f.base.crash = a.crash ∧ (a.crash = none → match f.inside with
    | none => a = f.base ∧ l = f.log
    | some (sec, pc) => Rel sec pc a f.base ∧ l = f.log ++ (if committed sec pc then [item sec pc] else []))

theorem item_event (ev : Event) (pc : Pc) : item (.event ev) pc = .event ev := by cases pc <;> rfl

theorem sim_step {n : Nat} {f f' : State} {m : Move} {l : List Item} {a : Pool.State} (he : Explains n l a) (hs : Sim f l a)
    (h : step f m = some f') : ∃ l' a', Explains n l' a' ∧ Sim f' l' a' := by
  obtain ⟨hcr, hs⟩ := hs
  unfold step at h
  split at h
  · cases h
  rename_i hcs
  have hb : f.base.crash = none := by simpa using hcs
  have hc : a.crash = none := hcr ▸ hb
  have hs := hs hc
  split at h
  · -- a section is entered
    rename_i sec hin
    rw [hin] at hs
    obtain ⟨rfl, rfl⟩ := hs
    cases hp : enter f.base sec with
    | none => rw [hp] at h; cases h
    | some pc =>
      rw [hp] at h
      cases h
      obtain ⟨h1, h2⟩ := enter_rel hp
      exact ⟨f.log, f.base, he, rfl, fun _ => ⟨h1, by simp [h2]⟩⟩
  · cases h
  · cases h
  · -- a statement
    rename_i w sec pc hin
    rw [hin] at hs
    obtain ⟨hr, hl⟩ := hs
    split at h
    · rename_i s pc' hgo
      cases h
      cases go_rel hc hr hgo with
      | stutter _ h1 h2 h3 =>
        refine ⟨l, a, he, h1, fun _ => ⟨h3, ?_⟩⟩
        rw [h2, hl]
        split
        · rename_i hcm
          cases sec with
          | get g c => cases pc <;> cases hcm
          | event ev => simp only [item_event]
        · rfl
      | commit _ ev ev' a' h1 h2 h3 h4 h5 h6 h7 h8 _ =>
        subst h1
        simp only [h5, Bool.false_eq_true, if_false, List.append_nil] at hl
        refine ⟨l ++ [.event ev], a', h2 ▸ .section' ev' he h3 h4 h6, h7, fun hc' => ⟨(h8 hc').2, ?_⟩⟩
        rw [(h8 hc').1, hl]
        simp [item_event]
    · rename_i s hgo
      cases h
      cases go_rel hc hr hgo with
      | finish ev ev' h1 h2 h3 h4 h5 h6 =>
        subst h1
        simp only [h5, Bool.false_eq_true, if_false, List.append_nil] at hl
        exact ⟨l ++ [.event ev], s, h2 ▸ .section' ev' he h3 h4 h6, rfl, fun _ => ⟨rfl, by simp [hl, item_event]⟩⟩
      | release ev h1 h2 h3 =>
        subst h1
        simp only [h2, if_true] at hl
        exact ⟨l, a, he, by rw [h3], fun _ => ⟨h3.symm, by simp [hl, item_event]⟩⟩
      | got g c h1 h2 h3 h4 =>
        subst h1 h2
        simp only [committed, Bool.false_eq_true, if_false, List.append_nil] at hl
        exact ⟨l ++ [.got g (value a g)], a, .get g c he hc h4, by rw [h3], fun _ => ⟨h3.symm, by simp [hl, item]⟩⟩
    · cases h
  · -- what needs no mutex
    rename_i ev
    split at h
    · rename_i hev
      cases hp : Pool.step f.base ev with
      | none => rw [hp] at h; cases h
      | some s =>
        rw [hp] at h
        cases h
        obtain ⟨-, ho⟩ := out_of_step hev.1 hp
        match hi : f.inside with
        | none =>
          rw [hi] at hs
          obtain ⟨rfl, rfl⟩ := hs
          exact ⟨f.log, s, .outside ev he hev.1 hp, rfl, fun _ => by simp⟩
        | some (sec, pc) =>
          rw [hi] at hs
          obtain ⟨ev', a', h1, h2, h3⟩ := rel_out hs.1 (by simpa [hi] using hev.2) ho
          obtain ⟨h4, h5⟩ := step_of_out hc h1
          refine ⟨l, a', .outside ev' he h4 h5, h2, fun _ => ?_⟩
          simp only
          exact ⟨h3, hs.2⟩
    · cases h

theorem sim {n : Nat} {f : State} (h : Reachable n f) : ∃ l a, Explains n l a ∧ Sim f l a := by
  induction h with
  | init => exact ⟨[], Pool.init n, .init, rfl, fun _ => ⟨rfl, rfl⟩⟩
  | step m _ hs ih =>
    obtain ⟨l, a, he, hsim⟩ := ih
    exact sim_step he hsim hs

/-- Executed at once, a state is one that `Pool.lean` reaches. -/
theorem reachable_of_explains {n : Nat} {l : List Item} {s : Pool.State} (h : Explains n l s) : Pool.Reachable n s := by
  induction h with
  | init => exact .init
  | outside ev _ _ hs ih => exact .step ev ih hs
  | section' ev _ _ _ hs ih => exact .step ev ih hs
  | get g c _ _ _ ih => exact ih

theorem explains_of_reachable {n : Nat} {s : Pool.State} (h : Pool.Reachable n s) : ∃ l, Explains n l s := by
  induction h with
  | init => exact ⟨[], .init⟩
  | step ev _ hs ih =>
    obtain ⟨l, ih⟩ := ih
    by_cases ho : isOutside ev = true
    · exact ⟨l, .outside ev ih ho hs⟩
    · by_cases hr : ∃ d p c, ev = .runAfter d p c
      · obtain ⟨d, p, c, rfl⟩ := hr
        rename_i s s' _
        exact ⟨_, .section' (.runAt (s.now + d) p c) ih rfl (by simp) hs⟩
      · exact ⟨_, .section' ev ih (by simpa using ho) (fun d p c e => hr ⟨d, p, c, e⟩) hs⟩

/-! ## The mutex is released -/

/-- Which statements a section has. -/
def valid : Sec → Pc → Bool
  | .event (.runAsync _ _), .emplace | .event (.runAsync _ _), .leave => true
  | .event (.runSync _ _), .emplace | .event (.runSync _ _), .leaveSync _ => true
  | .event (.setTarget _ _), pc => match pc with
    | .isStopping | .target | .more | .spawn | .fewer | .leaveNotify | .leave => true
    | _ => false
  | .event (.setOnStop _ _), .onStop | .event (.setOnStop _ _), .leave => true
  | .event .stop, .flag | .event .stop, .leave => true
  | .event (.runAt _ _ _), pc => match pc with
    | .schedule | .joinable | .first | .leaveCreate | .leaveWake | .leave => true
    | _ => false
  | .event (.waitNone _), .noTasks | .event (.waitNone _), .sleep | .event (.waitNone _), .leave => true
  | .event (.waitAll _), .noTasks | .event (.waitAll _), .noActive | .event (.waitAll _), .sleep
  | .event (.waitAll _), .leave => true
  | .event (.worker _), pc => (workFrom pc).isSome || pc == .leave
  | .event (.scheduler _ _), pc => (schedFrom pc).isSome || pc == .leaveEnded
  | .get .waitingWorkersSize _, .read2 _ | .get .tasksSize _, .read2 _ => true
  | .get _ _, .read | .get _ _, .result _ => true
  | _, _ => false

/-- How many statements may follow. -/
def rank (len : Nat) : Sec → Pc → Nat
  | .event (.setTarget n _), pc => match pc with
    | .isStopping => 2 * (n - len) + 5
    | .target => 2 * (n - len) + 4
    | .more => 2 * (n - len) + 3
    | .spawn => 2 * (n - len) + 2
    | .fewer => 1
    | _ => 0
  | _, pc => match pc with
    | .dec _ | .move _ _ => 20
    | .size _ | .unschedule _ _ => 19
    | .working _ | .notifyWorker _ _ => 18
    | .complete _ | .anyScheduled _ => 17
    | .anyLeft _ | .scheduling _ => 16
    | .anyTask _ | .begin _ => 15
    | .idle _ | .ending _ => 14
    | .notifyComplete _ | .detach _ => 13
    | .take _ => 12
    | .erase _ _ => 11
    | .emptied _ _ => 10
    | .notifyWorking _ _ => 9
    | .inc _ _ => 8
    | .leaving _ => 7
    | .eraseSelf _ => 6
    | .schedule => 5
    | .joinable => 4
    | .first | .noTasks | .read => 3
    | .noActive | .read2 _ => 2
    | .emplace | .onStop | .flag => 1
    | _ => 0

theorem enter_valid {sec : Sec} {a : Pool.State} {pc : Pc} (h : enter a sec = some pc) : valid sec pc = true := by
  cases sec with
  | get g c => simp only [enter] at h; split at h <;> cases h; cases g <;> rfl
  | event ev =>
    cases ev <;> simp only [enter] at h <;> first | (cases h; done) | skip
    case scheduler i w => cases w <;> simp only at h <;> first | (cases h; done) | (split at h <;> cases h <;> rfl)
    all_goals (split at h <;> cases h <;> rfl)

theorem go_valid {sec : Sec} {b b' : Pool.State} {w : Option Nat} {pc pc' : Pc} (h : go b w sec pc = some (b', some pc')) :
    valid sec pc' = true := by
  cases sec with
  | get g c => cases g <;> cases pc <;> simp only [go, goGet] at h <;> cases h <;> rfl
  | event ev =>
    cases ev <;> cases pc <;> simp only [go, goTarget, goAt, goWorker, goScheduler] at h <;>
      first | (cases h; done) | (cases h; rfl) | skip
    all_goals first
      | (cases h; split <;> rfl)
      | (split at h <;> cases h <;> rfl)

theorem woken_exists (ws : List Phase) : ∃ w ws', Pool.wakeOne w ws = some ws' := by
  by_cases h : .blocked ∈ ws
  · obtain ⟨i, hi⟩ := List.mem_iff_getElem?.1 h
    exact ⟨some i, _, by rw [Pool.wakeOne, if_pos hi]⟩
  · exact ⟨none, _, by rw [Pool.wakeOne, if_neg h]⟩

/-- A thread that holds the mutex can go on. -/
theorem go_exists {sec : Sec} {a b : Pool.State} {pc : Pc} (hv : valid sec pc = true) (hr : Rel sec pc a b) :
    ∃ w b' x, go b w sec pc = some (b', x) := by
  obtain ⟨core, hk, hb, hf, hh⟩ := hr
  cases sec with
  | get g c => cases g <;> cases pc <;> first | (cases hv; done) | exact ⟨none, _, _, rfl⟩
  | event ev =>
    cases ev <;> cases pc <;> first | (cases hv; done) | exact ⟨none, _, _, rfl⟩ | skip
    case worker.take i p =>
      have hq : b.queue ≠ [] := by rw [hb]; exact hf.2
      simp only [go, goWorker]
      cases hx : b.queue with
      | nil => exact absurd hx hq
      | cons e l => exact ⟨none, _, _, rfl⟩
    case scheduler.move i w e n =>
      simp only [go, goScheduler]
      by_cases he : e ∈ b.scheduled
      · exact ⟨none, _, _, by rw [if_pos he]⟩
      · exact ⟨none, _, _, by rw [if_neg he]⟩
    case scheduler.notifyWorker i w e n =>
      obtain ⟨w', ws, hw⟩ := woken_exists b.workers
      simp only [go, goScheduler]
      exact ⟨w', _, _, by rw [hw]⟩
    case scheduler.begin i w q =>
      have hq : b.scheduled ≠ [] := by rw [hb]; exact hf.2.1
      simp only [go, goScheduler]
      cases hx : b.scheduled with
      | nil => exact absurd hx hq
      | cons e l => exact ⟨none, _, _, rfl⟩
    case scheduler.detach i w q =>
      simp only [go, goScheduler]
      cases hx : b.scheduler with
      | none => exact ⟨none, _, _, rfl⟩
      | some k => exact ⟨none, _, _, rfl⟩

/-- It comes closer to releasing it. -/
theorem go_rank {sec : Sec} {a b b' : Pool.State} {w : Option Nat} {pc pc' : Pc} (hc : b.crash = none) (hr : Rel sec pc a b)
    (h : go b w sec pc = some (b', some pc')) :
    b'.crash ≠ b.crash ∨ rank b'.workers.length sec pc' < rank b.workers.length sec pc := by
  obtain ⟨core, hk, hb, hf, hh⟩ := hr
  cases sec with
  | get g c => cases g <;> cases pc <;> simp only [go, goGet] at h <;> cases h <;> right <;> simp [rank]
  | event ev =>
    cases ev <;> cases pc <;> simp only [go, goTarget, goAt, goWorker, goScheduler] at h <;> first | (cases h; done) | skip
    case setTarget.spawn n c =>
      obtain ⟨m, hm, hk⟩ := hk
      cases h
      right
      have hl : b.workers.length = a.workers.length + m := by rw [hb, hk]; simp [load]
      have hm : m < n - a.workers.length := hm
      simp only [rank, List.length_append, List.length_singleton]
      omega
    all_goals first
      | (cases h; right; simp [rank]; done)
      | (cases h; right; simp only [rank]; omega)
      | (cases h; right; split <;> simp [rank]; done)
      | (cases h; right; split <;> simp only [rank] <;> omega)
      | (split at h <;> cases h <;> first | (right; simp [rank]; done) | (left; simp [hc]; done))

theorem inside_valid {n : Nat} {f : State} (h : Reachable n f) (sec : Sec) (pc : Pc) (hi : f.inside = some (sec, pc)) :
    valid sec pc = true := by
  induction h generalizing pc with
  | init => cases hi
  | step m _ h ih =>
    rename_i f0 f1 _
    unfold step at h
    split at h
    · cases h
    split at h
    · rename_i sec' hin
      cases hp : enter f0.base sec' with
      | none => rw [hp] at h; cases h
      | some pc' => rw [hp] at h; cases h; cases hi; exact enter_valid hp
    · cases h
    · cases h
    · split at h
      · rename_i hgo; cases h; cases hi; exact go_valid hgo
      · cases h; cases hi
      · cases h
    · rename_i ev
      split at h
      · cases hp : Pool.step f0.base ev with
        | none => rw [hp] at h; cases h
        | some s => rw [hp] at h; cases h; exact ih pc hi
      · cases h

/-- A thread that holds the mutex releases it after finitely many of its statements, or the program has crashed. -/
theorem released {n : Nat} {f : State} (h : Reachable n f) : ∃ (ws : List (Option Nat)) (f' : State),
    run f (ws.map .go) = some f' ∧ (f'.inside = none ∨ f'.base.crash.isSome = true) := by
  obtain ⟨base, inside, log⟩ := f
  by_cases hcs : base.crash.isSome = true
  · exact ⟨[], _, rfl, .inr hcs⟩
  cases inside with
  | none => exact ⟨[], _, rfl, .inl rfl⟩
  | some x =>
    obtain ⟨sec, pc⟩ := x
    induction hk : rank base.workers.length sec pc using Nat.strongRecOn generalizing base pc log with
    | _ k ih =>
    obtain ⟨l, a, -, hcr, hs⟩ := sim h
    have hc : base.crash = none := by simpa using hcs
    have hr := (hs (by rw [← hcr]; exact hc)).1
    obtain ⟨w, b', y, hgo⟩ := go_exists (inside_valid h sec pc rfl) hr
    cases y with
    | none =>
      refine ⟨[w], { base := b', inside := none, log := log ++ [item sec pc] }, ?_, .inl rfl⟩
      simp [run, step, hc, hgo]
    | some pc' =>
      have hst : step ⟨base, some (sec, pc), log⟩ (.go w) = some ⟨b', some (sec, pc'), log⟩ := by
        simp [step, hc, hgo]
      by_cases hcs' : b'.crash.isSome = true
      · refine ⟨[w], ⟨b', some (sec, pc'), log⟩, ?_, .inr hcs'⟩
        simp [run, hst]
      · have hc' : b'.crash = none := by simpa using hcs'
        have hlt := (go_rank hc hr hgo).resolve_left (by rw [hc, hc']; simp)
        obtain ⟨ws, f', h1, h2⟩ := ih _ (hk ▸ hlt) b' log hcs' pc' (.step (.go w) h hst) rfl
        exact ⟨w :: ws, f', by simp [run, hst, h1], h2⟩

/-! ## Every execution whose sections are executed at once is one of the pool -/

theorem run_append (f : State) (l l' : List Move) : run f (l ++ l') = (run f l).bind fun f => run f l' := by
  induction l generalizing f with
  | nil => rfl
  | cons m l ih =>
    simp only [List.cons_append, run]
    cases step f m with
    | none => rfl
    | some f' => exact ih f'

theorem reachable_run {n : Nat} {f f' : State} (h : Reachable n f) (l : List Move) (hr : run f l = some f') : Reachable n f' := by
  induction l generalizing f with
  | nil => cases hr; exact h
  | cons m l ih =>
    simp only [run] at hr
    cases hs : step f m with
    | none => rw [hs] at hr; cases hr
    | some f1 => rw [hs] at hr; exact ih (.step m h hs) hr

theorem go_indep (b : Pool.State) (w w' : Option Nat) (sec : Sec) (pc : Pc) (h : ∀ e n, pc ≠ .notifyWorker e n) :
    go b w sec pc = go b w' sec pc := by
  cases sec with
  | get g c => rfl
  | event ev =>
    cases ev <;> first | rfl | skip
    all_goals (cases pc <;> first | rfl | exact absurd rfl (h _ _))

/-- The worker that a section of the scheduler wakes. -/
def wokenOf : Event → Option Nat
  | .scheduler _ w => w
  | _ => none

/-- Which worker a section of the scheduler has woken so far. -/
def Track (v : Option Nat) (a b : Pool.State) : Sec → Pc → Prop
  | .event (.scheduler _ _), pc => match passFrom pc, schedFrom pc with
    | some (.timedOut _ _), _ => Pool.wakeOne v a.workers = some b.workers
    | some _, _ => v = none ∧ b.workers = a.workers
    | none, some _ => b.workers = a.workers ∧ ∃ ws, Pool.wakeOne v a.workers = some ws
    | none, none => True
  | _, _ => True

theorem wakeOne_inj {v w : Option Nat} {ws ws' : List Phase} (h1 : Pool.wakeOne v ws = some ws')
    (h2 : Pool.wakeOne w ws = some ws') : v = w := by
  have key : ∀ (x y : Option Nat), Pool.wakeOne x ws = some ws' → Pool.wakeOne y ws = some ws' → ∀ i, x = some i → y = some i := by
    intro x y hx hy i hi
    subst hi
    simp only [Pool.wakeOne] at hx
    split at hx
    · rename_i hb
      cases hx
      have hl := (List.getElem?_eq_some_iff.1 hb).1
      cases y with
      | none =>
        simp only [Pool.wakeOne] at hy
        split at hy
        · cases hy
        · rename_i hn; exact absurd (List.mem_of_getElem? hb) hn
      | some j =>
        simp only [Pool.wakeOne] at hy
        split at hy
        · rename_i hj
          have hy := Option.some.inj hy
          by_cases hij : j = i
          · rw [hij]
          · have := congrArg (·[i]?) hy
            simp only [List.getElem?_set_ne hij, hb, List.getElem?_set, hl] at this
            simp at this
        · cases hy
    · cases hx
  cases v with
  | none =>
    cases w with
    | none => rfl
    | some j => exact (key _ _ h2 h1 j rfl).symm ▸ rfl
  | some i => exact (key _ _ h1 h2 i rfl).symm

/-- When the other pool has executed the section, what is left is to release the mutex. -/
theorem run_committed {sec : Sec} {ev : Event} (hsec : sec = .event ev) (log : List Item) {pc : Pc} {a b : Pool.State}
    (hc : a.crash = none) (hb : b.crash = none) (hv : valid sec pc = true) (hr : Rel sec pc a b)
    (hcm : committed sec pc = true) :
    ∃ ws : List (Option Nat), run ⟨b, some (sec, pc), log⟩ (ws.map .go) = some ⟨a, none, log ++ [.event ev]⟩ := by
  induction hk : rank b.workers.length sec pc using Nat.strongRecOn generalizing b pc with
  | _ k ih =>
  obtain ⟨w, b', y, hgo⟩ := go_exists hv hr
  have hout := go_rel hc hr hgo
  cases hout with
  | stutter pc' h1 h2 h3 =>
    have hb' : b'.crash = none := h1.trans hc
    have hlt := (go_rank hb hr hgo).resolve_left (by rw [hb, hb']; simp)
    obtain ⟨ws, hws⟩ := ih _ (hk ▸ hlt) hb' (go_valid hgo) h3 (h2.trans hcm) rfl
    exact ⟨w :: ws, by simp [run, step, hb, hgo, hws]⟩
  | finish ev ev' h1 h2 h3 h4 h5 h6 => rw [hcm] at h5; cases h5
  | commit pc' ev ev' a' h1 h2 h3 h4 h5 h6 h7 h8 => rw [hcm] at h5; cases h5
  | release ev' h1 h2 h3 =>
    subst h3 hsec
    exact ⟨[w], by simp [run, step, hb, hgo, item_event]⟩
  | got g c h1 h2 h3 h4 => rw [hsec] at h1; cases h1

theorem scheduler_workers {a a' : Pool.State} {i : Nat} {w : Option Nat} {q : SPhase} (hi : a.schedulers[i]? = some q)
    (hc : a.crash = none) (h : Pool.step a (.scheduler i w) = some a') (hq : inTime (prot a) q) :
    match q with
    | .timedOut _ _ => Pool.wakeOne w a.workers = some a'.workers
    | _ => w = none := by
  have hcs : ¬ a.crash.isSome = true := by rw [hc]; simp
  simp only [Pool.step, if_neg hcs, hi] at h
  cases q with
  | ready =>
    simp only at h ⊢
    split at h
    · rename_i hn; simpa using hn
    · cases h
  | waiting e n => cases h
  | exited => cases h
  | timedOut e n =>
    simp only at h ⊢
    have hq : e ∈ a.scheduled := hq
    rw [Pool.moveTimed, if_pos hq] at h
    cases hw : Pool.wakeOne w a.workers with
    | none => simp only [hw] at h; cases h
    | some ws =>
      simp only [hw] at h
      rw [if_neg (by exact hcs)] at h
      have hpass : ∀ s : Pool.State, (Pool.schedulerPass s i).workers = s.workers := by
        intro s
        unfold Pool.schedulerPass
        split
        · rfl
        · rfl
        · split <;> rfl
      rw [← Option.some.inj h, hpass]

theorem go_exists_at {sec : Sec} {a b : Pool.State} {pc : Pc} (v : Option Nat) (hv : valid sec pc = true)
    (hr : Rel sec pc a b) (ht : Track v a b sec pc) : ∃ b' x, go b v sec pc = some (b', x) := by
  by_cases hn : ∃ e n, pc = .notifyWorker e n
  · obtain ⟨e, n, rfl⟩ := hn
    cases sec with
    | get g c => cases g <;> cases hv
    | event ev =>
      cases ev <;> first | (cases hv; done) | skip
      case scheduler i w =>
        obtain ⟨h1, ws, h2⟩ : b.workers = a.workers ∧ ∃ ws, Pool.wakeOne v a.workers = some ws := ht
        simp only [go, goScheduler]
        exact ⟨_, _, by rw [h1, h2]⟩
  · obtain ⟨w, b', x, h⟩ := go_exists hv hr
    exact ⟨b', x, by rw [go_indep b v w sec pc fun e n he => hn ⟨e, n, he⟩, h]⟩

theorem go_track {sec : Sec} {a b b' : Pool.State} {v : Option Nat} {pc pc' : Pc}
    (h : go b v sec pc = some (b', some pc')) (ht : Track v a b sec pc) : Track v a b' sec pc' := by
  cases sec with
  | get g c => trivial
  | event ev =>
    cases ev <;> first | trivial | skip
    case scheduler i w =>
      cases pc <;> simp only [go, goScheduler] at h <;> first | (cases h; done) | skip
      case move e n => split at h <;> cases h <;> exact ht
      case unschedule e n => cases h; exact ht
      case notifyWorker e n =>
        obtain ⟨h1, ws, h2⟩ : b.workers = a.workers ∧ ∃ ws, Pool.wakeOne v a.workers = some ws := ht
        rw [h1, h2] at h
        cases h
        exact h2
      case begin q => split at h <;> cases h; exact ht
      case detach q => split at h <;> cases h <;> first | trivial | exact ht
      all_goals (cases h; first | exact ht | (split <;> exact ht))

/-- The worker that was woken is the one of the event by which the other pool executes the section. -/
theorem track_eq {i : Nat} {w v w' : Option Nat} {a a' b b' : Pool.State} {pc : Pc} {x : Option Pc} (hc : a.crash = none)
    (hbc : b.crash = none) (hm : ∀ e n, pc = .move e n → e ∈ b.scheduled)
    (hr : Rel (.event (.scheduler i w)) pc a b) (ht : Track v a b (.event (.scheduler i w)) pc)
    (h : go b v (.event (.scheduler i w)) pc = some (b', x)) (hs : Pool.step a (.scheduler i w') = some a')
    (hw : a'.workers = b'.workers) (hx : x = none ∨ x = some .leaveEnded ∨ b'.crash ≠ none)
    (hcm : committed (.event (.scheduler i w)) pc = false) : v = w' := by
  obtain ⟨core, hk, hb, hf, hh⟩ := hr
  have main : ∀ q, passFrom pc = some q → inTime (prot a) q → b'.workers = b.workers → v = w' := by
    intro q hq hin hbw
    have hsf : schedFrom pc = some q := by cases pc <;> first | exact hq | cases hq
    simp only [holder, hsf] at hh
    have h2 := scheduler_workers hh.2.1 hc hs hin
    simp only [Track, hq] at ht
    cases q with
    | timedOut e n =>
      simp only at ht h2
      rw [hw, hbw] at h2
      exact wakeOne_inj ht h2
    | ready => rw [h2]; exact ht.1
    | waiting e n => rw [h2]; exact ht.1
    | exited => rw [h2]; exact ht.1
  cases pc <;> simp only [go, goScheduler] at h <;> first | (cases h; done) | skip
  case doze q e => cases h; exact main q rfl hf.1 rfl
  case exitScheduler q => cases h; exact main q rfl hf.1 rfl
  case detach q => split at h <;> cases h <;> exact main q rfl hf.1 rfl
  case leaveEnded => cases hcm
  case move e n =>
    rw [if_pos (hm e n rfl)] at h
    cases h
    rcases hx with hx | hx | hx
    · cases hx
    · cases hx
    · exact absurd hbc hx
  case notifyWorker e n =>
    split at h <;> cases h
    rcases hx with hx | hx | hx
    · cases hx
    · cases hx
    · exact absurd hbc hx
  case begin q =>
    split at h <;> cases h
    rcases hx with hx | hx | hx
    · cases hx
    · cases hx
    · exact absurd hbc hx
  all_goals
    cases h
    rcases hx with hx | hx | hx
    · cases hx
    · first | (cases hx; done) | (split at hx <;> cases hx)
    · exact absurd hbc hx

theorem canon_eq {ev ev' : Event} (h : canon ev' = ev) : ev' = ev ∨ ∃ i w, ev = .scheduler i none ∧ ev' = .scheduler i w := by
  cases ev' <;> first | exact .inl h | skip
  case scheduler i w => exact .inr ⟨i, w, h.symm, rfl⟩

/-- A section, executed without anything else in between, does what it does when it is executed at once. -/
theorem run_section {ev0 : Event} {a s' : Pool.State} (log : List Item) (hc : a.crash = none)
    (hs : Pool.step a ev0 = some s') (hs' : s'.crash = none) {pc : Pc} {b : Pool.State} (hb : b.crash = none)
    (hv : valid (.event (canon ev0)) pc = true) (hr : Rel (.event (canon ev0)) pc a b)
    (hcm : committed (.event (canon ev0)) pc = false) (ht : Track (wokenOf ev0) a b (.event (canon ev0)) pc) :
    ∃ ws : List (Option Nat), run ⟨b, some (.event (canon ev0), pc), log⟩ (ws.map .go) =
      some ⟨s', none, log ++ [.event (canon ev0)]⟩ := by
  induction hk : rank b.workers.length (.event (canon ev0)) pc using Nat.strongRecOn generalizing b pc with
  | _ k ih =>
  have hmv : ∀ i w, ev0 = .scheduler i w → ∀ e n, pc = .move e n → e ∈ b.scheduled := by
    rintro i w rfl e n rfl
    obtain ⟨core, hkk, hbb, hf, hh⟩ := hr
    have hi : a.schedulers[i]? = some (.timedOut e n) := hh.2.1
    have hsch : b.scheduled = a.scheduled := by rw [hbb]; rfl
    rw [hsch]
    refine Classical.byContradiction fun hn => ?_
    have hcs : ¬ a.crash.isSome = true := by rw [hc]; simp
    simp only [Pool.step, if_neg hcs, hi, Pool.moveTimed, if_neg hn] at hs
    simp at hs
    rw [← hs] at hs'
    cases hs'
  obtain ⟨b', y, hgo⟩ := go_exists_at (wokenOf ev0) hv hr ht
  -- the event is the one that is given
  have same : ∀ ev' a', canon ev' = canon ev0 → Pool.step a ev' = some a' → a'.workers = b'.workers →
      (y = none ∨ y = some .leaveEnded ∨ b'.crash ≠ none) → a' = s' := by
    intro ev' a' h2 h6 h9 hy
    have : ev' = ev0 := by
      cases ev0 <;> cases ev' <;> first | exact h2 | (cases h2; done) | skip
      case scheduler i w j w' =>
        cases h2
        have hvw : w = w' := track_eq hc hb (hmv _ _ rfl) hr ht hgo h6 h9 hy hcm
        rw [hvw]
    rw [this, hs] at h6
    exact (Option.some.inj h6).symm
  have hout := go_rel hc hr hgo
  cases hout with
  | stutter pc' h1 h2 h3 =>
    have hb' : b'.crash = none := h1.trans hc
    have hlt := (go_rank hb hr hgo).resolve_left (by rw [hb, hb']; simp)
    obtain ⟨ws, hws⟩ := ih _ (hk ▸ hlt) hb' (go_valid hgo) h3 (h2.trans hcm) (go_track hgo ht) rfl
    exact ⟨wokenOf ev0 :: ws, by simp [run, step, hb, hgo, hws]⟩
  | finish ev ev' h1 h2 h3 h4 h5 h6 =>
    cases h1
    have := same ev' b' h2 h6 rfl (.inl rfl)
    subst this
    exact ⟨[wokenOf ev0], by simp [run, step, hb, hgo, item_event]⟩
  | commit pc' ev ev' a' h1 h2 h3 h4 h5 h6 h7 h8 h9 =>
    cases h1
    have : a' = s' := by
      by_cases hcc : a'.crash = none
      · cases ev0 <;> cases ev' <;> first | (cases h2; done) | (cases h2; rw [hs] at h6; exact (Option.some.inj h6).symm) | skip
        case scheduler i w j w' =>
          refine same _ a' h2 h6 h9 (.inr (.inl ?_))
          have := (h8 hcc).1
          cases pc' <;> first | rfl | cases this
      · exact same ev' a' h2 h6 h9 (.inr (.inr (h7 ▸ hcc)))
    subst this
    obtain ⟨ws, hws⟩ := run_committed rfl log hs' (h7.trans hs') (go_valid hgo) (h8 hs').2 (h8 hs').1
    exact ⟨wokenOf ev0 :: ws, by simp [run, step, hb, hgo, hws]⟩
  | release ev' h1 h2 h3 => rw [hcm] at h2; cases h2
  | got g c h1 h2 h3 h4 => cases h1

theorem enter_of_step {ev : Event} {a a' : Pool.State} (h1 : isOutside ev = false) (h2 : ∀ d p c, ev ≠ .runAfter d p c)
    (hs : Pool.step a ev = some a') (hc' : a'.crash = none) :
    a.crash = none ∧ ∃ pc, enter a (.event (canon ev)) = some pc ∧ Track (wokenOf ev) a a (.event (canon ev)) pc := by
  have hcs : ¬ a.crash.isSome = true := by
    intro h
    unfold Pool.step at hs
    rw [if_pos h] at hs
    cases hs
  have hc : a.crash = none := by simpa using hcs
  refine ⟨hc, ?_⟩
  cases ev <;> first | (cases h1; done) | exact absurd rfl (h2 _ _ _) | skip
  case scheduler i w =>
    simp only [Pool.step, if_neg hcs] at hs
    simp only [canon, enter]
    split at hs
    · rename_i hi
      split at hs
      · rename_i hw
        have hw : w = none := by simpa using hw
        exact ⟨.anyScheduled .ready, by rw [hi], hw, rfl⟩
      · cases hs
    · rename_i e n hi
      refine ⟨.move e n, by rw [hi], rfl, ?_⟩
      by_cases he : e ∈ a.scheduled
      · simp only [Pool.moveTimed, if_pos he] at hs
        cases hw : Pool.wakeOne w a.workers with
        | none => simp only [hw] at hs; cases hs
        | some ws => exact ⟨ws, hw⟩
      · simp only [Pool.moveTimed, if_neg he] at hs
        simp at hs
        rw [← hs] at hc'
        cases hc'
    · cases hs
  all_goals simp only [Pool.step, if_neg hcs] at hs; simp only [canon, enter]
  case worker i =>
    split at hs
    · rename_i hi; exact ⟨_, by rw [hi], trivial⟩
    · rename_i t hi; exact ⟨_, by rw [hi], trivial⟩
    · cases hs
  all_goals
    split at hs
    · rename_i hi; exact ⟨_, by rw [if_pos hi], trivial⟩
    · cases hs

theorem step_crash {ev : Event} {a a' : Pool.State} (hs : Pool.step a ev = some a') : a.crash = none := by
  unfold Pool.step at hs
  split at hs
  · cases hs
  · rename_i h; simpa using h

/-- Every execution whose sections are executed at once is one of the pool. -/
theorem of_explains {n : Nat} {l : List Item} {s : Pool.State} (h : Explains n l s) (hc : s.crash = none) :
    Reachable n ⟨s, none, l⟩ := by
  induction h with
  | init => exact .init
  | outside ev _ ho hs ih =>
    have hc0 := step_crash hs
    exact .step (.outside ev) (ih hc0) (by simp [step, hc0, ho, hs])
  | section' ev _ ho hr hs ih =>
    obtain ⟨hc0, pc, he, ht⟩ := enter_of_step ho hr hs hc
    obtain ⟨hrel, hcm⟩ := enter_rel he
    obtain ⟨ws, hws⟩ := run_section _ hc0 hs hc hc0 (enter_valid he) hrel hcm ht
    exact reachable_run (.step (.enter (.event (canon ev))) (ih hc0) (by simp [step, hc0, he])) _ hws
  | get g c _ _ hcc ih =>
    have ih := ih hc
    cases g
    case waitingWorkersSize =>
      exact reachable_run ih [.enter (.get .waitingWorkersSize c), .go none, .go none, .go none]
        (by simp [run, step, hc, enter, hcc, go, goGet, item, value, Pool.waitingWorkersSize])
    case tasksSize =>
      exact reachable_run ih [.enter (.get .tasksSize c), .go none, .go none, .go none]
        (by simp [run, step, hc, enter, hcc, go, goGet, item, value, Pool.tasksSize])
    case workersSize =>
      exact reachable_run ih [.enter (.get .workersSize c), .go none, .go none]
        (by simp [run, step, hc, enter, hcc, go, goGet, item, value, Pool.workersSize])
    case targetWorkersSize =>
      exact reachable_run ih [.enter (.get .targetWorkersSize c), .go none, .go none]
        (by simp [run, step, hc, enter, hcc, go, goGet, item, value, Pool.targetWorkersSize])
    case activeWorkersSize =>
      exact reachable_run ih [.enter (.get .activeWorkersSize c), .go none, .go none]
        (by simp [run, step, hc, enter, hcc, go, goGet, item, value, Pool.activeWorkersSize])
    case activeTasksSize =>
      exact reachable_run ih [.enter (.get .activeTasksSize c), .go none, .go none]
        (by simp [run, step, hc, enter, hcc, go, goGet, item, value, Pool.activeWorkersSize])
    case waitingTasksSize =>
      exact reachable_run ih [.enter (.get .waitingTasksSize c), .go none, .go none]
        (by simp [run, step, hc, enter, hcc, go, goGet, item, value, Pool.waitingTasksSize])
    case scheduledTasksSize =>
      exact reachable_run ih [.enter (.get .scheduledTasksSize c), .go none, .go none]
        (by simp [run, step, hc, enter, hcc, go, goGet, item, value, Pool.scheduledTasksSize])
    case onStop =>
      exact reachable_run ih [.enter (.get .onStop c), .go none, .go none]
        (by simp [run, step, hc, enter, hcc, go, goGet, item, value])

end Pluto.Proofs.PoolSteps
