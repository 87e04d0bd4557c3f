import Verif.Proofs.PoolSteps

/-! # A thread pool, statement by statement: the statements of the critical sections -/

namespace Pluto.Proofs.PoolSteps
open Pluto Pluto.PoolSteps Pluto.Spec.PoolSteps
open Pluto.Pool (Event Entry Timed Phase SPhase Wait Action Crash Stage)

abbrev same : Kind := .notified false false

theorem coreRel_same (a : Pool.State) : coreRel same a a := rfl

theorem core_eq {a core : Pool.State} (h : coreRel same a core) : core = a := h

/-! ## What a section has done so far -/

def decActive : Phase → Int → Int
  | .finished _, x => x - 1
  | _, x => x

def startedP (P : Prot) (p : Phase) : Prot := { P with active := decActive p P.active }

def takenP (P : Prot) (p : Phase) (e : Entry) : Prot := { startedP P p with queue := P.queue.tail, started := P.started ++ [e] }

def emplacedP (P : Prot) (prio : Int) (c : Option Nat) : Prot :=
  { P with
    queue := Pool.insertEntry ⟨prio, P.nextTask, P.nextSeq, c.isSome⟩ P.queue
    nextSeq := P.nextSeq + 1
    nextTask := P.nextTask + 1 }

def targetP (P : Prot) (n : Nat) : Prot := { P with target := n, maxTarget := max P.maxTarget n }

def timedP (P : Prot) (time prio : Int) : Prot :=
  { P with scheduled := Pool.insertTimed ⟨time, prio, P.nextTask⟩ P.scheduled, nextTask := P.nextTask + 1 }

def enqueuedP (P : Prot) (e : Timed) : Prot :=
  { P with queue := Pool.insertEntry ⟨e.prio, e.task, P.nextSeq, false⟩ P.queue, nextSeq := P.nextSeq + 1 }

def movedP (P : Prot) (e : Timed) : Prot :=
  { enqueuedP P e with scheduled := P.scheduled.erase e, moved := P.moved ++ [e] }

def passP (P : Prot) : SPhase → Prot
  | .timedOut e _ => movedP P e
  | _ => P

/-- How a worker came into its section. -/
def workFrom : Pc → Option Phase
  | .dec p | .size p | .working p | .complete p | .anyLeft p | .anyTask p | .idle p | .notifyComplete p | .block p
  | .take p | .erase p _ | .emptied p _ | .notifyWorking p _ | .inc p _ | .start p _ | .leaving p | .eraseSelf p
  | .exit p => some p
  | _ => none

def passFrom : Pc → Option SPhase
  | .anyScheduled p | .scheduling p | .begin p | .doze p _ | .ending p | .detach p | .exitScheduler p => some p
  | _ => none

def schedFrom : Pc → Option SPhase
  | .move e n | .unschedule e n | .notifyWorker e n => some (.timedOut e n)
  | pc => passFrom pc

def effWorker (P : Prot) : Pc → Prot
  | .dec _ | .leave => P
  | .emptied p e | .notifyWorking p e | .inc p e => takenP P p e
  | .start p e => { takenP P p e with active := decActive p P.active + 1 }
  | pc => match workFrom pc with
    | some p => startedP P p
    | none => P

def effScheduler (P : Prot) : Pc → Prot
  | .unschedule e _ => enqueuedP P e
  | .notifyWorker e _ => movedP P e
  | pc => match passFrom pc with
    | some q => passP P q
    | none => P

def effTarget (P : Prot) (n : Nat) : Pc → Prot
  | .more | .spawn | .fewer | .leaveNotify => targetP P n
  | .leave => if P.stopping then P else targetP P n
  | _ => P

def eff : Sec → Pc → Prot → Prot
  | .event (.runAsync prio c), .leave, P => emplacedP P prio c
  | .event (.runSync prio c), .leaveSync _, P => emplacedP P prio c
  | .event (.setTarget n _), pc, P => effTarget P n pc
  | .event (.setOnStop x _), .leave, P => { P with onStop := x }
  | .event .stop, .leave, P => { P with stopping := true, stopSeq := P.nextSeq }
  | .event (.runAt time prio _), .joinable, P => timedP P time prio
  | .event (.worker _), pc, P => effWorker P pc
  | .event (.scheduler _ _), pc, P => effScheduler P pc
  | _, _, P => P

def kindTarget (P : Prot) (n : Nat) : Pc → Kind
  | .more => .spawned fun m len => m ≤ n - len
  | .spawn => .spawned fun m len => m < n - len
  | .fewer | .leaveNotify => .spawned fun m len => m = n - len
  | .leave => if P.stopping then same else .spawned fun m len => m = n - len
  | _ => same

def kindAt (P : Prot) (time : Int) : Pc → Kind
  | .leaveCreate => .create
  | .first => if P.scheduled.head?.map (·.time) = some time then .wake else same
  | .leaveWake => .wake
  | _ => same

def kindWorker (P : Prot) : Pc → Kind
  | .block p => .notified false (decide (decActive p P.active = 0))
  | .inc _ _ | .start _ _ => .notified (decide (P.queue.tail = [])) false
  | _ => same

def passKind : SPhase → Kind
  | .timedOut _ _ => .woken
  | _ => same

def kindScheduler (i : Nat) : Pc → Kind
  | .leaveEnded => .ended i
  | pc => match passFrom pc with
    | some q => passKind q
    | none => same

def kind : Sec → Pc → Prot → Kind
  | .event (.setTarget n _), pc, P => kindTarget P n pc
  | .event (.runAt time _ _), pc, P => kindAt P time pc
  | .event (.worker _), pc, P => kindWorker P pc
  | .event (.scheduler i _), pc, _ => kindScheduler i pc
  | _, _, _ => same

/-! ## What its tests have found -/

def WorkCond (P : Prot) (len : Nat) : Prop :=
  len ≤ P.target ∧ (P.stopping = false ∨ (P.onStop = .completeTasks ∧ P.queue ≠ []))

def factWorker (P : Prot) (len : Nat) : Pc → Prop
  | .dec p => ∃ t, p = .finished t
  | .working _ => len ≤ P.target
  | .complete _ => len ≤ P.target ∧ P.stopping = true
  | .anyLeft _ => len ≤ P.target ∧ P.stopping = true ∧ P.onStop = .completeTasks
  | .anyTask _ => WorkCond P len
  | .idle _ => WorkCond P len ∧ P.queue = []
  | .notifyComplete p => WorkCond P len ∧ P.queue = [] ∧ decActive p P.active = 0
  | .block _ => WorkCond P len ∧ P.queue = []
  | .take _ => WorkCond P len ∧ P.queue ≠ []
  | .erase _ e | .emptied _ e | .inc _ e | .start _ e => WorkCond P len ∧ P.queue.head? = some e
  | .notifyWorking _ e => WorkCond P len ∧ P.queue.head? = some e ∧ P.queue.tail = []
  | .leaving _ => ¬ WorkCond P len
  | .eraseSelf _ => ¬ WorkCond P len ∧ P.stopping = false
  | .exit _ => ¬ WorkCond P len ∧ P.stopping = true
  | _ => True

def inTime (P : Prot) : SPhase → Prop
  | .timedOut e _ => e ∈ P.scheduled
  | _ => True

def factScheduler (P : Prot) : Pc → Prop
  | .unschedule e _ | .notifyWorker e _ => e ∈ P.scheduled
  | .anyScheduled q => inTime P q
  | .scheduling q => inTime P q ∧ (passP P q).scheduled ≠ []
  | .begin q => inTime P q ∧ (passP P q).scheduled ≠ [] ∧ P.stopping = false
  | .doze q e => inTime P q ∧ (passP P q).scheduled.head? = some e ∧ P.stopping = false
  | .ending q => inTime P q ∧ ((passP P q).scheduled = [] ∨ P.stopping = true)
  | .detach q => inTime P q ∧ (passP P q).scheduled = [] ∧ P.stopping = false
  | .exitScheduler q => inTime P q ∧ P.stopping = true
  | _ => True

def factTarget (P : Prot) (n len : Nat) : Pc → Prop
  | .target | .more | .spawn | .fewer => P.stopping = false
  | .leaveNotify => P.stopping = false ∧ n < len
  | .leave => P.stopping = false → ¬ n < len
  | _ => True

def valueP (P : Prot) (len : Nat) : Getter → Result
  | .workersSize => .size len
  | .targetWorkersSize => .size P.target
  | .activeWorkersSize | .activeTasksSize => .size (Pool.size P.active)
  | .waitingWorkersSize => .size (Pool.size (len - P.active))
  | .tasksSize => .size (Pool.size (P.queue.length + P.active))
  | .waitingTasksSize => .size P.queue.length
  | .scheduledTasksSize => .size P.scheduled.length
  | .onStop => .action P.onStop

def factGet (P : Prot) (len : Nat) : Getter → Pc → Prop
  | .waitingWorkersSize, .read2 x => x = len
  | .tasksSize, .read2 x => x = P.queue.length
  | g, .result r => r = valueP P len g
  | _, _ => True

def fact : Sec → Pc → Prot → Nat → Prop
  | .event (.runSync _ _), .leaveSync t, P, _ => t = P.nextTask
  | .event (.setTarget n _), pc, P, len => factTarget P n len pc
  | .event (.waitNone _), .leave, P, _ => P.queue = []
  | .event (.waitNone _), .sleep, P, _ => P.queue ≠ []
  | .event (.waitAll _), .noActive, P, _ => P.queue = []
  | .event (.waitAll _), .leave, P, _ => P.queue = [] ∧ P.active = 0
  | .event (.waitAll _), .sleep, P, _ => P.queue ≠ [] ∨ P.active ≠ 0
  | .event (.worker _), pc, P, len => factWorker P len pc
  | .event (.scheduler _ _), pc, P, _ => factScheduler P pc
  | .get g _, pc, P, len => factGet P len g pc
  | _, _, _, _ => True

/-- The thread that executes the section. -/
def holder : Sec → Pc → Pool.State → Prop
  | .event (.runAsync _ c), _, a | .event (.runSync _ c), _, a | .event (.runAt _ _ c), _, a | .event (.setTarget _ c), _, a
  | .event (.setOnStop _ c), _, a | .get _ c, _, a => Pool.canCall a c = true
  | .event (.worker i), pc, a => match workFrom pc with
    | some p => a.workers[i]? = some p ∧ (p = .ready ∨ ∃ t, p = .finished t)
    | none => True
  | .event (.scheduler i w), pc, a => w = none ∧ match schedFrom pc with
    | some q => a.schedulers[i]? = some q ∧ (q = .ready ∨ ∃ e n, q = .timedOut e n)
    | none => True
  | .event (.waitNone i), _, a => a.waitNone[i]? = some .checking
  | .event (.waitAll i), _, a => a.waitAll[i]? = some .checking
  | .event .stop, _, a => a.stage = .alive
  | _, _, _ => False

/-- In the middle of a section: `b` is the pool, `a` the one whose sections are executed at once. -/
def Rel (sec : Sec) (pc : Pc) (a b : Pool.State) : Prop :=
  ∃ core, coreRel (kind sec pc (prot a)) a core ∧ b = load core (eff sec pc (prot a)) ∧
    fact sec pc (prot a) a.workers.length ∧ holder sec pc a

/-- Whether the other pool has already executed the section. -/
def committed : Sec → Pc → Bool
  | .event (.runAt _ _ _), .first | .event (.runAt _ _ _), .leaveCreate | .event (.runAt _ _ _), .leaveWake
  | .event (.runAt _ _ _), .leave => true
  | .event (.worker _), .leave => true
  | .event (.scheduler _ _), .leaveEnded => true
  | _, _ => false

theorem load_prot (a : Pool.State) : load a (prot a) = a := rfl

/-! ## What needs no mutex -/

theorem canCall_out {a a' : Pool.State} {ev : Event} (h : Out a ev a') (c : Option Nat) (hc : Pool.canCall a c = true)
    (hev : ∀ i, c = some i → ev ≠ .taskReturns i) : Pool.canCall a' c = true := by
  cases c with
  | none => simpa [Pool.canCall] using (out_prot h).2.2 (by simpa [Pool.canCall] using hc)
  | some i =>
    simp only [Pool.canCall] at hc ⊢
    split at hc
    · rename_i t ht
      rw [out_workers h i _ ht (by simp) (hev i rfl)]
    · cases hc

theorem not_returns {a a' : Pool.State} {ev : Event} (h : Out a ev a') (i : Nat) (p : Phase) (hi : a.workers[i]? = some p)
    (hp : p = .ready ∨ ∃ t, p = .finished t) : ev ≠ .taskReturns i := by
  rintro rfl
  cases h
  rename_i t ht
  rw [hi] at ht
  rcases hp with rfl | ⟨t', rfl⟩ <;> simp at ht

theorem holder_out {a a' : Pool.State} {ev : Event} {sec : Sec} {pc : Pc} (h : Out a ev a')
    (hev : hinders sec ev = false) (hh : holder sec pc a) : holder sec pc a' := by
  have hcall : ∀ c, callerOf sec = c → Pool.canCall a c = true → Pool.canCall a' c = true := by
    intro c hs hc
    refine canCall_out h c hc fun i hi => ?_
    rintro rfl
    simp [hinders, hs, hi] at hev
  cases sec with
  | get g c => exact hcall c rfl hh
  | event e =>
    cases e <;> first | exact hcall _ rfl hh | exact hh.elim | skip
    case worker i =>
      simp only [holder] at hh ⊢
      split
      · rename_i p hp
        rw [hp] at hh
        refine ⟨out_workers h i p hh.1 ?_ (not_returns h i p hh.1 hh.2), hh.2⟩
        rcases hh.2 with rfl | ⟨t, rfl⟩ <;> simp
      · trivial
    case scheduler i w =>
      simp only [holder] at hh ⊢
      refine ⟨hh.1, ?_⟩
      split
      · rename_i q hq
        rw [hq] at hh
        refine ⟨out_schedulers h i q hh.2.1 ?_, hh.2.2⟩
        rcases hh.2.2 with rfl | ⟨e, n, rfl⟩ <;> rfl
      · trivial
    case waitNone i => exact (out_waits h i).1 hh
    case waitAll i => exact (out_waits h i).2 hh
    case stop => exact (out_prot h).2.2 hh

/-- What needs no mutex can happen in the other pool as well. -/
theorem rel_out {sec : Sec} {pc : Pc} {a b b' : Pool.State} {ev : Event} (hr : Rel sec pc a b) (hev : hinders sec ev = false)
    (h : Out b ev b') : ∃ ev' a', Out a ev' a' ∧ b'.crash = a'.crash ∧ Rel sec pc a' b' := by
  obtain ⟨core, hk, rfl, hf, hh⟩ := hr
  obtain ⟨core', hc, rfl⟩ := out_load h
  obtain ⟨ev', a', he, h', hk'⟩ := follow hk hc
  have hp := out_prot h'
  refine ⟨ev', a', h', (coreRel_crash hk' : core'.crash = _), core', ?_, ?_, ?_, ?_⟩
  · rw [hp.1]; exact hk'
  · rw [hp.1]
  · rw [hp.1, hp.2.1]; exact hf
  · refine holder_out h' ?_ hh
    rcases he with rfl | ⟨w, rfl⟩
    · exact hev
    · rfl

/-! ## The statements -/

/-- What a statement in the middle of a section is in the other pool. -/
inductive Outcome (sec : Sec) (pc : Pc) (a b' : Pool.State) : Option Pc → Prop where
  /-- nothing -/
  | stutter (pc' : Pc) (h1 : b'.crash = a.crash) (h2 : committed sec pc' = committed sec pc) (h3 : Rel sec pc' a b') :
      Outcome sec pc a b' (some pc')
  /-- the whole section, and the mutex is released -/
  | finish (ev ev' : Event) (h1 : sec = .event ev) (h2 : canon ev' = ev) (h3 : isOutside ev' = false)
      (h4 : ∀ d p c, ev' ≠ .runAfter d p c) (h5 : committed sec pc = false) (h6 : Pool.step a ev' = some b') :
      Outcome sec pc a b' none
  /-- the whole section, and the mutex is not yet released -/
  | commit (pc' : Pc) (ev ev' : Event) (a' : Pool.State) (h1 : sec = .event ev) (h2 : canon ev' = ev)
      (h3 : isOutside ev' = false) (h4 : ∀ d p c, ev' ≠ .runAfter d p c) (h5 : committed sec pc = false)
      (h6 : Pool.step a ev' = some a') (h7 : b'.crash = a'.crash)
      (h8 : a'.crash = none → committed sec pc' = true ∧ Rel sec pc' a' b') (h9 : a'.workers = b'.workers) : Outcome sec pc a b' (some pc')
  /-- nothing, but the mutex is released -/
  | release (ev : Event) (h1 : sec = .event ev) (h2 : committed sec pc = true) (h3 : b' = a) : Outcome sec pc a b' none
  /-- a function without an effect returns -/
  | got (g : Getter) (c : Option Nat) (h1 : sec = .get g c) (h2 : pc = .result (value a g)) (h3 : b' = a)
      (h4 : Pool.canCall a c = true) : Outcome sec pc a b' none

theorem value_eq (a : Pool.State) (g : Getter) : value a g = valueP (prot a) a.workers.length g := by cases g <;> rfl

theorem go_get {a b b' : Pool.State} {g : Getter} {c w : Option Nat} {pc : Pc} {x : Option Pc} (hr : Rel (.get g c) pc a b)
    (h : go b w (.get g c) pc = some (b', x)) : Outcome (.get g c) pc a b' x := by
  obtain ⟨core, hk, rfl, hf, hh⟩ := hr
  cases hk
  simp only [go] at h
  cases pc <;> cases g <;> simp only [goGet] at h <;> first | (cases h; done) | skip
  all_goals cases h
  all_goals simp only [fact, factGet] at hf
  all_goals first
    | exact .got _ c rfl (by rw [hf, value_eq]) rfl hh
    | exact .stutter _ rfl rfl ⟨a, rfl, rfl, by simp [fact, factGet, hf, valueP, load, eff, prot], hh⟩

theorem go_async {a b b' : Pool.State} {prio : Int} {c w : Option Nat} {pc : Pc} {x : Option Pc} (hc : a.crash = none)
    (hr : Rel (.event (.runAsync prio c)) pc a b) (h : go b w (.event (.runAsync prio c)) pc = some (b', x)) :
    Outcome (.event (.runAsync prio c)) pc a b' x := by
  obtain ⟨core, hk, hb, hf, hh⟩ := hr
  rw [core_eq hk] at hb
  subst hb
  have hcs : ¬ a.crash.isSome = true := by rw [hc]; simp
  cases pc <;> simp only [go] at h <;> first | (cases h; done) | skip
  · cases h
    exact .stutter _ rfl rfl ⟨a, rfl, rfl, trivial, hh⟩
  · cases h
    exact .finish _ (.runAsync prio c) rfl rfl rfl (by simp) rfl (by
      simp only [Pool.step, if_neg hcs, if_pos (show Pool.canCall a c = true from hh)]
      rfl)

theorem go_sync {a b b' : Pool.State} {prio : Int} {c w : Option Nat} {pc : Pc} {x : Option Pc} (hc : a.crash = none)
    (hr : Rel (.event (.runSync prio c)) pc a b) (h : go b w (.event (.runSync prio c)) pc = some (b', x)) :
    Outcome (.event (.runSync prio c)) pc a b' x := by
  obtain ⟨core, hk, hb, hf, hh⟩ := hr
  rw [core_eq hk] at hb
  subst hb
  have hcs : ¬ a.crash.isSome = true := by rw [hc]; simp
  cases pc <;> simp only [go] at h <;> first | (cases h; done) | skip
  · cases h
    exact .stutter _ rfl rfl ⟨a, rfl, rfl, rfl, hh⟩
  · cases h
    have hf : _ = a.nextTask := hf
    subst hf
    exact .finish _ (.runSync prio c) rfl rfl rfl (by simp) rfl (by
      simp only [Pool.step, if_neg hcs, if_pos (show Pool.canCall a c = true from hh)]
      rfl)

theorem go_onStop {a b b' : Pool.State} {y : Action} {c w : Option Nat} {pc : Pc} {x : Option Pc} (hc : a.crash = none)
    (hr : Rel (.event (.setOnStop y c)) pc a b) (h : go b w (.event (.setOnStop y c)) pc = some (b', x)) :
    Outcome (.event (.setOnStop y c)) pc a b' x := by
  obtain ⟨core, hk, hb, hf, hh⟩ := hr
  rw [core_eq hk] at hb
  subst hb
  have hcs : ¬ a.crash.isSome = true := by rw [hc]; simp
  cases pc <;> simp only [go] at h <;> first | (cases h; done) | skip
  · cases h
    exact .finish _ (.setOnStop y c) rfl rfl rfl (by simp) rfl (by
      simp only [Pool.step, if_neg hcs, if_pos (show Pool.canCall a c = true from hh)]
      rfl)
  · cases h
    exact .stutter _ rfl rfl ⟨a, rfl, rfl, trivial, hh⟩

theorem go_stop {a b b' : Pool.State} {w : Option Nat} {pc : Pc} {x : Option Pc} (hc : a.crash = none)
    (hr : Rel (.event .stop) pc a b) (h : go b w (.event .stop) pc = some (b', x)) : Outcome (.event .stop) pc a b' x := by
  obtain ⟨core, hk, hb, hf, hh⟩ := hr
  rw [core_eq hk] at hb
  subst hb
  have hcs : ¬ a.crash.isSome = true := by rw [hc]; simp
  cases pc <;> simp only [go] at h <;> first | (cases h; done) | skip
  · cases h
    exact .finish _ .stop rfl rfl rfl (by simp) rfl (by
      simp only [Pool.step, if_neg hcs, if_pos (show a.stage = .alive from hh)]
      rfl)
  · cases h
    exact .stutter _ rfl rfl ⟨a, rfl, rfl, trivial, hh⟩

theorem go_waitNone {a b b' : Pool.State} {i : Nat} {w : Option Nat} {pc : Pc} {x : Option Pc} (hc : a.crash = none)
    (hr : Rel (.event (.waitNone i)) pc a b) (h : go b w (.event (.waitNone i)) pc = some (b', x)) :
    Outcome (.event (.waitNone i)) pc a b' x := by
  obtain ⟨core, hk, hb, hf, hh⟩ := hr
  rw [core_eq hk] at hb
  subst hb
  have hcs : ¬ a.crash.isSome = true := by rw [hc]; simp
  have hh' : a.waitNone[i]? = some .checking := hh
  cases pc <;> simp only [go] at h <;> first | (cases h; done) | skip
  · cases h
    have hf : a.queue = [] := hf
    exact .finish _ (.waitNone i) rfl rfl rfl (by simp) rfl (by
      simp only [Pool.step, if_neg hcs, if_pos hh', if_neg (show ¬ a.queue ≠ [] from fun h => h hf)]
      rfl)
  · cases h
    split
    · rename_i hq; exact .stutter _ rfl rfl ⟨a, rfl, rfl, hq, hh⟩
    · rename_i hq; exact .stutter _ rfl rfl ⟨a, rfl, rfl, hq, hh⟩
  · cases h
    have hf : a.queue ≠ [] := hf
    exact .finish _ (.waitNone i) rfl rfl rfl (by simp) rfl (by
      simp only [Pool.step, if_neg hcs, if_pos hh', if_pos hf]
      rfl)

theorem go_waitAll {a b b' : Pool.State} {i : Nat} {w : Option Nat} {pc : Pc} {x : Option Pc} (hc : a.crash = none)
    (hr : Rel (.event (.waitAll i)) pc a b) (h : go b w (.event (.waitAll i)) pc = some (b', x)) :
    Outcome (.event (.waitAll i)) pc a b' x := by
  obtain ⟨core, hk, hb, hf, hh⟩ := hr
  rw [core_eq hk] at hb
  subst hb
  have hcs : ¬ a.crash.isSome = true := by rw [hc]; simp
  have hh' : a.waitAll[i]? = some .checking := hh
  cases pc <;> simp only [go] at h <;> first | (cases h; done) | skip
  · cases h
    have hf : a.queue = [] ∧ a.active = 0 := hf
    exact .finish _ (.waitAll i) rfl rfl rfl (by simp) rfl (by
      simp only [Pool.step, if_neg hcs, if_pos hh', 
        if_neg (show ¬ (a.queue ≠ [] ∨ a.active ≠ 0) from fun h => h.elim (fun h => h hf.1) (fun h => h hf.2))]
      rfl)
  · cases h
    split
    · rename_i hq; exact .stutter _ rfl rfl ⟨a, rfl, rfl, hq, hh⟩
    · rename_i hq; exact .stutter _ rfl rfl ⟨a, rfl, rfl, .inl hq, hh⟩
  · cases h
    have hf : a.queue = [] := hf
    split
    · rename_i hq; exact .stutter _ rfl rfl ⟨a, rfl, rfl, ⟨hf, hq⟩, hh⟩
    · rename_i hq; exact .stutter _ rfl rfl ⟨a, rfl, rfl, .inr hq, hh⟩
  · cases h
    have hf : a.queue ≠ [] ∨ a.active ≠ 0 := hf
    exact .finish _ (.waitAll i) rfl rfl rfl (by simp) rfl (by
      simp only [Pool.step, if_neg hcs, if_pos hh', if_pos hf]
      rfl)

theorem go_target {a b b' : Pool.State} {n : Nat} {c w : Option Nat} {pc : Pc} {x : Option Pc} (hc : a.crash = none)
    (hr : Rel (.event (.setTarget n c)) pc a b) (h : go b w (.event (.setTarget n c)) pc = some (b', x)) :
    Outcome (.event (.setTarget n c)) pc a b' x := by
  obtain ⟨core, hk, hb, hf, hh⟩ := hr
  have hcs : ¬ a.crash.isSome = true := by rw [hc]; simp
  have hcall : Pool.canCall a c = true := hh
  subst hb
  cases pc <;> simp only [go, goTarget] at h <;> first | (cases h; done) | skip
  case isStopping =>
    rw [core_eq hk] at h
    cases h
    split
    · rename_i hs
      have hs : a.stopping = true := hs
      exact .stutter _ rfl rfl ⟨a, by simp [kind, kindTarget, prot, hs]; rfl, by simp [eff, effTarget, prot, hs],
        by simp [fact, factTarget, prot, hs], hh⟩
    · rename_i hs
      have hs : ¬ a.stopping = true := hs
      have hs : a.stopping = false := by simpa using hs
      exact .stutter _ rfl rfl ⟨a, rfl, rfl, hs, hh⟩
  case target =>
    rw [core_eq hk] at h
    cases h
    exact .stutter _ rfl rfl ⟨a, ⟨0, Nat.zero_le _, by simp⟩, rfl, hf, hh⟩
  case more =>
    obtain ⟨m, hm, hk⟩ := hk
    subst hk
    have hm : m ≤ n - a.workers.length := hm
    cases h
    split
    · rename_i hl
      have hl : (a.workers ++ List.replicate m Phase.ready).length < n := hl
      simp at hl
      exact .stutter _ rfl rfl ⟨_, ⟨m, by omega, rfl⟩, rfl, hf, hh⟩
    · rename_i hl
      have hl : ¬ (a.workers ++ List.replicate m Phase.ready).length < n := hl
      simp at hl
      exact .stutter _ rfl rfl ⟨_, ⟨m, by omega, rfl⟩, rfl, hf, hh⟩
  case spawn =>
    obtain ⟨m, hm, hk⟩ := hk
    subst hk
    have hm : m < n - a.workers.length := hm
    cases h
    refine .stutter _ rfl rfl ⟨{ a with workers := a.workers ++ List.replicate (m + 1) .ready }, ⟨m + 1, hm, rfl⟩, ?_, hf, hh⟩
    simp [load, eff, effTarget, List.replicate_succ']
  case fewer =>
    obtain ⟨m, hm, hk⟩ := hk
    subst hk
    have hm : m = n - a.workers.length := hm
    cases h
    split
    · rename_i hl
      have hl : n < (a.workers ++ List.replicate m Phase.ready).length := hl
      simp at hl
      exact .stutter _ rfl rfl ⟨_, ⟨m, hm, rfl⟩, rfl, ⟨hf, by omega⟩, hh⟩
    · rename_i hl
      have hl : ¬ n < (a.workers ++ List.replicate m Phase.ready).length := hl
      simp at hl
      have hs : (prot a).stopping = false := hf
      exact .stutter _ rfl rfl ⟨_, by simp only [kind, kindTarget, hs]; exact ⟨m, hm, rfl⟩,
        by simp [eff, effTarget, hs], fun _ => by omega, hh⟩
  case leaveNotify =>
    obtain ⟨m, hm, hk⟩ := hk
    have hm : m = n - a.workers.length := hm
    subst hk hm
    cases h
    have hf : a.stopping = false ∧ n < a.workers.length := hf
    refine .finish _ (.setTarget n c) rfl rfl rfl (by simp) rfl ?_
    simp only [Pool.step, if_neg hcs, if_pos hcall, if_pos hf.1]
    rw [if_pos (by simp; omega)]
    rfl
  case leave =>
    have hf : a.stopping = false → ¬ n < a.workers.length := hf
    cases hs : a.stopping with
    | true =>
      have hk : coreRel same a core := by simpa [kind, kindTarget, prot, hs] using hk
      rw [core_eq hk] at h
      cases h
      refine .finish _ (.setTarget n c) rfl rfl rfl (by simp) rfl ?_
      simp only [Pool.step, if_neg hcs, if_pos hcall, if_neg (show ¬ a.stopping = false by simp [hs])]
      simp only [eff, effTarget, prot, hs, if_true]
      rw [← hs]; rfl
    | false =>
      have hk : coreRel (.spawned fun m len => m = n - len) a core := by simpa [kind, kindTarget, prot, hs] using hk
      obtain ⟨m, hm, hk⟩ := hk
      subst hk hm
      cases h
      refine .finish _ (.setTarget n c) rfl rfl rfl (by simp) rfl ?_
      have := hf hs
      simp only [Pool.step, if_neg hcs, if_pos hcall, if_pos hs]
      rw [if_neg (by simp; omega)]
      simp only [eff, effTarget, prot, hs, Bool.false_eq_true, if_false]
      rw [← hs]; rfl

theorem go_at {a b b' : Pool.State} {time prio : Int} {c w : Option Nat} {pc : Pc} {x : Option Pc} (hc : a.crash = none)
    (hr : Rel (.event (.runAt time prio c)) pc a b) (h : go b w (.event (.runAt time prio c)) pc = some (b', x)) :
    Outcome (.event (.runAt time prio c)) pc a b' x := by
  obtain ⟨core, hk, hb, hf, hh⟩ := hr
  have hcs : ¬ a.crash.isSome = true := by rw [hc]; simp
  have hcall : Pool.canCall a c = true := hh
  subst hb
  cases pc <;> simp only [go, goAt] at h <;> first | (cases h; done) | skip
  case schedule =>
    rw [core_eq hk] at h
    cases h
    exact .stutter _ rfl rfl ⟨a, rfl, rfl, trivial, hh⟩
  case joinable =>
    rw [core_eq hk] at h
    cases h
    have hstep : Pool.step a (.runAt time prio c) = some (Pool.runAt a time prio) := by
      simp only [Pool.step, if_neg hcs, if_pos hcall]
    have hcall' : Pool.canCall (Pool.runAt a time prio) c = true := by
      simp only [Pool.runAt]
      split
      · cases c <;> exact hh
      · split <;> cases c <;> exact hh
    split
    · rename_i hs
      have hs : a.scheduler.isNone = true := hs
      have hrun : Pool.runAt a time prio = { load a (timedP (prot a) time prio) with creating := a.creating + 1 } := by
        unfold Pool.runAt; rw [if_pos hs]; rfl
      refine .commit _ _ (.runAt time prio c) _ rfl rfl rfl (by simp) rfl hstep (by rw [hrun]; rfl) (fun _ => ⟨rfl, ?_⟩)
          (by rw [hrun]; rfl)
      refine ⟨load a (timedP (prot a) time prio), by rw [hrun]; rfl, by rw [hrun]; rfl, trivial, hcall'⟩
    · rename_i hs
      have hs : ¬ a.scheduler.isNone = true := hs
      by_cases ht : (timedP (prot a) time prio).scheduled.head?.map (·.time) = some time
      · have hrun : Pool.runAt a time prio =
            { load a (timedP (prot a) time prio) with pendingSched := a.pendingSched + 1 } := by
          unfold Pool.runAt; rw [if_neg hs, if_pos (by exact ht)]; rfl
        refine .commit _ _ (.runAt time prio c) _ rfl rfl rfl (by simp) rfl hstep (by rw [hrun]; rfl) (fun _ => ⟨rfl, ?_⟩)
          (by rw [hrun]; rfl)
        refine ⟨load a (timedP (prot a) time prio), ?_, by rw [hrun]; rfl, trivial, hcall'⟩
        rw [hrun]
        simp only [kind, kindAt]
        rw [if_pos (by exact ht)]
        rfl
      · have hrun : Pool.runAt a time prio = load a (timedP (prot a) time prio) := by
          unfold Pool.runAt; rw [if_neg hs, if_neg (by exact ht)]; rfl
        refine .commit _ _ (.runAt time prio c) _ rfl rfl rfl (by simp) rfl hstep (by rw [hrun]; rfl) (fun _ => ⟨rfl, ?_⟩)
          (by rw [hrun]; rfl)
        refine ⟨load a (timedP (prot a) time prio), ?_, by rw [hrun]; rfl, trivial, hcall'⟩
        rw [hrun]
        simp only [kind, kindAt]
        rw [if_neg (by exact ht)]
        rfl
  case first =>
    cases h
    split
    · rename_i hs
      simp only [kind, kindAt] at hk
      rw [if_pos (by exact hs)] at hk
      exact .stutter _ (coreRel_crash hk : core.crash = _) rfl ⟨core, hk, rfl, trivial, hh⟩
    · rename_i hs
      simp only [kind, kindAt] at hk
      rw [if_neg (by exact hs)] at hk
      exact .stutter _ (coreRel_crash hk : core.crash = _) rfl ⟨core, hk, rfl, trivial, hh⟩
  case leaveCreate =>
    cases h
    have hk : a = { core with creating := core.creating + 1 } := hk
    refine .release _ rfl rfl ?_
    rw [hk]; rfl
  case leaveWake =>
    cases h
    have hk : a = { core with pendingSched := core.pendingSched + 1 } := hk
    refine .release _ rfl rfl ?_
    rw [hk]; rfl
  case leave =>
    rw [core_eq hk] at h
    cases h
    exact .release _ rfl rfl rfl

theorem step_worker {a : Pool.State} {i : Nat} {p : Phase} (hc : a.crash = none) (hi : a.workers[i]? = some p)
    (hp : p = .ready ∨ ∃ t, p = .finished t) :
    Pool.step a (.worker i) = some (Pool.workerPass { a with active := decActive p a.active } i) := by
  have hcs : ¬ a.crash.isSome = true := by rw [hc]; simp
  simp only [Pool.step, if_neg hcs, hi]
  rcases hp with rfl | ⟨t, rfl⟩ <;> rfl

theorem go_worker {a b b' : Pool.State} {i : Nat} {w : Option Nat} {pc : Pc} {x : Option Pc} (hc : a.crash = none)
    (hr : Rel (.event (.worker i)) pc a b) (h : go b w (.event (.worker i)) pc = some (b', x)) :
    Outcome (.event (.worker i)) pc a b' x := by
  obtain ⟨core, hk, hb, hf, hh⟩ := hr
  subst hb
  cases pc <;> simp only [go, goWorker] at h <;> first | (cases h; done) | skip
  case leave =>
    rw [core_eq hk] at h
    cases h
    exact .release _ rfl rfl rfl
  case dec p =>
    rw [core_eq hk] at h
    cases h
    obtain ⟨t, rfl⟩ : ∃ t, p = .finished t := hf
    exact .stutter _ rfl rfl ⟨a, rfl, rfl, trivial, hh⟩
  case size p =>
    rw [core_eq hk] at h
    cases h
    split
    · rename_i hl; exact .stutter _ rfl rfl ⟨a, rfl, rfl, hl, hh⟩
    · rename_i hl; exact .stutter _ rfl rfl ⟨a, rfl, rfl, fun hw => hl hw.1, hh⟩
  case working p =>
    rw [core_eq hk] at h
    cases h
    split
    · rename_i hl; exact .stutter _ rfl rfl ⟨a, rfl, rfl, ⟨hf, hl⟩, hh⟩
    · rename_i hl
      have hl : ¬ a.stopping = true := hl
      have hl : a.stopping = false := by simpa using hl
      exact .stutter _ rfl rfl ⟨a, rfl, rfl, ⟨hf, .inl hl⟩, hh⟩
  case complete p =>
    rw [core_eq hk] at h
    cases h
    have hf : _ ∧ a.stopping = true := hf
    split
    · rename_i hl; exact .stutter _ rfl rfl ⟨a, rfl, rfl, ⟨hf.1, hf.2, hl⟩, hh⟩
    · rename_i hl
      refine .stutter _ rfl rfl ⟨a, rfl, rfl, fun hw => ?_, hh⟩
      rcases hw.2 with hw | hw
      · have hw : a.stopping = false := hw
        rw [hf.2] at hw; cases hw
      · exact hl hw.1
  case anyLeft p =>
    rw [core_eq hk] at h
    cases h
    have hf : _ ∧ a.stopping = true ∧ a.onStop = .completeTasks := hf
    split
    · rename_i hl
      refine .stutter _ rfl rfl ⟨a, rfl, rfl, fun hw => ?_, hh⟩
      rcases hw.2 with hw | hw
      · have hw : a.stopping = false := hw
        rw [hf.2.1] at hw; cases hw
      · exact hw.2 hl
    · rename_i hl; exact .stutter _ rfl rfl ⟨a, rfl, rfl, ⟨hf.1, .inr ⟨hf.2.2, hl⟩⟩, hh⟩
  case anyTask p =>
    rw [core_eq hk] at h
    cases h
    split
    · rename_i hl; exact .stutter _ rfl rfl ⟨a, rfl, rfl, ⟨hf, hl⟩, hh⟩
    · rename_i hl; exact .stutter _ rfl rfl ⟨a, rfl, rfl, ⟨hf, hl⟩, hh⟩
  case idle p =>
    rw [core_eq hk] at h
    cases h
    split
    · rename_i hl; exact .stutter _ rfl rfl ⟨a, rfl, rfl, ⟨hf.1, hf.2, hl⟩, hh⟩
    · rename_i hl
      have hl : ¬ decActive p a.active = 0 := hl
      exact .stutter _ rfl rfl ⟨a, by simp [kind, kindWorker, prot, hl]; rfl, rfl, hf, hh⟩
  case notifyComplete p =>
    rw [core_eq hk] at h
    cases h
    have hl : decActive p a.active = 0 := hf.2.2
    exact .stutter _ rfl rfl ⟨{ a with waitAll := Pool.wakeAll a.waitAll }, by simp [kind, kindWorker, prot, hl]; rfl, rfl,
      ⟨hf.1, hf.2.1⟩, hh⟩
  case block p =>
    have hq : a.queue = [] := hf.2
    have hw : a.workers.length ≤ a.target ∧ (a.stopping = false ∨ (a.onStop = .completeTasks ∧ a.queue ≠ [])) := hf.1
    cases h
    refine .finish _ (.worker i) rfl rfl rfl (by simp) rfl ?_
    rw [step_worker hc hh.1 hh.2, Pool.workerPass, if_pos hw]
    have hk : core = { a with waitNone := wakeIf false a.waitNone, waitAll := wakeIf (decide (decActive p a.active = 0)) a.waitAll } := hk
    rw [hk]
    simp only [hq]
    by_cases h0 : decActive p a.active = 0 <;>
      simp [load, eff, effWorker, workFrom, startedP, prot, wakeIf, h0, hq]
  case take p =>
    rw [core_eq hk] at h
    have hf : _ ∧ a.queue ≠ [] := hf
    split at h
    · rename_i e rest he
      cases h
      have he : a.queue = e :: rest := he
      exact .stutter _ rfl rfl ⟨a, rfl, rfl, ⟨hf.1, by show a.queue.head? = _; rw [he]; rfl⟩, hh⟩
    · cases h
  case erase p e =>
    rw [core_eq hk] at h
    cases h
    exact .stutter _ rfl rfl ⟨a, rfl, rfl, hf, hh⟩
  case emptied p e =>
    rw [core_eq hk] at h
    cases h
    split
    · rename_i hl; exact .stutter _ rfl rfl ⟨a, rfl, rfl, ⟨hf.1, hf.2, hl⟩, hh⟩
    · rename_i hl
      have hl : ¬ a.queue.tail = [] := hl
      exact .stutter _ rfl rfl ⟨a, by simp [coreRel, wakeIf, kind, kindWorker, prot, hl], rfl, hf, hh⟩
  case notifyWorking p e =>
    rw [core_eq hk] at h
    cases h
    have hl : a.queue.tail = [] := hf.2.2
    exact .stutter _ rfl rfl ⟨{ a with waitNone := Pool.wakeAll a.waitNone },
      by simp [coreRel, wakeIf, kind, kindWorker, prot, hl], rfl, ⟨hf.1, hf.2.1⟩, hh⟩
  case inc p e =>
    cases h
    exact .stutter _ (coreRel_crash hk : core.crash = _) rfl ⟨core, hk, rfl, hf, hh⟩
  case start p e =>
    have hq : a.queue.head? = some e := hf.2
    have hw : a.workers.length ≤ a.target ∧ (a.stopping = false ∨ (a.onStop = .completeTasks ∧ a.queue ≠ [])) := hf.1
    cases h
    refine .finish _ (.worker i) rfl rfl rfl (by simp) rfl ?_
    rw [step_worker hc hh.1 hh.2, Pool.workerPass, if_pos hw]
    have hk : core = { a with waitNone := wakeIf (decide (a.queue.tail = [])) a.waitNone, waitAll := wakeIf false a.waitAll } := hk
    rw [hk]
    obtain ⟨rest, hr⟩ : ∃ rest, a.queue = e :: rest := by
      cases hx : a.queue with
      | nil => rw [hx] at hq; cases hq
      | cons y l => rw [hx] at hq; cases hq; exact ⟨l, rfl⟩
    simp only [hr]
    by_cases h0 : rest = [] <;>
      simp [load, eff, effWorker, startedP, takenP, prot, wakeIf, h0, hr]
  case leaving p =>
    rw [core_eq hk] at h
    cases h
    split
    · rename_i hl; exact .stutter _ rfl rfl ⟨a, rfl, rfl, ⟨hf, hl⟩, hh⟩
    · rename_i hl
      have hl : ¬ a.stopping = true := hl
      exact .stutter _ rfl rfl ⟨a, rfl, rfl, ⟨hf, by simpa [prot] using hl⟩, hh⟩
  case eraseSelf p =>
    rw [core_eq hk] at h
    cases h
    have hw : ¬ (a.workers.length ≤ a.target ∧ (a.stopping = false ∨ (a.onStop = .completeTasks ∧ a.queue ≠ []))) := hf.1
    have hs : a.stopping = false := hf.2
    have hstep := step_worker hc hh.1 hh.2
    rw [Pool.workerPass, if_neg hw, if_pos hs] at hstep
    exact .commit _ _ (.worker i) _ rfl rfl rfl (by simp) rfl hstep rfl (fun _ => ⟨rfl, _, rfl, rfl, trivial, trivial⟩) rfl
  case exit p =>
    rw [core_eq hk] at h
    have hw : ¬ (a.workers.length ≤ a.target ∧ (a.stopping = false ∨ (a.onStop = .completeTasks ∧ a.queue ≠ []))) := hf.1
    have hs : a.stopping = true := hf.2
    have hstep := step_worker hc hh.1 hh.2
    rw [Pool.workerPass, if_neg hw, if_neg (by rw [hs]; simp)] at hstep
    cases h
    exact .finish _ (.worker i) rfl rfl rfl (by simp) rfl hstep

theorem step_scheduler_ready {a : Pool.State} {i : Nat} (hc : a.crash = none) (hi : a.schedulers[i]? = some .ready) :
    Pool.step a (.scheduler i none) = some (Pool.schedulerPass a i) := by
  have hcs : ¬ a.crash.isSome = true := by rw [hc]; simp
  simp only [Pool.step, if_neg hcs, hi]
  rfl

theorem step_scheduler_timedOut {a : Pool.State} {i : Nat} {e : Timed} {n : Nat} (w : Option Nat) (ws : List Phase)
    (hc : a.crash = none) (hi : a.schedulers[i]? = some (.timedOut e n)) (he : e ∈ a.scheduled)
    (hw : Pool.wakeOne w a.workers = some ws) :
    Pool.step a (.scheduler i w) = some (Pool.schedulerPass (load { a with workers := ws } (movedP (prot a) e)) i) := by
  have hcs : ¬ a.crash.isSome = true := by rw [hc]; simp
  simp only [Pool.step, if_neg hcs, hi, Pool.moveTimed, if_pos he, hw]
  rw [if_neg (by exact hcs)]
  rfl

/-- The last part of a section of the scheduler is executed at once, whether it has moved a task before or not. -/
theorem step_pass {a core : Pool.State} {i : Nat} {q : SPhase} {w : Option Nat} {pc : Pc} (hc : a.crash = none)
    (hp : passFrom pc = some q) (hk : coreRel (kind (.event (.scheduler i w)) pc (prot a)) a core)
    (hh : holder (.event (.scheduler i w)) pc a) (hf : inTime (prot a) q) :
    ∃ w', Pool.step a (.scheduler i w') = some (Pool.schedulerPass (load core (passP (prot a) q)) i) := by
  have hs : schedFrom pc = some q := by cases pc <;> first | exact hp | cases hp
  simp only [holder, hs] at hh
  have hkind : kind (.event (.scheduler i w)) pc (prot a) = passKind q := by
    cases pc <;> first | (cases hp; rfl) | cases hp
  rw [hkind] at hk
  rcases hh.2.2 with rfl | ⟨e, n, rfl⟩
  · have hk := core_eq hk
    rw [hk]
    exact ⟨none, step_scheduler_ready hc hh.2.1⟩
  · obtain ⟨w', ws, hw, hk⟩ := hk
    rw [hk]
    exact ⟨w', step_scheduler_timedOut w' ws hc hh.2.1 hf hw⟩

theorem go_scheduler {a b b' : Pool.State} {i : Nat} {w v : Option Nat} {pc : Pc} {x : Option Pc} (hc : a.crash = none)
    (hr : Rel (.event (.scheduler i w)) pc a b) (h : go b v (.event (.scheduler i w)) pc = some (b', x)) :
    Outcome (.event (.scheduler i w)) pc a b' x := by
  obtain ⟨core, hk, hb, hf, hh⟩ := hr
  obtain rfl : w = none := hh.1
  subst hb
  cases pc <;> simp only [go, goScheduler] at h <;> first | (cases h; done) | skip
  case move e n =>
    rw [core_eq hk] at h
    split at h
    · rename_i he
      cases h
      exact .stutter _ rfl rfl ⟨a, rfl, rfl, he, hh⟩
    · rename_i he
      cases h
      have hi : a.schedulers[i]? = some (.timedOut e n) := hh.2.1
      have he : ¬ e ∈ a.scheduled := he
      have hcs : ¬ a.crash.isSome = true := by rw [hc]; simp
      refine .commit _ _ (.scheduler i none) { a with crash := some .danglingIterator } rfl rfl rfl (by simp) rfl ?_ rfl
        (fun h => by cases h) rfl
      simp only [Pool.step, if_neg hcs, hi, Pool.moveTimed, if_neg he]
      rfl
  case unschedule e n =>
    rw [core_eq hk] at h
    cases h
    exact .stutter _ rfl rfl ⟨a, rfl, rfl, hf, hh⟩
  case notifyWorker e n =>
    rw [core_eq hk] at h
    split at h
    · rename_i ws hw
      cases h
      exact .stutter _ rfl rfl ⟨{ a with workers := ws }, ⟨v, ws, hw, rfl⟩, rfl, hf, hh⟩
    · cases h
  case anyScheduled q =>
    cases h
    split
    · rename_i hl; exact .stutter _ (coreRel_crash hk : core.crash = _) rfl ⟨core, hk, rfl, ⟨hf, .inl hl⟩, hh⟩
    · rename_i hl; exact .stutter _ (coreRel_crash hk : core.crash = _) rfl ⟨core, hk, rfl, ⟨hf, hl⟩, hh⟩
  case scheduling q =>
    cases h
    have hst : (passP (prot a) q).stopping = a.stopping := by cases q <;> rfl
    split
    · rename_i hl
      have hl : (passP (prot a) q).stopping = true := hl
      rw [hst] at hl
      exact .stutter _ (coreRel_crash hk : core.crash = _) rfl ⟨core, hk, rfl, ⟨hf.1, .inr hl⟩, hh⟩
    · rename_i hl
      have hl : ¬ (passP (prot a) q).stopping = true := hl
      rw [hst] at hl
      have hl : a.stopping = false := by simpa using hl
      exact .stutter _ (coreRel_crash hk : core.crash = _) rfl ⟨core, hk, rfl, ⟨hf.1, hf.2, hl⟩, hh⟩
  case begin q =>
    split at h
    · rename_i e rest he
      cases h
      have he : (passP (prot a) q).scheduled = e :: rest := he
      exact .stutter _ (coreRel_crash hk : core.crash = _) rfl
        ⟨core, hk, rfl, ⟨hf.1, by rw [he]; rfl, hf.2.2⟩, hh⟩
    · cases h
  case doze q e =>
    obtain ⟨w', hstep⟩ := step_pass hc rfl hk hh hf.1
    have hst : (passP (prot a) q).stopping = a.stopping := by cases q <;> rfl
    have hs : (load core (passP (prot a) q)).stopping = false := hst.trans hf.2.2
    obtain ⟨rest, hr⟩ : ∃ rest, (load core (passP (prot a) q)).scheduled = e :: rest := by
      have hf2 : (load core (passP (prot a) q)).scheduled.head? = some e := hf.2.1
      cases hx : (load core (passP (prot a) q)).scheduled with
      | nil => rw [hx] at hf2; cases hf2
      | cons y l => rw [hx] at hf2; cases hf2; exact ⟨l, rfl⟩
    rw [Pool.schedulerPass] at hstep
    split at hstep
    · rename_i e' rest' he' _
      cases h
      rw [hr] at he'
      cases he'
      exact .finish _ (.scheduler i w') rfl rfl rfl (by simp) rfl hstep
    · rename_i he'; rw [hs] at he'; cases he'
    · rename_i he' _; rw [hr] at he'; cases he'
  case ending q =>
    cases h
    have hst : (passP (prot a) q).stopping = a.stopping := by cases q <;> rfl
    split
    · rename_i hl
      have hl : (passP (prot a) q).stopping = true := hl
      rw [hst] at hl
      exact .stutter _ (coreRel_crash hk : core.crash = _) rfl ⟨core, hk, rfl, ⟨hf.1, hl⟩, hh⟩
    · rename_i hl
      have hl : ¬ (passP (prot a) q).stopping = true := hl
      rw [hst] at hl
      have hl : a.stopping = false := by simpa using hl
      refine .stutter _ (coreRel_crash hk : core.crash = _) rfl ⟨core, hk, rfl, ⟨hf.1, ?_, hl⟩, hh⟩
      rcases hf.2 with h1 | h1
      · exact h1
      · have h1 : a.stopping = true := h1
        rw [hl] at h1; cases h1
  case detach q =>
    obtain ⟨w', hstep⟩ := step_pass hc rfl hk hh hf.1
    have hst : (passP (prot a) q).stopping = a.stopping := by cases q <;> rfl
    have hs : (load core (passP (prot a) q)).stopping = false := hst.trans hf.2.2
    have hsch : (load core (passP (prot a) q)).scheduled = [] := hf.2.1
    have hq : core.schedulers[i]? = some q ∧ Pool.isWaiting q = false := by
      have hhq : a.schedulers[i]? = some q ∧ (q = .ready ∨ ∃ e n, q = .timedOut e n) := hh.2
      refine ⟨?_, by rcases hhq.2 with rfl | ⟨e, n, rfl⟩ <;> rfl⟩
      rcases hhq.2 with rfl | ⟨e, n, rfl⟩
      · have hk := core_eq hk
        rw [hk]; exact hhq.1
      · obtain ⟨w', ws, hw, hk⟩ := hk
        rw [hk]; exact hhq.1
    rw [Pool.schedulerPass] at hstep
    split at hstep
    · rename_i he' _; rw [hsch] at he'; cases he'
    · rename_i he'; rw [hs] at he'; cases he'
    · split at h
      · rename_i k hk'
        have hk'' : (load core (passP (prot a) q)).scheduler = some k := hk'
        rw [hk''] at hstep
        cases h
        refine .commit _ _ (.scheduler i w') _ rfl rfl rfl (by simp) rfl hstep rfl (fun _ => ⟨rfl, ?_⟩) rfl
        exact ⟨{ load core (passP (prot a) q) with scheduler := none }, ⟨rfl, q, hq⟩, rfl, trivial, rfl, trivial⟩
      · rename_i hk'
        have hk'' : (load core (passP (prot a) q)).scheduler = none := hk'
        rw [hk''] at hstep
        cases h
        exact .commit _ _ (.scheduler i w') _ rfl rfl rfl (by simp) rfl hstep rfl (fun h => by cases h) rfl
  case leaveEnded =>
    cases h
    have hk : a = { core with schedulers := core.schedulers.set i .exited } ∧ _ := hk
    refine .release _ rfl rfl ?_
    rw [hk.1]; rfl
  case exitScheduler q =>
    obtain ⟨w', hstep⟩ := step_pass hc rfl hk hh hf.1
    have hst : (passP (prot a) q).stopping = a.stopping := by cases q <;> rfl
    have hs : (load core (passP (prot a) q)).stopping = true := hst.trans hf.2
    rw [Pool.schedulerPass] at hstep
    split at hstep
    · rename_i he'; rw [hs] at he'; cases he'
    · cases h
      exact .finish _ (.scheduler i w') rfl rfl rfl (by simp) rfl hstep
    · rename_i he'; rw [hs] at he'; cases he'

theorem go_rel {sec : Sec} {a b b' : Pool.State} {w : Option Nat} {pc : Pc} {x : Option Pc} (hc : a.crash = none)
    (hr : Rel sec pc a b) (h : go b w sec pc = some (b', x)) : Outcome sec pc a b' x := by
  cases sec with
  | get g c => exact go_get hr h
  | event ev =>
    cases ev <;> first | exact go_async hc hr h | exact go_sync hc hr h | exact go_onStop hc hr h | exact go_stop hc hr h |
      exact go_waitNone hc hr h | exact go_waitAll hc hr h | exact go_target hc hr h | exact go_at hc hr h |
      exact go_worker hc hr h | exact go_scheduler hc hr h | (obtain ⟨_, _, _, _, hh⟩ := hr; exact hh.elim)

theorem enter_rel {sec : Sec} {a : Pool.State} {pc : Pc} (h : enter a sec = some pc) :
    Rel sec pc a a ∧ committed sec pc = false := by
  cases sec with
  | get g c =>
    simp only [enter] at h
    split at h
    · cases h; exact ⟨⟨a, rfl, rfl, by cases g <;> trivial, by assumption⟩, rfl⟩
    · cases h
  | event ev =>
    cases ev <;> simp only [enter] at h <;> first | (cases h; done) | skip
    case worker i =>
      split at h
      · cases h; exact ⟨⟨a, rfl, rfl, trivial, by assumption, .inl rfl⟩, rfl⟩
      · cases h; exact ⟨⟨a, rfl, rfl, ⟨_, rfl⟩, by assumption, .inr ⟨_, rfl⟩⟩, rfl⟩
      · cases h
    case scheduler i w =>
      cases w <;> simp only at h
      · split at h
        · cases h; exact ⟨⟨a, rfl, rfl, trivial, rfl, by assumption, .inl rfl⟩, rfl⟩
        · cases h; exact ⟨⟨a, rfl, rfl, trivial, rfl, by assumption, .inr ⟨_, _, rfl⟩⟩, rfl⟩
        · cases h
      · cases h
    all_goals
      split at h
      · cases h; exact ⟨⟨a, rfl, rfl, trivial, by assumption⟩, rfl⟩
      · cases h

end Pluto.Proofs.PoolSteps
