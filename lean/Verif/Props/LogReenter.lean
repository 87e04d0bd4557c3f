import Verif.Proofs.LogReenter
import Verif.Props.Log
import Verif.Props.LogCfg

/-!
# Properties of writers that use the logger (C97)

A log writer or header writer is called by the logging thread while it is at `.opening` or
`.writing` (Model/Logger.lean), and at `.calling` (Model/LogCfg.lean).
-/

namespace Pluto.Props
open Pluto.Log Pluto.Spec.Log

/-- The logging thread may be inside a writer. -/
def InWriter : Phase → Prop
  | .opening .. => True
  | .writing .. => True
  | _ => False

/-- C97. While the logging thread is inside a writer it does not own the mutex, so a call of
`write` that it makes there (`tid` is its own id) comes to an end without any further step of
the logging thread: a caller that owns the mutex leaves it, which it always can, and then the
call gets it.  The entry is put into the buffer, or it is counted as discarded. -/
theorem C97_write {paths : Nat → Path} {σ : Settings} {fs : Fs} {s : State}
    (h : Reachable paths σ fs s) (hw : InWriter s.thread) (ha : s.stage = .alive)
    (hc : s.crashed = false) {tid : Nat} (ht : tid ∉ s.calls.map (·.entry.tid))
    (hn : tid ∉ s.notifying) (ho : isProducer tid s.owner = false) (name : Nat)
    (time level : Int) (message : List Char)
    (hl : shouldLog s.isLogging s.settings.level level = true) :
    ∃ s', (run paths s [.call tid name time level message, .enter s.calls.length, .leave] = some s' ∨
        run paths s [.call tid name time level message, .enter s.calls.length] = some s' ∨
        run paths s [.call tid name time level message, .leave, .enter s.calls.length, .leave] = some s' ∨
        run paths s [.call tid name time level message, .leave, .enter s.calls.length] = some s') ∧
      s'.thread = s.thread ∧ s'.owner = .free ∧ s'.calls = s.calls ∧
      ((s'.accepted = s.accepted ++ [(name, ⟨time, tid, level, message, s.nextId⟩)] ∧
          s'.dropped = s.dropped ∧ s'.discarded = s.discarded) ∨
       (s'.accepted = s.accepted ∧ s'.discarded = s.discarded + 1 ∧
          s'.dropped = s.dropped ++ [(name, ⟨time, tid, level, message, s.nextId⟩)])) := by
  obtain ⟨s₁, h₁, hc₁, hca, ht₁, ho₁, ha₁, hd₁, hx₁⟩ := call_step (paths := paths) (name := name)
    (time := time) (message := message) ha hc ht hn ho hl
  have hown : s₁.owner ≠ .logging := by
    rw [ho₁]
    intro h2
    have := (base h).owner.1 h2
    cases hp : s.thread <;> rw [hp] at this hw <;> simp_all [holds, InWriter]
  cases hp : s₁.owner with
  | logging => exact absurd hp hown
  | free =>
    obtain ⟨s₂, h₂, ht₂, hca₂, h3⟩ := enter_step (paths := paths) hc₁ hp hca
    rcases h3 with ⟨hs3, s₃, h₃, ht₃, hca₃, ho₃, ha₃, hd₃, hx₃⟩ | ⟨ho₃, ha₃, hd₃, hx₃⟩
    · refine ⟨s₃, .inl ?_, by rw [ht₃, ht₂, ht₁], ho₃, by rw [hca₃, hca₂], .inl ?_⟩
      · simp only [run, h₁, h₂, h₃]
      · exact ⟨by rw [ha₃, ha₁], by rw [hd₃, hd₁], by rw [hx₃, hx₁]⟩
    · refine ⟨s₂, .inr (.inl ?_), by rw [ht₂, ht₁], ho₃, hca₂, .inr ?_⟩
      · simp only [run, h₁, h₂]
      · exact ⟨by rw [ha₃, ha₁], by rw [hx₃, hx₁], by rw [hd₃, hd₁]⟩
  | producer t n =>
    obtain ⟨s₀, h₀, hc₀, hca₀, ht₀, ho₀, ha₀, hd₀, hx₀⟩ := leave_step (paths := paths) hc₁ hp
    rw [← hca₀] at hca
    obtain ⟨s₂, h₂, ht₂, hca₂, h3⟩ := enter_step (paths := paths) hc₀ ho₀ hca
    rcases h3 with ⟨hs3, s₃, h₃, ht₃, hca₃, ho₃, ha₃, hd₃, hx₃⟩ | ⟨ho₃, ha₃, hd₃, hx₃⟩
    · refine ⟨s₃, .inr (.inr (.inl ?_)), by rw [ht₃, ht₂, ht₀, ht₁], ho₃, by rw [hca₃, hca₂], .inl ?_⟩
      · simp only [run, h₁, h₀, h₂, h₃]
      · exact ⟨by rw [ha₃, ha₀, ha₁], by rw [hd₃, hd₀, hd₁], by rw [hx₃, hx₀, hx₁]⟩
    · refine ⟨s₂, .inr (.inr (.inr ?_)), by rw [ht₂, ht₀, ht₁], ho₃, hca₂, .inr ?_⟩
      · simp only [run, h₁, h₀, h₂]
      · exact ⟨by rw [ha₃, ha₀, ha₁], by rw [hx₃, hx₀, hx₁], by rw [hd₃, hd₀, hd₁]⟩

/-- C97. A writer called after the destructor has begun (by the logging thread or by the
destructor itself) logs nothing: every level is filtered, and nothing is waited for. -/
theorem C97_destructor {paths : Nat → Path} {σ : Settings} {fs : Fs} {s : State}
    (h : Reachable paths σ fs s) (ha : s.stage ≠ .alive) (threshold level : Int) :
    shouldLog s.isLogging threshold level = false := by
  rcases closing h with h1 | h1
  · exact absurd h1.1 ha
  · simp [shouldLog, h1.2.logging]

/-- C97. While the logging thread is inside a writer it does not own the mutex of the writers,
so a writer can replace or read writers: if the mutex is locked, a caller of a setter or
getter unlocks it with its next step. -/
theorem C97_replace {s : LogCfg.State} (h : LogCfg.Reachable s) {w : Nat}
    (hw : s.thread = .calling w) (hl : s.locked = true) :
    ∃ i s', LogCfg.step s (.user i) = some s' ∧ s'.locked = false := by
  obtain ⟨ev, s', hs, hf⟩ := C96_progress h hl
  cases ev with
  | user i => exact ⟨i, s', hs, hf⟩
  | thread =>
    simp only [LogCfg.step, hw] at hs
    cases hs
    exact absurd (hl.symm.trans hf) (by decide)
  | callSet w => cases hs; exact absurd (hl.symm.trans hf) (by decide)
  | callGet => cases hs; exact absurd (hl.symm.trans hf) (by decide)

/-- The events of a logging thread (its id is 9) whose log writer calls `write`, between two
moments at which it begins to open the file. -/
def exampleEcho : List Event :=
  [.thread {}, .call 9 0 0 3 [], .enter 0, .leave, .notify 0, .thread {}, .thread {}, .thread {}, .thread {},
    .thread {}, .thread {}]

/-- The logging thread is about to write the only entry there is. -/
def Echoing (k : Nat) (s : State) : Prop :=
  ∃ e, s.settings = exampleSettings ∧ s.isLogging = true ∧
    s.files = [(0, ⟨[e], some (examplePaths 0), true⟩)] ∧ s.thread = .opening 0 [e] ∧ s.owner = .free ∧
    s.calls = [] ∧ s.notifying = [] ∧ s.crashed = false ∧ s.stage = .alive ∧
    (examplePaths 0).dir ∈ s.fs.dirs ∧ s.passed.length = k ∧
    (s.accepted.filter (·.2.tid = 1)).length = 1

theorem echo_turn {k : Nat} {s : State} (h : Echoing k s) :
    ∃ s', run examplePaths s exampleEcho = some s' ∧ Echoing (k + 1) s' := by
  obtain ⟨e, h1, h2, h3, h4, h5, h6, h7, h8, h9, h10, h11, h12⟩ := h
  rcases s with ⟨set, isl, files, disc, fs, owner, thread, calls, notifying, setters, stage, crashed, nextId, acc, passed,
    dropped, resetAt⟩
  simp only at h1 h2 h3 h4 h5 h6 h7 h8 h9 h10 h11 h12
  subst h1 h2 h3 h4 h5 h6 h7 h8 h9
  obtain ⟨fs₁, ho⟩ := openFile_ok h10
  have hd1 := (openFile_opened ho).1.1 h10
  obtain ⟨fs₂, l, ht, -, hd2⟩ := turn_ok (σ := exampleSettings) (name := 0) (e := e)
    (l := ⟨true, 0, true⟩) ⟨fun e => ⟨e.message, rfl⟩, ⟨['H'], rfl⟩⟩ rfl hd1
  have hp : prepare exampleSettings {} (examplePaths 0) ⟨[e], some (examplePaths 0), true⟩ fs =
      (⟨[e], some (examplePaths 0), true⟩, fs₁, some ⟨true, 0, true⟩) := by
    simp [prepare, ho, exampleSettings]
  have hrun : run examplePaths
      { settings := exampleSettings, files := [(0, ⟨[e], some (examplePaths 0), true⟩)], discarded := disc,
        fs := fs, thread := .opening 0 [e], setters := setters, nextId := nextId, accepted := acc,
        passed := passed, dropped := dropped, resetAt := resetAt } exampleEcho =
      some { settings := exampleSettings, discarded := disc, fs := fs₂, setters := setters
             files := [(0, ⟨[⟨0, 9, 3, [], nextId⟩], some (examplePaths 0), true⟩)]
             thread := .opening 0 [⟨0, 9, 3, [], nextId⟩], nextId := nextId + 1
             accepted := acc ++ [(0, ⟨0, 9, 3, [], nextId⟩)], passed := passed ++ [(0, e, true)]
             dropped := dropped, resetAt := resetAt } := by
    have hm : exampleSettings.bufferMaxSize = 0 := rfl
    have hf : exampleSettings.bufferFlushSize = 1 := rfl
    have hl : exampleSettings.level = 0 := rfl
    simp [exampleEcho, run, step, threadStep, find, update, hp, ht, next, addLog, isProducer, shouldLog, hm, hf, hl, wake]
  exact ⟨_, hrun, _, rfl, rfl, rfl, rfl, rfl, rfl, rfl, rfl, rfl, hd2, by simp [h11], by simpa using h12⟩

/-- C97. What calls of `write` by a writer can do: if the log writer logs an entry every time it
is called and the flush size is 1, the logging thread never rests although nobody else logs.  After
one entry of thread 1 there are executions of any length that consist of steps of the logging
thread (number 9) and the calls that its writer makes, one before each entry is written. -/
theorem C97_endless (k : Nat) : ∃ s, run examplePaths (init exampleSettings {})
      (exampleWrite 1 0 "1" ++ [.notify 0] ++ exampleThread 3 ++ (List.replicate (k + 1) exampleEcho).flatten) =
        some s ∧
    s.passed.length = k + 1 ∧ (∃ e, s.thread = .opening 0 [e]) ∧
    (s.accepted.filter (·.2.tid = 1)).length = 1 := by
  have hcat : ∀ (as bs : List Event) (s : State), run examplePaths s (as ++ bs) =
      (run examplePaths s as).bind fun s => run examplePaths s bs := by
    intro as bs
    induction as with
    | nil => intro s; rfl
    | cons a as ih =>
      intro s
      simp only [List.cons_append, run]
      cases step examplePaths s a with
      | none => rfl
      | some s => exact ih s
  have : ∃ s, run examplePaths (init exampleSettings {})
      (exampleWrite 1 0 "1" ++ [.notify 0] ++ exampleThread 3 ++ (List.replicate (k + 1) exampleEcho).flatten) =
        some s ∧ Echoing (k + 1) s := by
    induction k with
    | zero => exact ⟨_, rfl, _, rfl, rfl, rfl, rfl, rfl, rfl, rfl, rfl, rfl, by decide, by decide, by decide⟩
    | succ k ih =>
      obtain ⟨s, h1, h2⟩ := ih
      obtain ⟨s', h3, h4⟩ := echo_turn h2
      refine ⟨s', ?_, h4⟩
      rw [List.replicate_succ', List.flatten_append, ← List.append_assoc, hcat, h1]
      simpa using h3
  obtain ⟨s, h1, e, h2⟩ := this
  exact ⟨s, h1, h2.2.2.2.2.2.2.2.2.2.2.1, ⟨e, h2.2.2.2.1⟩, h2.2.2.2.2.2.2.2.2.2.2.2⟩

/-- The logging thread is inside the writer, another thread owns the mutex. -/
example : ∃ s, run examplePaths (init exampleSettings {})
      (exampleRun ++ [.call 3 0 0 3 [], .enter 0]) = some s ∧
    (∃ e l, s.thread = .writing 0 (examplePaths 0) l [e] 1) ∧ s.owner = .producer 3 0 ∧ s.stage = .alive ∧
    ∃ s', run examplePaths s [.call 9 0 0 3 [], .leave, .enter 0, .leave] = some s' ∧
      s'.accepted.length = 4 ∧ s'.owner = .free :=
  ⟨_, rfl, ⟨_, _, rfl⟩, rfl, rfl, _, rfl, rfl, rfl⟩

/-- The logging thread is inside the writer when the destructor begins. -/
example : ∃ s, run examplePaths (init exampleSettings {})
      (exampleRun ++ [.notify 0, .notify 0, .stop]) = some s ∧ s.stage = .flagged ∧
    ∃ e l, s.thread = .writing 0 (examplePaths 0) l [e] 1 := ⟨_, rfl, rfl, _, _, rfl⟩

/-- The logging thread is inside a writer while a setter owns the mutex of the writers. -/
example : ∃ s, LogCfg.run LogCfg.init [.thread, .thread, .thread, .callSet 1, .user 0] = some s ∧
    s.thread = .calling 0 ∧ s.locked = true := ⟨_, rfl, rfl, rfl⟩

end Pluto.Props
