import Verif.Proofs.LogProgress
import Verif.Proofs.LogRotate
import Verif.Proofs.LogBytes
import Verif.Proofs.LogCrash

/-!
# Properties of `logger` (C23-C25, C28-C34, C80-C86)

`Reachable paths σ fs s`: some execution of a logger created with the settings `σ` on the
file system `fs` leads to the state `s` (Model/Logger.lean); `paths` tells what the names of log
files stand for.  Executions interleave any number of callers, setters, the logging thread
and the destructor, deliver notifications late and wake the logging thread spuriously, and
file system operations fail whenever they like.  `Reaches paths okσ okIo fs s`: the same,
if the settings always satisfy `okσ` and failures are restricted by `okIo`.  `accepted`,
`written`, `pending`, …: Spec/Log.lean.
-/

namespace Pluto.Props
open Pluto.Log Pluto.Spec.Log

/-! ## Examples

Log file `n` is `log.txt` in a directory of its own. -/

theorem log_reachable {paths : Nat → Path} {σ : Settings} {fs : Fs} {s : State} {evs : List Event}
    (h : run paths (init σ fs) evs = some s) : Reachable paths σ fs s := reachable_run .init h

theorem log_reachableBy {paths : Nat → Path} {ok : State → Event → Prop} {σ : Settings} {fs : Fs} {s : State}
    {evs : List Event} (hok : ∀ ev ∈ evs, ∀ s, ok s ev) (h : run paths (init σ fs) evs = some s) :
    ReachableBy paths ok σ fs s := by
  have : ∀ s₀, ReachableBy paths ok σ fs s₀ → run paths s₀ evs = some s → ReachableBy paths ok σ fs s := by
    clear h
    induction evs with
    | nil => intro s₀ h₀ h; cases h; exact h₀
    | cons ev evs ih =>
      intro s₀ h₀ h
      simp only [run] at h
      cases hs : step paths s₀ ev with
      | none => rw [hs] at h; cases h
      | some s₁ =>
        rw [hs] at h
        exact ih (fun e he => hok e (List.mem_cons_of_mem _ he)) s₁
          (.step ev h₀ (hok ev (List.mem_cons_self ..) s₀) hs) h
  exact this _ .init h

theorem log_reaches {paths : Nat → Path} {okσ : Settings → Prop} {okIo : Io → Prop} {σ : Settings} {fs : Fs}
    {s : State} {evs : List Event} (hσ : okσ σ) (hok : ∀ ev ∈ evs, ∀ s, Within okσ okIo s ev)
    (h : run paths (init σ fs) evs = some s) : Reaches paths okσ okIo fs s := ⟨σ, hσ, log_reachableBy hok h⟩

def examplePaths (n : Nat) : Path := ⟨'/' :: List.replicate n 'd', "log.txt".toList⟩

theorem examplePaths_separate : Separate examplePaths := by
  intro m n i j h
  have := congrArg (fun p => p.dir.length) h
  simpa [pathAt, examplePaths] using this

theorem examplePaths_distinct : Distinct examplePaths := Separate.distinct examplePaths_separate

def exampleSettings : Settings := { logWriter := fun e => .ok e.message, headerWriter := .ok ['H'] }

theorem example_usable : Usable exampleSettings := ⟨fun e => ⟨e.message, rfl⟩, ⟨['H'], rfl⟩, rfl⟩

theorem fresh_empty : Fresh {} := by intro q c h; cases h

/-- A call of `write` by thread `tid` that puts its entry into the buffer. -/
def exampleWrite (tid name : Nat) (message : String) : List Event :=
  [.call tid name 0 3 message.toList, .enter 0, .leave]

def exampleThread (n : Nat) : List Event := List.replicate n (.thread {})

/-- Two threads write to a log file, the logging thread has written one entry and has another
one in its hands. -/
def exampleRun : List Event :=
  exampleWrite 1 0 "one" ++ exampleWrite 2 0 "two" ++ exampleThread 5

/-! ## C23: order and completeness -/

/-- C23. Whatever happens (also failures), the entries accepted for a log file are, in the order
in which they were accepted, those given to a log writer and then those still to be
written. -/
theorem C23_order {paths : Nat → Path} {σ : Settings} {fs : Fs} {s : State} (h : Reachable paths σ fs s)
    (name : Nat) : accepted s name = passed s name ++ pending s name := by
  obtain ⟨erased, h1, h2⟩ := (base h).kept name
  rw [h1, h2]
  unfold pending
  rw [List.append_assoc, List.take_append_drop]

/-- C23. If the log writer does not throw and what is put into an open file gets there, the
entries accepted are those written to disk and then those still to be written. -/
theorem C23_written {paths : Nat → Path} {fs : Fs} {s : State} (h : Reaches paths GoodWriter Writable fs s)
    (name : Nat) : accepted s name = written s name ++ pending s name := by
  obtain ⟨σ, -, hr⟩ := id h
  rw [written_eq_passed (passed_whole h)]
  exact C23_order (reachable_of_by hr) name

/-- C23. So without rotation the file contains exactly the entries accepted, in order, except
those still to be written. -/
theorem C23_on_disk {paths : Nat → Path} {fs : Fs} {s : State} (hfs : Fresh fs)
    (h : Reaches paths (fun σ => GoodWriter σ ∧ σ.fileRotationSize = 0) Writable fs s) (name : Nat) :
    accepted s name = own name (read s.fs (paths name)) ++ pending s name := by
  have hm : ∀ {okσ : Settings → Prop}, (∀ σ, GoodWriter σ ∧ σ.fileRotationSize = 0 → okσ σ) →
      Reaches paths okσ Writable fs s := by
    intro okσ hi
    obtain ⟨σ, hσ, hr⟩ := h
    refine ⟨σ, hi σ hσ, reachableBy_mono hr ?_⟩
    intro s ev hok
    cases ev with
    | set x => exact hi _ hok
    | _ => exact hok
  rw [disk_exact ⟨rfl, rfl⟩ hfs (hm fun _ h => h.2) name]
  exact C23_written (hm fun _ h => h.1) name

example : ∃ s, run examplePaths (init exampleSettings {}) exampleRun = some s ∧
    (written s 0).map (·.message) = ["one".toList] ∧ (pending s 0).map (·.message) = ["two".toList] ∧
    Reaches examplePaths (fun σ => GoodWriter σ ∧ σ.fileRotationSize = 0) Writable {} s :=
  ⟨_, rfl, by decide, by decide, log_reaches (evs := exampleRun) ⟨example_usable.1, rfl⟩ (by
    intro ev hev s
    simp only [exampleRun, exampleWrite, exampleThread, List.replicate, List.cons_append, List.nil_append,
      List.mem_cons, List.not_mem_nil, or_false] at hev
    rcases hev with rfl | rfl | rfl | rfl | rfl | rfl | rfl | rfl | rfl | rfl | rfl <;>
      trivial) rfl⟩

/-- C23. With fixed writers and a fixed choice about headers, the bytes of every file of a log file are
what was there before, a header line (if headers are wanted, nothing was there before and something has
been written), and one line for each of its entries. -/
theorem C23_bytes {paths : Nat → Path} {w : Entry → List Char} {header : List Char} {b : Bool} {fs : Fs} {s : State}
    (hsep : Separate paths) (hfs : Fresh fs)
    (h : Reaches paths (fun σ => Writers w header σ ∧ σ.writeHeader = b) Writable fs s) {name i : Nat}
    {c : List Chunk} (hc : read s.fs (pathAt (paths name) i) = some c) :
    bytes c = bytes (former c) ++
        (if b = true ∧ bytes (former c) = [] ∧ own name (some c) ≠ [] then header ++ ['\n'] else []) ++
        (own name (some c)).flatMap (fun e => w e ++ ['\n']) := files_bytes hsep hfs h hc

/-- C23. With fixed writers, whatever fails, every piece that is put into a file is a header line, the
line of an entry, or a beginning of one of these. -/
theorem C23_lines {paths : Nat → Path} {w : Entry → List Char} {header : List Char} {fs : Fs} {s : State}
    (hfs : Fresh fs) (h : Reaches paths (Writers w header) (fun _ => True) fs s) :
    Everywhere (fun _ => Worded w header) s.fs := files_worded hfs trivial h

example : ∃ s c, run examplePaths (init exampleSettings {}) exampleRun = some s ∧
    read s.fs (pathAt (examplePaths 0) 0) = some c ∧ bytes c = "H\none\n".toList ∧
    Reaches examplePaths (fun σ => Writers (·.message) ['H'] σ ∧ σ.writeHeader = true) Writable {} s ∧
    Reaches examplePaths (Writers (·.message) ['H']) (fun _ => True) {} s :=
  ⟨_, _, rfl, rfl, by decide, log_reaches (σ := exampleSettings) (evs := exampleRun) ⟨⟨fun _ => rfl, rfl⟩, rfl⟩ (by
    intro ev hev s
    simp only [exampleRun, exampleWrite, exampleThread, List.replicate, List.cons_append, List.nil_append,
      List.mem_cons, List.not_mem_nil, or_false] at hev
    rcases hev with rfl | rfl | rfl | rfl | rfl | rfl | rfl | rfl | rfl | rfl | rfl <;>
      trivial) rfl, log_reaches (σ := exampleSettings) (evs := exampleRun) ⟨fun _ => rfl, rfl⟩ (by
    intro ev hev s
    simp only [exampleRun, exampleWrite, exampleThread, List.replicate, List.cons_append, List.nil_append,
      List.mem_cons, List.not_mem_nil, or_false] at hev
    rcases hev with rfl | rfl | rfl | rfl | rfl | rfl | rfl | rfl | rfl | rfl | rfl <;>
      trivial) rfl⟩

/-! ## C24: the buffer is bounded, and what is discarded is counted -/

/-- C24. With a fixed maximal size, no buffer ever holds more entries. -/
theorem C24_bound {paths : Nat → Path} {k : Nat} {okIo : Io → Prop} {fs : Fs} {s : State}
    (h : Reaches paths (·.bufferMaxSize = k) okIo fs s) (hk : 0 < k) (name : Nat) :
    (buffered s name).length ≤ k := buffer_bound h hk name

/-- C24. Every call that passed the level filter is in exactly one of three states: its entry was
accepted, its entry was discarded, or it is in progress. -/
theorem C24_accounting {paths : Nat → Path} {σ : Settings} {fs : Fs} {s : State} (h : Reachable paths σ fs s) :
    ((requests s).map (·.2.id)).Nodup ∧ (∀ i, i ∈ (requests s).map (·.2.id) ↔ i < s.nextId) ∧
      s.accepted.length + s.dropped.length + s.calls.length = s.nextId := by
  have hp := requests_ids h
  refine ⟨hp.nodup_iff.2 List.nodup_range, fun i => by rw [hp.mem_iff, List.mem_range], ?_⟩
  have := hp.length_eq
  simpa [requests, Nat.add_assoc] using this

/-- C24. `num_discarded_logs` is the number of entries discarded since it was reset last. -/
theorem C24_counter {paths : Nat → Path} {σ : Settings} {fs : Fs} {s : State} (h : Reachable paths σ fs s) :
    s.discarded = s.dropped.length - s.resetAt ∧ s.resetAt ≤ s.dropped.length := by
  have := counter h
  omega

/-- C24. An entry is discarded only if the buffer of its log file is full, and then it is counted. -/
theorem C24_discard {paths : Nat → Path} {s s' : State} {ev : Event} (hs : step paths s ev = some s')
    (hd : s'.dropped ≠ s.dropped) :
    ∃ i r, ev = .enter i ∧ s.calls[i]? = some r ∧ s'.dropped = s.dropped ++ [(r.name, r.entry)] ∧
      s'.discarded = s.discarded + 1 ∧ 0 < s.settings.bufferMaxSize ∧
      s.settings.bufferMaxSize ≤ (buffered s r.name).length := by
  replace hs := (step_cases hs).2
  cases hs with
  | enter i r hi ho =>
    rcases addLog_cases s r with ⟨heq, -⟩ | ⟨heq, h1, h2⟩
    · rw [heq] at hd; exact absurd rfl hd
    · exact ⟨i, r, rfl, hi, by rw [heq], by rw [heq], h1, h2⟩
  | flush io ios last name f hs hn => exact absurd (flushFile_same paths s io ios name f).2.2.1 hd
  | _ => exact absurd rfl hd

/-- A buffer for one entry. -/
def exampleTiny : Settings := { exampleSettings with bufferMaxSize := 1 }

example : ∃ s, run examplePaths (init exampleTiny {}) (exampleWrite 1 0 "one" ++ exampleWrite 2 1 "two" ++
      [.call 3 0 0 3 [], .enter 0]) = some s ∧
    (buffered s 0).length = 1 ∧ (buffered s 1).length = 1 ∧ s.discarded = 1 ∧ s.nextId = 3 :=
  ⟨_, rfl, by decide⟩

/-! ## C25: the level filter -/

/-- C25. While the level is always at least `l`, no call with a lower level gets through. -/
theorem C25_filter {paths : Nat → Path} {l : Int} {okIo : Io → Prop} {fs : Fs} {s : State}
    (h : Reaches paths (l ≤ ·.level) okIo fs s) : ∀ x ∈ requests s, l ≤ x.2.level := by
  obtain ⟨σ, hσ, hr⟩ := h
  induction hr with
  | init => intro x hx; simp [requests, init] at hx
  | @step s s' ev hr' hok hs ih =>
    have hl : l ≤ s.settings.level := within_settings hσ hr'
    cases flow_step hs with
    | same hc ha hd hn hk hr => unfold requests; rw [ha, hd, hc]; exact ih
    | reset hc ha hd hn hk hr => unfold requests; rw [ha, hd, hc]; exact ih
    | call tid name time level message hfree hlog hc ha hd hn hk hr =>
      intro x hx
      unfold requests at hx
      rw [ha, hd, hc, List.map_append, ← List.append_assoc, List.mem_append] at hx
      rcases hx with hx | hx
      · exact ih x hx
      · simp only [List.map_cons, List.map_nil, List.mem_singleton] at hx
        subst hx
        simp only [shouldLog, Bool.and_eq_true, decide_eq_true_eq] at hlog
        exact Int.le_trans hl hlog.2
    | accept i r hi hc ha hd hn hk hr =>
      intro x hx
      refine ih x ?_
      have hm := List.mem_of_getElem? hi
      unfold requests at hx ⊢
      rw [ha, hd, hc] at hx
      simp only [List.mem_append, List.mem_map, List.mem_singleton] at hx ⊢
      rcases hx with ((hx | rfl) | hx) | ⟨r', hr', rfl⟩
      · exact .inl (.inl hx)
      · exact .inr ⟨r, hm, rfl⟩
      · exact .inl (.inr hx)
      · exact .inr ⟨r', mem_of_eraseIdx hr', rfl⟩
    | drop i r hi hc ha hd hn hk hr =>
      intro x hx
      refine ih x ?_
      have hm := List.mem_of_getElem? hi
      unfold requests at hx ⊢
      rw [ha, hd, hc] at hx
      simp only [List.mem_append, List.mem_map, List.mem_singleton] at hx ⊢
      rcases hx with (hx | (hx | rfl)) | ⟨r', hr', rfl⟩
      · exact .inl (.inl hx)
      · exact .inl (.inr hx)
      · exact .inr ⟨r, hm, rfl⟩
      · exact .inr ⟨r', mem_of_eraseIdx hr', rfl⟩

/-- C25. With the level `off` (9) no entry of an ordinary level (up to `fatal`, 8) gets through. -/
theorem C25_off {paths : Nat → Path} {okIo : Io → Prop} {fs : Fs} {s : State}
    (h : Reaches paths (·.level = 9) okIo fs s) : ∀ x ∈ requests s, ¬ x.2.level ≤ 8 := by
  have h' : Reaches paths (9 ≤ ·.level) okIo fs s := by
    obtain ⟨σ, hσ, hr⟩ := h
    refine ⟨σ, by omega, reachableBy_mono hr ?_⟩
    intro s ev hok
    cases ev with
    | set x => exact Int.le_of_eq (Eq.symm hok)
    | _ => exact hok
  intro x hx
  have := C25_filter h' x hx
  omega

/-- C25. A call gets through, with its entry, exactly if its level is at least the level of the logger;
otherwise it has no effect. -/
theorem C25_exact {paths : Nat → Path} {σ : Settings} {fs : Fs} {s s' : State} {tid name : Nat} {time level : Int}
    {message : List Char} (h : Reachable paths σ fs s)
    (hs : step paths s (.call tid name time level message) = some s') :
    (s.settings.level ≤ level →
      s'.calls = s.calls ++ [⟨name, ⟨time, tid, level, message, s.nextId⟩⟩]) ∧
    (¬ s.settings.level ≤ level → s' = s) := by
  have hlog : s.stage = .alive → s.isLogging = true := by
    intro hst
    rcases closing h with ⟨-, h1⟩ | ⟨h1, -⟩
    · exact h1
    · exact absurd hst h1
  replace hs := (step_cases hs).2
  cases hs with
  | call _ _ _ _ _ hst hc hn ho hl =>
    refine ⟨fun _ => rfl, fun hno => ?_⟩
    simp [shouldLog, hno] at hl
  | callFiltered _ _ _ _ _ hst hl =>
    refine ⟨fun hle => ?_, fun _ => rfl⟩
    simp [shouldLog, hlog hst, hle] at hl

/-- C25. A higher level lets nothing through that a lower one does not. -/
theorem C25_monotone {l l' level : Int} {b : Bool} (hl : l ≤ l') (h : shouldLog b l' level = true) :
    shouldLog b l level = true := by
  simp only [shouldLog, Bool.and_eq_true, decide_eq_true_eq] at h ⊢
  exact ⟨h.1, Int.le_trans hl h.2⟩

example : ∃ s, run examplePaths (init { exampleSettings with level := 5 } {})
      [.call 1 0 0 4 [], .call 1 0 0 5 [], .call 2 0 0 8 [], .enter 1] = some s ∧
    (requests s).map (·.2.level) = [8, 5] := ⟨_, rfl, by decide⟩

/-! ## C28: the destructor writes everything -/

/-- Orderly executions are among those of C23. -/
theorem orderly_reaches {paths : Nat → Path} {σ : Settings} {fs : Fs} {s : State} {okσ : Settings → Prop}
    (hσ : Usable σ) (hi : ∀ σ, Usable σ → okσ σ) (h : ReachableBy paths Orderly σ fs s) :
    Reaches paths okσ Writable fs s := by
  refine ⟨σ, hi σ hσ, reachableBy_mono h ?_⟩
  intro s ev hok
  have hw : ∀ io, NoFault io → Writable io := by rintro io rfl; exact ⟨rfl, rfl⟩
  cases ev with
  | set x => exact hi _ hok
  | thread io => exact hok
  | flush io ios => exact ⟨hw io hok.1, fun io h => hw io (hok.2 io h)⟩
  | _ => trivial

/-- C28. When the destructor has returned, every entry accepted has been written to its file,
exactly once and in order, provided that the writers do not throw, missing directories are
created, what is put into an open file gets there, and nothing fails while the
destructor writes.  (Opening and rotating files may have failed before.) -/
theorem C28_flushed {paths : Nat → Path} {σ : Settings} {fs : Fs} {s : State} (hσ : Usable σ)
    (h : ReachableBy paths Orderly σ fs s) (hd : s.stage = .destroyed) (name : Nat) :
    written s name = accepted s name := by
  have h1 := C23_written (orderly_reaches hσ (fun _ h => h.1) h) name
  have h2 := (flushed hσ h).1
  rw [hd] at h2
  rw [h1, pending, h2 name, List.drop_nil, List.append_nil]

/-- C28. Without rotation the file then contains exactly the entries accepted. -/
theorem C28_on_disk {paths : Nat → Path} {σ : Settings} {fs : Fs} {s : State} (hfs : Fresh fs) (hσ : Usable σ)
    (h : ReachableBy paths (fun s ev => Orderly s ev ∧ ∀ n, ev ≠ .set (.fileRotationSize n)) σ fs s)
    (hr : σ.fileRotationSize = 0) (hd : s.stage = .destroyed) (name : Nat) :
    own name (read s.fs (paths name)) = accepted s name := by
  rw [← C28_flushed hσ (reachableBy_mono h fun _ _ h => h.1) hd name]
  -- the rotation size is always 0
  have h0 : s.settings.fileRotationSize = 0 ∧
      ReachableBy paths (Within (·.fileRotationSize = 0) Writable) σ fs s := by
    clear hd
    induction h with
    | init => exact ⟨hr, .init⟩
    | @step s s' ev _ hok hs ih =>
      have hset : (settingsAfter s.settings ev).fileRotationSize = 0 := by
        cases ev with
        | set x =>
          cases x with
          | fileRotationSize n => exact absurd rfl (hok.2 n)
          | _ => exact ih.1
        | _ => exact ih.1
      refine ⟨by rw [settings_step hs]; exact hset, .step ev ih.2 ?_ hs⟩
      have hw : ∀ io, NoFault io → Writable io := by rintro io rfl; exact ⟨rfl, rfl⟩
      cases ev with
      | set x => exact hset
      | thread io => exact hok.1
      | flush io ios => exact ⟨hw io hok.1.1, fun io h => hw io (hok.1.2 io h)⟩
      | _ => trivial
  exact disk_exact ⟨rfl, rfl⟩ hfs ⟨σ, hr, h0.2⟩ name

/-- Entries are written in pairs. -/
def examplePairs : Settings := { exampleSettings with bufferFlushSize := 2 }

/-- Three entries; the destructor begins while the logging thread writes two of them, and
writes the third one. -/
def exampleEnd : List Event :=
  exampleWrite 1 0 "one" ++ exampleWrite 2 0 "two" ++ exampleWrite 3 1 "three" ++ [.notify 0] ++
    exampleThread 3 ++ [.stop, .stopNotify] ++ exampleThread 8 ++ [.join, .flush {} [], .flush {} [], .finish]

example : ∃ s, run examplePaths (init examplePairs {}) exampleEnd = some s ∧ s.stage = .destroyed ∧
    (accepted s 0).map (·.message) = ["one".toList, "two".toList] ∧
    (accepted s 1).map (·.message) = ["three".toList] ∧ Usable examplePairs ∧
    ReachableBy examplePaths (fun s ev => Orderly s ev ∧ ∀ n, ev ≠ .set (.fileRotationSize n))
      examplePairs {} s :=
  ⟨_, rfl, rfl, by decide, by decide, example_usable, log_reachableBy (evs := exampleEnd) (by
    intro ev hev s
    simp only [exampleEnd, exampleWrite, exampleThread, List.replicate, List.cons_append, List.nil_append,
      List.mem_cons, List.not_mem_nil, or_false] at hev
    rcases hev with rfl | rfl | rfl | rfl | rfl | rfl | rfl | rfl | rfl | rfl | rfl | rfl | rfl | rfl | rfl |
      rfl | rfl | rfl | rfl | rfl | rfl | rfl | rfl | rfl | rfl | rfl | rfl <;>
      exact ⟨by simp [Orderly, Writable, NoFault], by simp⟩) rfl⟩

/-! ## C29: the destructor need not return -/

/-- C29. The destructor can wait forever: the logging thread has looked at the flag and is about to
wait when the destructor sets the flag and notifies; then nothing but a spurious wake-up can
happen. (The property is false.) -/
theorem C29_hangs : ∃ s, Reachable examplePaths exampleSettings {} s ∧ s.stage = .joining ∧
    s.crashed = false ∧ ∀ ev, ev ≠ .spurious → step examplePaths s ev = none := by
  let evs := exampleThread 4 ++ [Event.stop, .stopNotify, .thread {}]
  refine ⟨_, log_reachable (evs := evs) rfl, rfl, rfl, ?_⟩
  intro ev hne
  cases ev with
  | spurious => exact absurd rfl hne
  | _ => rfl

/-- C29, the part that holds: if the logging thread is not on its way to waiting when the
destructor notifies it, then every continuation is of bounded length and can only end with
the return of the destructor (or with an uncaught exception, see C86).  Missing: the case of
`C29_hangs`. -/
theorem C29_returns_partial {paths : Nat → Path} {σ : Settings} {fs : Fs} {s s₁ : State}
    (h : Reachable paths σ fs s) (hs : step paths s .stopNotify = some s₁) (hd : s.thread ≠ .drowsy) :
    ∃ n, ∀ evs s', run paths s₁ evs = some s' → evs.length ≤ n ∧
      (s'.stage = .destroyed ∨ s'.crashed = true ∨ ∃ ev, (step paths s' ev).isSome) := by
  have h1 := Reachable.step .stopNotify h hs
  have he : Ending s₁ := by
    replace hs := (step_cases hs).2
    cases hs with
    | stopNotify hst =>
      refine .inl ⟨rfl, ?_, wake_ne_asleep _⟩
      intro e
      cases ht : s.thread <;> simp_all [wake]
  refine ⟨endWork s₁, ?_⟩
  intro evs s' hr
  obtain ⟨he', hl⟩ := ending_run h1 he hr
  refine ⟨by omega, ?_⟩
  by_cases h2 : s'.stage = .destroyed
  · exact .inl h2
  · by_cases h3 : s'.crashed = true
    · exact .inr (.inl h3)
    · exact .inr (.inr (ending_enabled (reachable_run h1 hr) he' (by simpa using h3) h2))

/-- C29. Whenever the logging thread is on its way to waiting when the destructor notifies it, the destructor does not
return: whatever happens then except a spurious wake-up, it waits for the logging thread, which waits.  Together with
`C29_returns_partial` this says exactly when the destructor hangs. -/
theorem C29_hangs_always {paths : Nat → Path} {σ : Settings} {fs : Fs} {s s₁ s₂ : State} {evs : List Event}
    (h : Reachable paths σ fs s) (hd : s.thread = .drowsy) (hs : step paths s .stopNotify = some s₁)
    (hr : run paths s₁ evs = some s₂) (hev : .spurious ∉ evs) :
    s₂.stage = .joining ∧ (s₂.thread = .drowsy ∨ s₂.thread = .asleep) := by
  have h1 := Reachable.step .stopNotify h hs
  have h0 : s₁.stage = .joining ∧ (s₁.thread = .drowsy ∨ s₁.thread = .asleep) := by
    replace hs := (step_cases hs).2
    cases hs with
    | stopNotify hst => exact ⟨rfl, .inl (by simp only [hd]; rfl)⟩
  clear hs
  induction evs generalizing s₁ with
  | nil => cases hr; exact h0
  | cons ev evs ih =>
    unfold run at hr
    split at hr
    · rename_i s' hs
      have h2 := Reachable.step ev h1 hs
      refine ih hr (fun hm => hev (List.mem_cons_of_mem _ hm)) h2 ?_
      obtain ⟨hst, ht⟩ := h0
      have hc : Closing s₁ := by
        rcases closing h1 with ⟨h3, -⟩ | ⟨-, h3⟩
        · rw [hst] at h3; cases h3
        · exact h3
      obtain ⟨hcr, -⟩ := step_cases hs
      unfold step at hs
      rw [if_neg (by simp [hcr])] at hs
      cases ev with
      | spurious => exact absurd (List.mem_cons_self ..) hev
      | thread io =>
        simp only [threadStep] at hs
        rcases ht with ht | ht <;> rw [ht] at hs <;> simp only [reduceCtorEq] at hs
        cases hs
        exact ⟨hst, .inr rfl⟩
      | join => rcases ht with ht | ht <;> simp [hst, ht] at hs
      | leave =>
        rcases hc.owner with ho | ho <;> simp [ho] at hs
      | _ => simp [hst, hc.calls, hc.notifying, hc.setters] at hs
    · cases hr

/-- C29. Also a destructor that waits as in `C29_hangs` goes on if the logging thread wakes up
spuriously. -/
theorem C29_spurious_partial {paths : Nat → Path} {σ : Settings} {fs : Fs} {s s₁ : State}
    (h : Reachable paths σ fs s) (hst : s.stage = .joining) (hs : step paths s .spurious = some s₁) :
    ∃ n, ∀ evs s', run paths s₁ evs = some s' → evs.length ≤ n ∧
      (s'.stage = .destroyed ∨ s'.crashed = true ∨ ∃ ev, (step paths s' ev).isSome) := by
  have h1 := Reachable.step .spurious h hs
  have he : Ending s₁ := by
    replace hs := (step_cases hs).2
    cases hs with
    | spurious => exact .inl ⟨hst, by simp, by simp⟩
  refine ⟨endWork s₁, ?_⟩
  intro evs s' hr
  obtain ⟨he', hl⟩ := ending_run h1 he hr
  refine ⟨by omega, ?_⟩
  by_cases h2 : s'.stage = .destroyed
  · exact .inl h2
  · by_cases h3 : s'.crashed = true
    · exact .inr (.inl h3)
    · exact .inr (.inr (ending_enabled (reachable_run h1 hr) he' (by simpa using h3) h2))

example : ∃ s s₁ s₂, run examplePaths (init exampleSettings {})
      (exampleWrite 1 0 "one" ++ [.notify 0] ++ exampleThread 4 ++ [.stop]) = some s ∧
    step examplePaths s .stopNotify = some s₁ ∧ s.thread ≠ .drowsy ∧
    run examplePaths s₁ (exampleThread 5 ++ [.join, .flush {} [], .finish]) = some s₂ ∧
    s₂.stage = .destroyed := ⟨_, _, _, rfl, rfl, by decide, rfl, rfl⟩

/-! ## C30: rotation -/

/-- C30. If nothing fails, rotation with limit `limit` gives the contents of file `i` to file `i + 1`,
removes those beyond the limit, and touches nothing else; `k` is the number of files without
gaps. In particular, with limit 0 the files are removed. -/
theorem C30_rotates {p : Path} {limit k : Nat} {fs : Fs} (hex : ∀ i < k, read fs (pathAt p i) ≠ none)
    (hk : read fs (pathAt p k) = none) :
    ∃ fs', rotate {} p limit fs = (fs', true) ∧ fs'.dirs = fs.dirs ∧
      (∀ q, (∀ i, q ≠ pathAt p i) → read fs' q = read fs q) ∧
      ∀ i, read fs' (pathAt p i) =
        if i = 0 then none
        else if i ≤ k ∧ i ≤ limit then read fs (pathAt p (i - 1))
        else if i ≤ k then none
        else read fs (pathAt p i) := rotate_spec rfl rfl hex hk

/-- C30. There always is such a `k`. -/
theorem C30_gap (fs : Fs) (p : Path) :
    ∃ k, (∀ i < k, read fs (pathAt p i) ≠ none) ∧ read fs (pathAt p k) = none := exists_first fs p

/-- C30. Whatever fails, rotation overwrites and duplicates no file, keeps their order, and loses none
with a number below the limit. -/
theorem C30_failures {f : RotateFaults} {p : Path} {limit : Nat} {fs fs' : Fs} {b : Bool}
    (h : rotate f p limit fs = (fs', b)) : ∃ source, Carried p (· < limit) fs fs' source := rotate_carried h

/-- C30. The files of a log file have different paths, and the first one is the path itself. -/
theorem C30_paths (p : Path) : pathAt p 0 = p ∧ ∀ i j, pathAt p i = pathAt p j → i = j :=
  ⟨pathAt_zero p, fun _ _ => pathAt_inj⟩

/-- C30. Rotated files are called `base_1.ext`, `base_2.ext`, …, or `base_1`, `base_2`, … if there is no
extension. -/
theorem C30_names (d base ext : List Char) (hb : base ≠ []) (he : '.' ∉ ext)
    (hne : base ++ '.' :: ext ≠ ['.', '.']) (i : Nat) :
    pathAt ⟨d, base ++ '.' :: ext⟩ (i + 1) = ⟨d, base ++ '_' :: (Nat.repr (i + 1)).toList ++ '.' :: ext⟩ ∧
    ('.' ∉ base → pathAt ⟨d, base⟩ (i + 1) = ⟨d, base ++ '_' :: (Nat.repr (i + 1)).toList⟩) :=
  pathAt_name d base ext hb he hne i

/-- C30. A dot at the beginning of a name is no extension: `.log` is rotated to `.log_1`. -/
theorem C30_hidden_names (d base : List Char) (hb : '.' ∉ base) (i : Nat) :
    pathAt ⟨d, '.' :: base⟩ (i + 1) = ⟨d, '.' :: base ++ '_' :: (Nat.repr (i + 1)).toList⟩ :=
  pathAt_hidden d base hb i

example : "archive.tar".toList ≠ [] ∧ '.' ∉ "log".toList ∧
    "archive.tar".toList ++ '.' :: "log".toList ≠ ['.', '.'] ∧
    pathAt ⟨['/'], "archive.tar.log".toList⟩ 12 = ⟨['/'], "archive.tar_12.log".toList⟩ := by decide

/-- Three files, as after two rotations. -/
def exampleFiles : Fs where
  files := [(pathAt (examplePaths 0) 0, [⟨.old, ['c']⟩]), (pathAt (examplePaths 0) 1, [⟨.old, ['b']⟩]),
    (pathAt (examplePaths 0) 2, [⟨.old, ['a']⟩])]
  dirs := [['/']]

example : (∀ i < 3, read exampleFiles (pathAt (examplePaths 0) i) ≠ none) ∧
    read exampleFiles (pathAt (examplePaths 0) 3) = none ∧
    ((rotate {} (examplePaths 0) 2 exampleFiles).1.files.map fun x => (x.1.name, x.2.map (·.text))) =
      [("log_1.txt".toList, [['c']]), ("log_2.txt".toList, [['b']])] := by decide

/-! ## C31: the size of files, and headers -/

/-- C31. With a fixed positive rotation size `r`, whatever fails: when a piece (header or entry) is
put into a file, the file is shorter than `r`, or contains just its header. -/
theorem C31_size {paths : Nat → Path} {r : Nat} {fs : Fs} {s : State} (hr : 0 < r) (hfs : Fresh fs)
    (h : Reaches paths (·.fileRotationSize = r) (fun _ => True) fs s) : Everywhere (Small r) s.fs :=
  files_small hr hfs trivial h

/-- C31. With a fixed rotation size `r`, if what is put into an open file gets there: no file is
rotated too early, so rotated files (those with a number) have at least `r` bytes, unless they have
been there from the beginning. -/
theorem C31_not_early {paths : Nat → Path} {r : Nat} {fs : Fs} {s : State} (hsep : Distinct paths) (hfs : Fresh fs)
    (h : Reaches paths (·.fileRotationSize = r) Writable fs s) : Filled paths r s.fs := files_filled hsep hfs h

/-- C31. If headers are wanted, the writers do not throw and what is put into an open file gets
there, then every file that is not empty begins with a header, and has no other. -/
theorem C31_header {paths : Nat → Path} {fs : Fs} {s : State} (hfs : Fresh fs)
    (h : Reaches paths (fun σ => (GoodWriter σ ∧ ∃ text, σ.headerWriter = .ok text) ∧ σ.writeHeader = true)
      Writable fs s) : Everywhere Headed s.fs := files_headed hfs h

/-- Rotation when a file has 4 bytes; a header has 2. -/
def exampleRotating : Settings := { exampleSettings with fileRotationSize := 4, fileRotationLimit := 2 }

/-- Three entries of which two fit into a file. -/
def exampleRotation : List Event :=
  exampleWrite 1 0 "" ++ exampleWrite 2 0 "2" ++ exampleWrite 3 0 "3" ++ exampleThread 8

example : ∃ s, run examplePaths (init exampleRotating {}) exampleRotation = some s ∧
    (s.fs.files.map fun x => (x.1.name, x.2.map (·.text))) =
      [("log.txt".toList, [['H', '\n'], ['3', '\n']]),
        ("log_1.txt".toList, [['H', '\n'], ['\n'], ['2', '\n']])] ∧
    Reaches examplePaths (·.fileRotationSize = 4) (fun _ => True) {} s ∧
    Reaches examplePaths (·.fileRotationSize = 4) Writable {} s ∧
    Reaches examplePaths (fun σ => (GoodWriter σ ∧ ∃ text, σ.headerWriter = .ok text) ∧ σ.writeHeader = true)
      Writable {} s :=
  ⟨_, rfl, by decide, log_reaches (σ := exampleRotating) (evs := exampleRotation) rfl (by
    intro ev hev s
    simp only [exampleRotation, exampleWrite, exampleThread, List.replicate, List.cons_append, List.nil_append,
      List.mem_cons, List.not_mem_nil, or_false] at hev
    rcases hev with rfl | rfl | rfl | rfl | rfl | rfl | rfl | rfl | rfl | rfl | rfl | rfl | rfl | rfl | rfl |
      rfl | rfl <;> trivial) rfl,
  log_reaches (σ := exampleRotating) (evs := exampleRotation) rfl (by
    intro ev hev s
    simp only [exampleRotation, exampleWrite, exampleThread, List.replicate, List.cons_append, List.nil_append,
      List.mem_cons, List.not_mem_nil, or_false] at hev
    rcases hev with rfl | rfl | rfl | rfl | rfl | rfl | rfl | rfl | rfl | rfl | rfl | rfl | rfl | rfl | rfl |
      rfl | rfl <;> trivial) rfl,
  log_reaches (σ := exampleRotating) (evs := exampleRotation) ⟨⟨example_usable.1, example_usable.2.1⟩, rfl⟩ (by
    intro ev hev s
    simp only [exampleRotation, exampleWrite, exampleThread, List.replicate, List.cons_append, List.nil_append,
      List.mem_cons, List.not_mem_nil, or_false] at hev
    rcases hev with rfl | rfl | rfl | rfl | rfl | rfl | rfl | rfl | rfl | rfl | rfl | rfl | rfl | rfl | rfl |
      rfl | rfl <;> trivial) rfl⟩

/-! ## C32: rotation loses only the oldest entries -/

/-- C32. With a fixed limit, whatever fails: the entries in the files of a log file, oldest file first,
are the last ones that were written. (Different files must not have the same paths when they are rotated,
see `C32_collision`; but several names may stand for one file, see C140.) -/
theorem C32_suffix_partial {paths : Nat → Path} {limit : Nat} {fs : Fs} {s : State} (hsep : Distinct paths)
    (hfs : Fresh fs) (h : Reaches paths (·.fileRotationLimit = limit) (fun _ => True) fs s) (name k : Nat) :
    chain s.fs (paths name) name k <:+ written s name := disk_suffix_fixed trivial hsep hfs h name k

/-- C32. The same if the limit is changed, provided that rotation does not fail (but opening and
writing files may). -/
theorem C32_suffix_changes_partial {paths : Nat → Path} {fs : Fs} {s : State} (hsep : Distinct paths)
    (hfs : Fresh fs) (h : Reaches paths (fun _ => True) (fun io => io.rotating = {}) fs s) (name k : Nat) :
    chain s.fs (paths name) name k <:+ written s name := disk_suffix hsep hfs h name k

/-- C32. If the limit is changed and rotation fails, the entries are still entries that were written, in
order. -/
theorem C32_sublist_partial {paths : Nat → Path} {fs : Fs} {s : State} (hsep : Distinct paths)
    (hfs : Fresh fs) (h : Reaches paths (fun _ => True) (fun _ => True) fs s) (name k : Nat) :
    (chain s.fs (paths name) name k).Sublist (written s name) := disk_sublist trivial hsep hfs h name k

/-- C32. Entries of a log file are only in its files. -/
theorem C32_placed_partial {paths : Nat → Path} {fs : Fs} {s : State} (hsep : Distinct paths)
    (hfs : Fresh fs) (h : Reaches paths (fun _ => True) (fun _ => True) fs s) : Placed paths s.fs :=
  disk_placed trivial hsep hfs h

/-- Rotation before every entry. -/
def exampleSingle (limit : Nat) : Settings :=
  { exampleSettings with writeHeader := false, fileRotationSize := 1, fileRotationLimit := limit }

/-- Three entries in three files; then the limit is lowered, and the rotation for a fourth one
fails after it has removed a file. -/
def exampleLowered : List Event :=
  exampleWrite 1 0 "1" ++ exampleWrite 2 0 "2" ++ exampleWrite 3 0 "3" ++ exampleThread 15 ++
    [.set (.fileRotationLimit 1)] ++ exampleWrite 4 0 "4" ++ [.notify 0] ++ exampleThread 4 ++
    [.thread { rotating := { scan := some 2 } }]

/-- C32. If the limit is changed and rotation fails, older entries can survive newer ones. (The property
is false.) -/
theorem C32_fails_lowered_limit : ∃ s, run examplePaths (init (exampleSingle 2) {}) exampleLowered = some s ∧
    (written s 0).map (·.message) = [['1'], ['2'], ['3']] ∧
    (chain s.fs (examplePaths 0) 0 5).map (·.message) = [['1'], ['3']] ∧
    ¬ chain s.fs (examplePaths 0) 0 5 <:+ written s 0 :=
  ⟨_, rfl, by decide, by decide, by
    intro h
    have := h.map (f := (·.message))
    revert this
    decide⟩

/-- Two log files, one of which is called like a rotated file of the other. -/
def exampleColliding (n : Nat) : Path := ⟨['/'], if n = 0 then "a.txt".toList else "a_1.txt".toList⟩

theorem exampleColliding_ne (i : Nat) : pathAt (exampleColliding 0) i ≠ ⟨['/'], "a_1_1.txt".toList⟩ := by
  intro h
  have hn := congrArg Path.name h
  have hs : stem (exampleColliding 0).name = ['a'] := by decide
  have he : extension (exampleColliding 0).name = ".txt".toList := by decide
  unfold pathAt at hn
  simp only [hs, he] at hn
  by_cases hi : i = 0
  · subst hi; revert hn; decide
  · rw [if_neg hi] at hn
    have h2 : '_' ∈ Nat.toDigits 10 i := by
      have h1 : Log.toString i = ['1', '_', '1'] := by
        generalize Log.toString i = d at hn
        have : (['a'] ++ '_' :: d) ++ ".txt".toList = ['a', '_', '1', '_', '1'] ++ ".txt".toList := hn
        have := List.append_cancel_right this
        simpa using this
      rw [show Nat.toDigits 10 i = ['1', '_', '1'] from h1]; decide
    have := Nat.isDigit_of_mem_toDigits (by decide) (by decide) h2
    revert this
    decide

/-- C32. If a log file is called like a rotated file of another one, rotation mixes them up: an entry
of the first one is in a file of the second one, and an entry of the second one is neither in its
file nor in the rotated file. (The property is false.) -/
theorem C32_fails_collision : ∃ s, run exampleColliding (init (exampleSingle 1) {})
      (exampleWrite 1 0 "x" ++ exampleWrite 2 0 "y" ++ exampleWrite 3 1 "z" ++ exampleThread 13) = some s ∧
    (written s 0).map (·.message) = [['x'], ['y']] ∧ (written s 1).map (·.message) = [['z']] ∧
    (s.fs.files.map fun x => (x.1.name, x.2.map (·.text))) =
      [("a_1.txt".toList, [['z', '\n']]), ("a_1_1.txt".toList, [['x', '\n']]), ("a.txt".toList, [['y', '\n']])] ∧
    ¬ Placed exampleColliding s.fs :=
  ⟨_, rfl, by decide, by decide, by decide, by
    intro h
    obtain ⟨i, hi⟩ := h ⟨['/'], "a_1_1.txt".toList⟩ 0 (by decide)
    exact exampleColliding_ne i hi.symm⟩

example : ∃ s, run examplePaths (init exampleRotating {}) exampleRotation = some s ∧
    (chain s.fs (examplePaths 0) 0 2).map (·.message) = [[], ['2'], ['3']] ∧
    Distinct examplePaths ∧ Fresh {} ∧
    Reaches examplePaths (·.fileRotationLimit = 2) (fun _ => True) {} s :=
  ⟨_, rfl, by decide, examplePaths_distinct, fresh_empty,
  log_reaches (σ := exampleRotating) (evs := exampleRotation) rfl (by
    intro ev hev s
    simp only [exampleRotation, exampleWrite, exampleThread, List.replicate, List.cons_append, List.nil_append,
      List.mem_cons, List.not_mem_nil, or_false] at hev
    rcases hev with rfl | rfl | rfl | rfl | rfl | rfl | rfl | rfl | rfl | rfl | rfl | rfl | rfl | rfl | rfl |
      rfl | rfl <;> trivial) rfl⟩

/-! ## C85: the number of files -/

/-- C85. With a fixed limit, whatever fails, there are entries of a log file only in the file itself and
in those with the numbers 1, ..., limit. -/
theorem C85_files {paths : Nat → Path} {limit : Nat} {fs : Fs} {s : State} (hsep : Distinct paths)
    (hfs : Fresh fs) (h : Reaches paths (·.fileRotationLimit = limit) (fun _ => True) fs s) (name : Nat) (q : Path)
    (hq : own name (read s.fs q) ≠ []) : ∃ i ≤ limit, q = pathAt (paths name) i := by
  obtain ⟨σ, hσ, hr⟩ := id h
  have hall : Reaches paths (fun _ => True) (fun _ => True) fs s := by
    refine ⟨σ, trivial, reachableBy_mono hr ?_⟩
    intro s ev hok
    cases ev with
    | set x => trivial
    | _ => exact hok
  obtain ⟨i, rfl⟩ := disk_placed trivial hsep hfs hall q name hq
  refine ⟨i, ?_, rfl⟩
  by_contra hi
  exact hq (disk_limit trivial hsep hfs h name i (by omega))

/-! ## C33: failures of the file system -/

/-- C33. The entries accepted are different. -/
theorem C33_ids {paths : Nat → Path} {σ : Settings} {fs : Fs} {s : State} (h : Reachable paths σ fs s)
    (name : Nat) : ((accepted s name).map (·.id)).Nodup := by
  have h2 := (C24_accounting h).1
  unfold requests at h2
  rw [List.append_assoc, List.map_append] at h2
  have h3 : ((accepted s name).map (·.id)).Sublist (s.accepted.map (·.2.id)) := by
    unfold accepted
    induction s.accepted with
    | nil => exact List.Sublist.refl _
    | cons x xs ih =>
      by_cases hx : x.1 = name
      · rw [List.filterMap_cons_some (b := x.2) (by simp [hx])]
        exact ih.cons_cons _
      · rw [List.filterMap_cons_none (by simp [hx])]
        exact ih.cons _
  exact h3.nodup (List.nodup_append.1 h2).1

/-- C33. Whatever fails, no entry is written twice, and entries are written in the order in which they
were accepted. -/
theorem C33_once {paths : Nat → Path} {σ : Settings} {fs : Fs} {s : State} (h : Reachable paths σ fs s)
    (name : Nat) : (written s name).Sublist (accepted s name) ∧ ((written s name).map (·.id)).Nodup := by
  have h1 : (written s name).Sublist (accepted s name) :=
    (written_sublist_passed s name).trans (by rw [C23_order h name]; exact List.sublist_append_left ..)
  exact ⟨h1, (h1.map _).nodup (C33_ids h name)⟩

/-- C33. If a step of the logging thread fails, or not: unless the log writer throws or writing to the
open file fails, the entries to be written are the same as before, or the oldest one of a log file
has been written. -/
theorem C33_step {paths : Nat → Path} {fs : Fs} {s s' : State} {io : Io}
    (h : Reaches paths GoodWriter Writable fs s) (hio : Writable io)
    (hs : step paths s (.thread io) = some s') (name : Nat) :
    (written s' name = written s name ∧ pending s' name = pending s name) ∨
    ∃ e, written s' name = written s name ++ [e] ∧ pending s name = e :: pending s' name := by
  have h' : Reaches paths GoodWriter Writable fs s' := by
    obtain ⟨σ, hσ, hr⟩ := h
    exact ⟨σ, hσ, .step (.thread io) hr hio hs⟩
  have ha : accepted s' name = accepted s name := by
    replace hs := (step_cases hs).2
    cases hs <;> rfl
  have hw : written s' name = written s name ∨ ∃ e, written s' name = written s name ++ [e] := by
    replace hs := (step_cases hs).2
    cases hs with
    | writeNext _ n p l e todo done fs l' whole ht hw =>
      unfold written
      simp only [List.filterMap_append]
      by_cases hc : n = name ∧ whole = true
      · exact .inr ⟨e, by simp [hc]⟩
      · exact .inl (by simp [hc])
    | writeAfter _ n p l e todo done fs ht hw =>
      left
      unfold written
      simp
    | _ => exact .inl rfl
  have e1 := C23_written h name
  have e2 := C23_written h' name
  rw [ha, e1] at e2
  rcases hw with hw | ⟨e, hw⟩
  · left
    refine ⟨hw, ?_⟩
    rw [hw] at e2
    exact (List.append_cancel_left e2).symm
  · right
    refine ⟨e, hw, ?_⟩
    rw [hw, List.append_assoc] at e2
    exact List.append_cancel_left e2

/-- The first attempt to open the file fails, the second one to rotate. -/
def exampleFailures : List Event :=
  exampleWrite 1 0 "1" ++ exampleWrite 2 0 "2" ++ exampleThread 3 ++ [.thread { opening := true }] ++
    exampleThread 6 ++ [.thread { rotating := { rename := some 1 } }] ++ exampleThread 5

example : ∃ s, run examplePaths (init (exampleSingle 1) {}) exampleFailures = some s ∧
    (written s 0).map (·.message) = [['1']] ∧ (pending s 0).map (·.message) = [['2']] ∧
    Reaches examplePaths GoodWriter Writable {} s :=
  ⟨_, rfl, by decide, by decide, log_reaches (σ := exampleSingle 1) (evs := exampleFailures) example_usable.1 (by
    intro ev hev s
    simp only [exampleFailures, exampleWrite, exampleThread, List.replicate, List.cons_append, List.nil_append,
      List.mem_cons, List.not_mem_nil, or_false] at hev
    rcases hev with rfl | rfl | rfl | rfl | rfl | rfl | rfl | rfl | rfl | rfl | rfl | rfl | rfl | rfl | rfl |
      rfl | rfl | rfl | rfl | rfl | rfl | rfl <;> trivial) rfl⟩

/-! ## C82: what is lost if writing fails -/

/-- C82. If writing to the open file fails, entries are lost without a trace: they are neither in the
file nor to be written, and not counted as discarded. (The property is false.) -/
theorem C82_fails_disk_full : ∃ s, run examplePaths (init exampleSettings {})
      (exampleWrite 1 0 "1" ++ exampleWrite 2 0 "2" ++ exampleThread 4 ++ [.thread { entry := some 1 }] ++
        exampleThread 3) = some s ∧
    (accepted s 0).map (·.message) = [['1'], ['2']] ∧ written s 0 = [] ∧ buffered s 0 = [] ∧
    s.discarded = 0 := ⟨_, rfl, by decide⟩

/-- C82. The same if the log writer throws a `filesystem_error`. (The property is false.) -/
theorem C82_fails_writer : ∃ s, run examplePaths
      (init { exampleSettings with logWriter := fun e => if e.id = 0 then .fsError [] else .ok e.message } {})
      (exampleWrite 1 0 "1" ++ exampleWrite 2 0 "2" ++ exampleThread 13) = some s ∧
    (accepted s 0).map (·.message) = [['1'], ['2']] ∧ (written s 0).map (·.message) = [['2']] ∧
    buffered s 0 = [] ∧ s.discarded = 0 := ⟨_, rfl, by decide⟩

/-- C82, the part that holds: unless writing to an open file fails or the log writer throws, every
entry accepted has been written, once, or is still in the buffer, whatever else fails. -/
theorem C82_kept_partial {paths : Nat → Path} {fs : Fs} {s : State}
    (h : Reaches paths GoodWriter Writable fs s) (name : Nat) (e : Entry) (he : e ∈ accepted s name) :
    (e ∈ written s name ∧ e ∉ pending s name) ∨ (e ∉ written s name ∧ e ∈ pending s name ∧ e ∈ buffered s name) := by
  obtain ⟨σ, -, hr⟩ := id h
  have hd := C33_ids (reachable_of_by hr) name
  rw [C23_written h name] at he hd
  rw [List.map_append] at hd
  have hx : ∀ a ∈ written s name, ∀ b ∈ pending s name, a ≠ b := by
    rintro a ha b hb rfl
    exact (List.nodup_append.1 hd).2.2 _ (List.mem_map_of_mem ha) _ (List.mem_map_of_mem hb) rfl
  rcases List.mem_append.1 he with h1 | h1
  · exact .inl ⟨h1, fun h2 => hx e h1 e h2 rfl⟩
  · exact .inr ⟨fun h2 => hx e h2 e h1 rfl, h1, List.mem_of_mem_drop h1⟩

/-! ## C34: the logging thread is woken -/

/-- C34. If the flush size is not lowered while the logging thread owns the mutex: if a buffer is to be
written and the logging thread sleeps, then a notification by a producer or by `buffer_flush_size` is
under way, or a producer is about to compare the size of its buffer with the flush size and to
notify. -/
theorem C34_woken {paths : Nat → Path} {σ : Settings} {fs : Fs} {s : State}
    (h : ReachableBy paths KeepFlush σ fs s) {name : Nat} (hf : Full s name) (ht : s.thread = .asleep) :
    s.notifying ≠ [] ∨ 0 < s.setters ∨ ∃ tid m, s.owner = .producer tid m ∧
      s.settings.bufferFlushSize ≤ (buffered s m).length := by
  have := alert h
  rw [ht] at this
  exact this ⟨name, hf⟩

/-- C34. If the flush size is lowered while the logging thread is about to wait, the notification is
lost: a buffer is to be written, the logging thread sleeps, and nothing happens (except by further
calls of the interface and spurious wake-ups). (So the property is false for such executions.) -/
theorem C34_fails_flush_size : ∃ s, run examplePaths (init examplePairs {})
      (exampleWrite 1 0 "1" ++ exampleThread 5 ++ [.set (.bufferFlushSize 1), .setNotify, .thread {}]) = some s ∧
    Full s 0 ∧ s.thread = .asleep ∧ ∀ ev, Own ev → step examplePaths s ev = none := by
  refine ⟨_, rfl, by unfold Full; decide, rfl, ?_⟩
  intro ev hev
  cases ev with
  | enter i => rfl
  | leave => rfl
  | notify i => rfl
  | setNotify => rfl
  | thread io => rfl
  | _ => exact absurd hev id

example : ∃ s, run examplePaths (init exampleSettings {}) (exampleThread 5 ++ exampleWrite 1 0 "1") = some s ∧
    Full s 0 ∧ s.thread = .asleep ∧ s.notifying = [1] ∧
    ReachableBy examplePaths KeepFlush exampleSettings {} s :=
  ⟨_, rfl, by unfold Full; decide, rfl, rfl,
  log_reachableBy (evs := exampleThread 5 ++ exampleWrite 1 0 "1") (by
    intro ev hev s
    simp only [exampleWrite, exampleThread, List.replicate, List.cons_append, List.nil_append,
      List.mem_cons, List.not_mem_nil, or_false] at hev
    rcases hev with rfl | rfl | rfl | rfl | rfl | rfl | rfl | rfl <;> trivial) rfl⟩

example : ∃ s, run examplePaths (init examplePairs {})
      (exampleWrite 1 0 "1" ++ exampleThread 6 ++ [.set (.bufferFlushSize 1)]) = some s ∧
    Full s 0 ∧ s.thread = .asleep ∧ s.setters = 1 ∧ ReachableBy examplePaths KeepFlush examplePairs {} s := by
  have h1 : ∃ s, run examplePaths (init examplePairs {}) (exampleWrite 1 0 "1" ++ exampleThread 6) = some s ∧
      s.owner = .free ∧ ReachableBy examplePaths KeepFlush examplePairs {} s :=
    ⟨_, rfl, rfl, log_reachableBy (σ := examplePairs) (evs := exampleWrite 1 0 "1" ++ exampleThread 6) (by
      intro ev hev s
      simp only [exampleWrite, exampleThread, List.replicate, List.cons_append, List.nil_append,
        List.mem_cons, List.not_mem_nil, or_false] at hev
      rcases hev with rfl | rfl | rfl | rfl | rfl | rfl | rfl | rfl | rfl <;> trivial) rfl⟩
  obtain ⟨s, hr, ho, hby⟩ := h1
  have h2 : ∃ s', step examplePaths s (.set (.bufferFlushSize 1)) = some s' ∧
      run examplePaths (init examplePairs {})
        (exampleWrite 1 0 "1" ++ exampleThread 6 ++ [.set (.bufferFlushSize 1)]) = some s' ∧
      Full s' 0 ∧ s'.thread = .asleep ∧ s'.setters = 1 := by
    cases hr
    exact ⟨_, rfl, rfl, by unfold Full; decide, rfl, rfl⟩
  obtain ⟨s', hs, h3, h4, h5, h6⟩ := h2
  exact ⟨s', h3, h4, h5, h6, .step (.set (.bufferFlushSize 1)) hby (.inr (by rw [ho]; simp)) hs⟩

/-! ## C83: the logger comes to rest -/

/-- C83. If nothing fails and nobody calls the interface any more, then whatever the schedule, the calls
in progress and the logging thread take boundedly many steps, and no exception ends the program. -/
theorem C83_bounded {paths : Nat → Path} {σ : Settings} {fs : Fs} {s : State} (h : Reachable paths σ fs s)
    (hσ : Usable s.settings) (ha : s.stage = .alive) (hcr : s.crashed = false) :
    ∃ n, ∀ evs s', (∀ ev ∈ evs, Own ev) → run paths s evs = some s' →
      evs.length ≤ n ∧ s'.crashed = false ∧ s'.stage = .alive := by
  have hl : s.isLogging = true := by
    rcases closing h with ⟨-, h1⟩ | ⟨h1, -⟩
    · exact h1
    · exact absurd ha h1
  refine ⟨restWork s, ?_⟩
  intro evs s' hok hr
  obtain ⟨h1, -, -, h2, h3⟩ := rest_run h hσ hl hok hr
  exact ⟨by omega, h3 hcr, by rw [h2]; exact ha⟩

/-- C83. When nothing more can happen, no call is in progress, the logging thread sleeps, and (unless the
flush size was lowered while the logging thread owned the mutex) every buffer is smaller than the flush size. -/
theorem C83_rest {paths : Nat → Path} {σ : Settings} {fs : Fs} {s : State}
    (h : ReachableBy paths KeepFlush σ fs s) (ha : s.stage = .alive) (hcr : s.crashed = false)
    (hr : ∀ ev, Own ev → step paths s ev = none) :
    s.calls = [] ∧ s.thread = .asleep ∧ ∀ name, ¬ Full s name := by
  have h' := reachable_of_by h
  have hl : s.isLogging = true := by
    rcases closing h' with ⟨-, h1⟩ | ⟨h1, -⟩
    · exact h1
    · exact absurd ha h1
  obtain ⟨h1, h2, h3, h4, h5⟩ := rest_state h' hl hcr hr
  have ht : s.thread = .asleep := h5.resolve_right (not_exited h' hl)
  refine ⟨h1, ht, fun name hf => ?_⟩
  rcases C34_woken h hf ht with h6 | h6 | ⟨_, _, h6, -⟩
  · exact h6 h2
  · rw [h3] at h6; cases h6
  · rw [h4] at h6; cases h6

/-- C83. So with flush size 0 or 1, when nothing more can happen everything accepted has been written. -/
theorem C83_written {paths : Nat → Path} {σ : Settings} {fs : Fs} {s : State}
    (h : ReachableBy paths (fun s ev => KeepFlush s ev ∧ Within GoodWriter Writable s ev) σ fs s)
    (hσ : GoodWriter σ) (hb : s.settings.bufferFlushSize ≤ 1)
    (ha : s.stage = .alive) (hcr : s.crashed = false) (hr : ∀ ev, Own ev → step paths s ev = none)
    (name : Nat) : written s name = accepted s name := by
  have h1 := C23_written ⟨σ, hσ, reachableBy_mono h fun _ _ h => h.2⟩ name
  have h2 := (C83_rest (reachableBy_mono h fun _ _ h => h.1) ha hcr hr).2.2 name
  have h3 : buffered s name = [] := by
    by_contra hne
    refine h2 ⟨hne, Nat.le_trans hb ?_⟩
    exact List.length_pos_iff.2 hne
  rw [h1, pending, h3, List.drop_nil, List.append_nil]

/-- C83. From every such state a state is reached in which nothing more can happen. -/
theorem C83_reaches_rest {paths : Nat → Path} {σ : Settings} {fs : Fs} {s : State} (h : Reachable paths σ fs s)
    (hσ : Usable s.settings) (ha : s.stage = .alive) (hcr : s.crashed = false) :
    ∃ evs s', (∀ ev ∈ evs, Own ev) ∧ run paths s evs = some s' ∧ ∀ ev, Own ev → step paths s' ev = none := by
  obtain ⟨n, hn⟩ := C83_bounded h hσ ha hcr
  -- a longest continuation
  have : ∀ k, (∃ evs s', (∀ ev ∈ evs, Own ev) ∧ run paths s evs = some s' ∧ k ≤ evs.length) ∨
      ∃ evs s', (∀ ev ∈ evs, Own ev) ∧ run paths s evs = some s' ∧ ∀ ev, Own ev → step paths s' ev = none := by
    intro k
    induction k with
    | zero => exact .inl ⟨[], s, by simp, rfl, Nat.le_refl _⟩
    | succ k ih =>
      rcases ih with ⟨evs, s', h1, h2, h3⟩ | h
      · by_cases hall : ∀ ev, Own ev → step paths s' ev = none
        · exact .inr ⟨evs, s', h1, h2, hall⟩
        · left
          obtain ⟨ev, hev⟩ := Classical.not_forall.1 hall
          obtain ⟨ho, hne⟩ := Classical.not_imp.1 hev
          obtain ⟨s'', hs⟩ := Option.ne_none_iff_exists'.1 hne
          refine ⟨evs ++ [ev], s'', ?_, ?_, by simp [h3]⟩
          · intro e he
            rcases List.mem_append.1 he with he | he
            · exact h1 e he
            · rw [List.mem_singleton.1 he]; exact ho
          · have hrun : ∀ (evs : List Event) (s₀ : State), run paths s₀ evs = some s' →
                run paths s₀ (evs ++ [ev]) = some s'' := by
              intro evs
              induction evs with
              | nil => intro s₀ h; cases h; simp [run, hs]
              | cons e es ih =>
                intro s₀ h
                simp only [run, List.cons_append] at h ⊢
                split at h
                · exact ih _ h
                · cases h
            exact hrun evs s h2
      · exact .inr h
  rcases this (n + 1) with ⟨evs, s', h1, h2, h3⟩ | h
  · have := (hn evs s' h1 h2).1
    omega
  · exact h

example : ∃ s, run examplePaths (init exampleSettings {}) (exampleWrite 1 0 "1" ++ [.notify 0] ++ exampleThread 13) =
      some s ∧ s.thread = .asleep ∧ (written s 0).map (·.message) = [['1']] ∧
    ∀ ev, Own ev → step examplePaths s ev = none := by
  refine ⟨_, rfl, rfl, by decide, ?_⟩
  intro ev hev
  cases ev with
  | enter i => rfl
  | leave => rfl
  | notify i => rfl
  | setNotify => rfl
  | thread io => rfl
  | _ => exact absurd hev id

/-! ## C84: a file that cannot be opened -/

/-- C84. While a file cannot be opened the logging thread never rests: it comes back to the same
state again and again without sleeping. (The property, that it waits, is false.) -/
theorem C84_fails_busy : ∃ s evs, Reachable examplePaths exampleSettings {} s ∧ evs ≠ [] ∧
    (∀ ev ∈ evs, ∃ io : Io, ev = .thread io) ∧ run examplePaths s evs = some s ∧
    ∀ k ≤ evs.length, ∃ s', run examplePaths s (evs.take k) = some s' ∧ s'.thread ≠ .asleep := by
  refine ⟨_, [.thread { opening := true }, .thread {}, .thread {}, .thread {}, .thread {}],
    log_reachable (evs := exampleWrite 1 0 "1" ++ [.notify 0] ++ exampleThread 3 ++
      [.thread { opening := true }] ++ exampleThread 4) rfl, by simp, ?_, rfl, ?_⟩
  · intro ev hev
    simp only [List.mem_cons, List.not_mem_nil, or_false] at hev
    rcases hev with rfl | rfl | rfl | rfl | rfl <;> exact ⟨_, rfl⟩
  · intro k hk
    match k with
    | 0 => exact ⟨_, rfl, by decide⟩
    | 1 => exact ⟨_, rfl, by decide⟩
    | 2 => exact ⟨_, rfl, by decide⟩
    | 3 => exact ⟨_, rfl, by decide⟩
    | 4 => exact ⟨_, rfl, by decide⟩
    | 5 => exact ⟨_, rfl, by decide⟩
    | n + 6 => exact absurd hk (by simp)

/-- C84, the part that holds: from every state, also one with failures behind it, the logging thread
goes to sleep if nothing fails any more. -/
theorem C84_recovers_partial {paths : Nat → Path} {σ : Settings} {fs : Fs} {s : State}
    (h : Reachable paths σ fs s) (hσ : Usable s.settings) (ha : s.stage = .alive) (hcr : s.crashed = false) :
    ∃ evs s', (∀ ev ∈ evs, Own ev) ∧ run paths s evs = some s' ∧ s'.thread = .asleep := by
  obtain ⟨evs, s', h1, h2, h3⟩ := C83_reaches_rest h hσ ha hcr
  obtain ⟨n, hn⟩ := C83_bounded h hσ ha hcr
  obtain ⟨-, h4, h5⟩ := hn evs s' h1 h2
  have hr := reachable_run h h2
  have hl : s'.isLogging = true := by
    rcases closing hr with ⟨-, h6⟩ | ⟨h6, -⟩
    · exact h6
    · exact absurd h5 h6
  exact ⟨evs, s', h1, h2, (rest_state hr hl h4 h3).2.2.2.2.resolve_right (not_exited hr hl)⟩

/-! ## C81: the entries of one thread are in order -/

/-- C81. The entries made by one thread are accepted, written and found on disk in the order of its
calls, whatever fails. -/
theorem C81_order {paths : Nat → Path} {fs : Fs} {s : State} (hsep : Distinct paths) (hfs : Fresh fs)
    (h : Reaches paths (fun _ => True) (fun _ => True) fs s) (name k : Nat) :
    (accepted s name).Pairwise (fun a b => a.tid = b.tid → a.id < b.id) ∧
    (written s name).Pairwise (fun a b => a.tid = b.tid → a.id < b.id) ∧
    (chain s.fs (paths name) name k).Pairwise (fun a b => a.tid = b.tid → a.id < b.id) := by
  obtain ⟨σ, -, hr⟩ := id h
  have hr' := reachable_of_by hr
  have h1 : (accepted s name).Pairwise (fun a b => a.tid = b.tid → a.id < b.id) := by
    refine List.Pairwise.filterMap _ ?_ (threads hr').order
    intro x y hxy a ha b hb
    split at ha
    · split at hb
      · cases ha; cases hb; exact hxy
      · cases hb
    · cases ha
  have h2 := h1.sublist (C33_once hr' name).1
  exact ⟨h1, h2, h2.sublist (disk_sublist trivial hsep hfs h name k)⟩

/-! ## C80: times -/

/-- C80. Entries can be accepted, and so written, in another order than that of their times, although
the clock does not go back: another call overtakes between reading the clock and
acquiring the mutex. (The property is false.) -/
theorem C80_fails_overtaken : ∃ s, (accepted s 0).map (·.time) = [2, 1] ∧
    ReachableBy examplePaths SteadyClock exampleSettings {} s := by
  refine ⟨_, ?_, .step (.enter 0) (.step .leave (.step (.enter 1) (.step (.call 2 0 2 3 [])
    (.step (.call 1 0 1 3 []) .init ?_ rfl) ?_ rfl) trivial rfl) trivial rfl) trivial rfl⟩
  · decide
  · intro x hx
    simp [requests, init] at hx
  · intro x hx
    simp [requests, init] at hx
    subst hx
    decide

/-- C80, the part that holds: if the clock does not go back, the entries made by one thread are in
the order of their times.  Missing: entries made by different threads. -/
theorem C80_thread_partial {paths : Nat → Path} {σ : Settings} {fs : Fs} {s : State}
    (h : ReachableBy paths SteadyClock σ fs s) (name : Nat) :
    (accepted s name).Pairwise fun a b => a.tid = b.tid → a.time ≤ b.time := by
  have hr := reachable_of_by h
  have hst := steady h
  unfold accepted
  refine List.Pairwise.filterMap _ ?_ (R := fun x y => x.2.tid = y.2.tid → x.2.time ≤ y.2.time) ?_
  · intro x y hxy a ha b hb
    split at ha
    · split at hb
      · cases ha; cases hb; exact hxy
      · cases hb
    · cases ha
  · refine (threads hr).order.imp_of_mem ?_
    intro x y hx hy hxy ht
    refine hst x ?_ y ?_ (hxy ht)
    · unfold requests; simp [hx]
    · unfold requests; simp [hy]

/-! ## C86: exceptions -/

/-- C86. No failure of the file system ends the program: if the writers throw nothing or only
`filesystem_error`s, no exception leaves the logging thread or the destructor. -/
theorem C86_no_crash {paths : Nat → Path} {fs : Fs} {s : State}
    (h : Reaches paths Tame (fun _ => True) fs s) : s.crashed = false := tame_settings h

/-- C86. A log writer that throws something else does end the program. -/
theorem C86_fails_writer : ∃ s, run examplePaths (init { exampleSettings with logWriter := fun _ => .error } {})
    (exampleWrite 1 0 "1" ++ exampleThread 5) = some s ∧ s.crashed = true := ⟨_, rfl, rfl⟩

end Pluto.Props
