import Verif.Model.Logger

/-! # The steps of the logger as a relation, for case analysis -/

namespace Pluto.Log

/-- The ways in which an event can happen. -/
inductive Step (paths : Nat → Path) (s : State) : Event → State → Prop where
  | call (tid name : Nat) (time level : Int) (message : List Char) (hs : s.stage = .alive)
      (hc : tid ∉ s.calls.map (·.entry.tid)) (hn : tid ∉ s.notifying)
      (ho : isProducer tid s.owner = false)
      (hl : shouldLog s.isLogging s.settings.level level = true) :
    Step paths s (.call tid name time level message)
      { s with
        calls := s.calls ++ [⟨name, ⟨time, tid, level, message, s.nextId⟩⟩]
        nextId := s.nextId + 1 }
  | callFiltered (tid name : Nat) (time level : Int) (message : List Char)
      (hs : s.stage = .alive) (hl : shouldLog s.isLogging s.settings.level level = false) :
    Step paths s (.call tid name time level message) s
  | enter (i : Nat) (r : Request) (hi : s.calls[i]? = some r) (ho : s.owner = .free) :
    Step paths s (.enter i) { addLog s r with calls := s.calls.eraseIdx i }
  | leaveNotify (tid name : Nat) (ho : s.owner = .producer tid name)
      (hf : s.settings.bufferFlushSize ≤ ((find s.files name).getD {}).buffer.length) :
    Step paths s .leave { s with owner := .free, notifying := s.notifying ++ [tid] }
  | leave (tid name : Nat) (ho : s.owner = .producer tid name)
      (hf : ¬ s.settings.bufferFlushSize ≤ ((find s.files name).getD {}).buffer.length) :
    Step paths s .leave { s with owner := .free }
  | notify (i : Nat) (hi : i < s.notifying.length) :
    Step paths s (.notify i)
      { s with notifying := s.notifying.eraseIdx i, thread := wake s.thread }
  | setFlush (x : Nat) (hs : s.stage = .alive) :
    Step paths s (.set (.bufferFlushSize x))
      { s with settings := s.settings.set (.bufferFlushSize x), setters := s.setters + 1 }
  | set (x : Setting) (hs : s.stage = .alive) (hx : ∀ n, x ≠ .bufferFlushSize n) :
    Step paths s (.set x) { s with settings := s.settings.set x }
  | setNotify (h : 0 < s.setters) :
    Step paths s .setNotify { s with setters := s.setters - 1, thread := wake s.thread }
  | reset (hs : s.stage = .alive) :
    Step paths s .reset { s with discarded := 0, resetAt := s.dropped.length }
  | starting (io : Io) (ht : s.thread = .starting) (ho : s.owner = .free) :
    Step paths s (.thread io) { s with owner := .logging, thread := .checking false }
  | checkWait (io : Io) (ht : s.thread = .checking true) (hl : s.isLogging = true) :
    Step paths s (.thread io) { s with thread := .drowsy }
  | checkScan (io : Io) (ht : s.thread = .checking false) (hl : s.isLogging = true) :
    Step paths s (.thread io) { s with thread := .scanning none true }
  | checkExit (io : Io) (w : Bool) (ht : s.thread = .checking w) (hl : s.isLogging = false) :
    Step paths s (.thread io) { s with owner := .free, thread := .exited }
  | drowse (io : Io) (ht : s.thread = .drowsy) :
    Step paths s (.thread io) { s with owner := .free, thread := .asleep }
  | woken (io : Io) (ht : s.thread = .woken) (ho : s.owner = .free) :
    Step paths s (.thread io) { s with owner := .logging, thread := .checking false }
  | scanEnd (io : Io) (last : Option Nat) (w : Bool) (ht : s.thread = .scanning last w)
      (hn : next s.files last = none) :
    Step paths s (.thread io) { s with thread := .checking w }
  | scanFull (io : Io) (last : Option Nat) (w : Bool) (name : Nat) (f : LogFile)
      (ht : s.thread = .scanning last w) (hn : next s.files last = some (name, f))
      (hb : f.buffer ≠ []) (hf : s.settings.bufferFlushSize ≤ f.buffer.length) :
    Step paths s (.thread io)
      { s with owner := .free, thread := .opening name f.buffer.reverse }
  | scanSkip (io : Io) (last : Option Nat) (w : Bool) (name : Nat) (f : LogFile)
      (ht : s.thread = .scanning last w) (hn : next s.files last = some (name, f))
      (hf : ¬ (f.buffer ≠ [] ∧ s.settings.bufferFlushSize ≤ f.buffer.length)) :
    Step paths s (.thread io) { s with thread := .scanning (some name) w }
  | openOk (io : Io) (name : Nat) (todo : List Entry) (f : LogFile) (fs : Fs) (l : Locals)
      (ht : s.thread = .opening name todo)
      (hp : prepare s.settings io (paths name) ((find s.files name).getD {}) s.fs = (f, fs, some l)) :
    Step paths s (.thread io)
      { s with
        files := update s.files name fun g =>
          { g with filePath := f.filePath, dirsCreated := f.dirsCreated }
        fs := fs
        thread := .writing name (f.filePath.getD (paths name)) l todo 0 }
  | openFail (io : Io) (name : Nat) (todo : List Entry) (f : LogFile) (fs : Fs)
      (ht : s.thread = .opening name todo)
      (hp : prepare s.settings io (paths name) ((find s.files name).getD {}) s.fs = (f, fs, none)) :
    Step paths s (.thread io)
      { s with
        files := update s.files name fun g =>
          { g with filePath := f.filePath, dirsCreated := f.dirsCreated }
        fs := fs
        thread := .returning name 0 }
  | writeDone (io : Io) (name : Nat) (p : Path) (l : Locals) (done : Nat)
      (ht : s.thread = .writing name p l [] done) :
    Step paths s (.thread io) { s with thread := .returning name done }
  | writeNext (io : Io) (name : Nat) (p : Path) (l : Locals) (e : Entry) (todo : List Entry)
      (done : Nat) (fs : Fs) (l' : Locals) (whole : Bool)
      (ht : s.thread = .writing name p l (e :: todo) done)
      (hw : turn s.settings io p l name e s.fs = .next fs l' whole) :
    Step paths s (.thread io)
      { s with
        fs := fs, thread := .writing name p l' todo (done + 1)
        passed := s.passed ++ [(name, e, whole)] }
  | writeBefore (io : Io) (name : Nat) (p : Path) (l : Locals) (e : Entry) (todo : List Entry)
      (done : Nat) (fs : Fs) (ht : s.thread = .writing name p l (e :: todo) done)
      (hw : turn s.settings io p l name e s.fs = .before fs) :
    Step paths s (.thread io) { s with fs := fs, thread := .returning name done }
  | writeAfter (io : Io) (name : Nat) (p : Path) (l : Locals) (e : Entry) (todo : List Entry)
      (done : Nat) (fs : Fs) (ht : s.thread = .writing name p l (e :: todo) done)
      (hw : turn s.settings io p l name e s.fs = .after fs) :
    Step paths s (.thread io)
      { s with
        fs := fs, thread := .returning name (done + 1)
        passed := s.passed ++ [(name, e, false)] }
  | writeCrash (io : Io) (name : Nat) (p : Path) (l : Locals) (e : Entry) (todo : List Entry)
      (done : Nat) (ht : s.thread = .writing name p l (e :: todo) done)
      (hw : turn s.settings io p l name e s.fs = .crash) :
    Step paths s (.thread io) { s with crashed := true }
  | erase (io : Io) (name done : Nat) (ht : s.thread = .returning name done)
      (ho : s.owner = .free) :
    Step paths s (.thread io)
      { s with
        owner := .logging
        files := update s.files name fun f =>
          { f with buffer := f.buffer.take (f.buffer.length - done) }
        thread := .scanning (some name) false }
  | spurious (ht : s.thread = .asleep) : Step paths s .spurious { s with thread := .woken }
  | stop (hs : s.stage = .alive) (hc : s.calls = []) (hn : s.notifying = []) (hset : s.setters = 0)
      (ho : s.owner = .free ∨ s.owner = .logging) :
    Step paths s .stop { s with isLogging := false, stage := .flagged }
  | stopNotify (hs : s.stage = .flagged) :
    Step paths s .stopNotify { s with stage := .joining, thread := wake s.thread }
  | join (hs : s.stage = .joining) (ht : s.thread = .exited) :
    Step paths s .join { s with stage := .flushing none }
  | flush (io : Io) (ios : List Io) (last : Option Nat) (name : Nat) (f : LogFile)
      (hs : s.stage = .flushing last) (hn : next s.files last = some (name, f)) :
    Step paths s (.flush io ios) (flushFile paths s io ios name f)
  | finish (last : Option Nat) (hs : s.stage = .flushing last) (hn : next s.files last = none) :
    Step paths s .finish { s with stage := .destroyed }

theorem step_cases {paths : Nat → Path} {s s' : State} {ev : Event} (h : step paths s ev = some s') :
    s.crashed = false ∧ Step paths s ev s' := by
  unfold step at h
  split at h
  · cases h
  rename_i hcrash
  refine ⟨by simpa using hcrash, ?_⟩
  cases ev with
  | call tid name time level message =>
    simp only at h; split at h
    · rename_i hc
      split at h
      · rename_i hl; cases h
        exact .call tid name time level message hc.1 hc.2.1 hc.2.2.1 (by simpa using hc.2.2.2) hl
      · rename_i hl; cases h
        exact .callFiltered tid name time level message hc.1 (by simpa using hl)
    · cases h
  | enter i =>
    simp only at h; split at h
    · rename_i r hr
      split at h
      · rename_i ho; cases h; exact .enter i r hr ho
      · cases h
    · cases h
  | leave =>
    simp only at h; split at h
    · rename_i tid name ho
      split at h
      · rename_i hf; cases h; exact .leaveNotify tid name ho hf
      · rename_i hf; cases h; exact .leave tid name ho hf
    · cases h
  | notify i =>
    simp only at h; split at h
    · rename_i hi; cases h; exact .notify i hi
    · cases h
  | set x =>
    simp only at h; split at h
    · rename_i hs
      split at h
      · cases h; exact .setFlush _ hs
      · rename_i hx; cases h; exact .set x hs (fun n e => hx n e)
    · cases h
  | setNotify =>
    simp only at h; split at h
    · rename_i hs; cases h; exact .setNotify hs
    · cases h
  | reset =>
    simp only at h; split at h
    · rename_i hs; cases h; exact .reset hs
    · cases h
  | thread io =>
    simp only at h
    unfold threadStep at h
    cases ht : s.thread with
    | starting =>
      rw [ht] at h; simp only at h; split at h
      · rename_i ho; cases h; exact .starting io ht ho
      · cases h
    | checking w =>
      rw [ht] at h; simp only at h; split at h
      · rename_i hl
        split at h
        · rename_i hw; cases h; subst hw; exact .checkWait io ht hl
        · rename_i hw
          cases h
          have : w = false := by simpa using hw
          subst this
          exact .checkScan io ht hl
      · rename_i hl; cases h; exact .checkExit io w ht (by simpa using hl)
    | drowsy => rw [ht] at h; cases h; exact .drowse io ht
    | asleep => rw [ht] at h; cases h
    | woken =>
      rw [ht] at h; simp only at h; split at h
      · rename_i ho; cases h; exact .woken io ht ho
      · cases h
    | scanning last w =>
      rw [ht] at h; simp only at h
      cases hn : next s.files last with
      | none => rw [hn] at h; cases h; exact .scanEnd io last w ht hn
      | some x =>
        obtain ⟨name, f⟩ := x
        rw [hn] at h; simp only at h; split at h
        · rename_i hf; cases h; exact .scanFull io last w name f ht hn hf.1 hf.2
        · rename_i hf; cases h; exact .scanSkip io last w name f ht hn hf
    | opening name todo =>
      rw [ht] at h; simp only at h
      rcases hp : prepare s.settings io (paths name) ((find s.files name).getD {}) s.fs with ⟨f, fs, l⟩
      rw [hp] at h
      cases l with
      | none => cases h; exact .openFail io name todo f fs ht hp
      | some l => cases h; exact .openOk io name todo f fs l ht hp
    | writing name p l todo done =>
      rw [ht] at h; simp only at h
      cases todo with
      | nil => cases h; exact .writeDone io name p l done ht
      | cons e todo =>
        simp only at h
        rcases hw : turn s.settings io p l name e s.fs with ⟨fs, l', whole⟩ | fs | fs | _
        · rw [hw] at h; cases h; exact .writeNext io name p l e todo done fs l' whole ht hw
        · rw [hw] at h; cases h; exact .writeBefore io name p l e todo done fs ht hw
        · rw [hw] at h; cases h; exact .writeAfter io name p l e todo done fs ht hw
        · rw [hw] at h; cases h
          have := Step.writeCrash (paths := paths) io name p l e todo done ht hw
          rwa [ht] at this
    | returning name done =>
      rw [ht] at h; simp only at h; split at h
      · rename_i ho; cases h; exact .erase io name done ht ho
      · cases h
    | exited => rw [ht] at h; cases h
  | spurious =>
    simp only at h; split at h
    · rename_i ht; cases h; exact .spurious ht
    · cases h
  | stop =>
    simp only at h; split at h
    · rename_i hs; cases h; exact .stop hs.1 hs.2.1 hs.2.2.1 hs.2.2.2.1 hs.2.2.2.2
    · cases h
  | stopNotify =>
    simp only at h; split at h
    · rename_i hs; cases h; exact .stopNotify hs
    · cases h
  | join =>
    simp only at h; split at h
    · rename_i hs; cases h; exact .join hs.1 hs.2
    · cases h
  | flush io ios =>
    simp only at h; split at h
    · rename_i last hs
      cases hn : next s.files last with
      | none => rw [hn] at h; cases h
      | some x =>
        obtain ⟨name, f⟩ := x
        rw [hn] at h; cases h; exact .flush io ios last name f hs hn
    · cases h
  | finish =>
    simp only at h; split at h
    · rename_i last hs
      split at h
      · rename_i hn; cases h; exact .finish last hs (by simpa using hn)
      · cases h
    · cases h

end Pluto.Log
