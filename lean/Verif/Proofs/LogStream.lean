import Verif.Model.LogStream
import Verif.Spec.LogStream
import Verif.Proofs.LogFs

/-! # The logger: streams with a buffer -/

namespace Pluto.Log
open Pluto.Spec.Log

/-- The disk and the buffer together are what has been put into the files. -/
def Buffered (p : Path) (pending : List Char) (disk fs : Fs) : Prop :=
  disk.dirs = fs.dirs ∧ (∀ q, q ≠ p → bytesAt disk q = bytesAt fs q) ∧
    ∃ a, bytesAt disk p = some a ∧ bytesAt fs p = some (a ++ pending)

theorem size_bytes (c : List Chunk) : size c = (bytes c).length := by
  unfold size bytes
  rw [List.length_flatMap]

theorem bytes_append (a b : List Chunk) : bytes (a ++ b) = bytes a ++ bytes b := by
  unfold bytes; rw [List.flatMap_append]

theorem bytesAt_store (fs : Fs) (p q : Path) (c : List Chunk) :
    bytesAt (store fs p c) q = if q = p then some (bytes c) else bytesAt fs q := by
  unfold bytesAt
  rw [read_store]
  split <;> rfl

theorem bytesAt_remove (fs : Fs) (p q : Path) : bytesAt (remove fs p) q = if q = p then none else bytesAt fs q := by
  unfold bytesAt
  rw [read_remove]
  split <;> rfl

theorem getD_bytes {fs : Fs} {p : Path} {a : List Char} (h : bytesAt fs p = some a) :
    bytes ((read fs p).getD []) = a := by
  unfold bytesAt at h
  cases hr : read fs p with
  | none => rw [hr] at h; cases h
  | some c => rw [hr] at h; cases h; rfl

theorem append_dirs (p : Path) (t : List Char) (disk : Fs) : (append p t disk).dirs = disk.dirs := rfl

theorem bytesAt_append {disk : Fs} {p : Path} {a : List Char} (h : bytesAt disk p = some a) (t : List Char) (q : Path) :
    bytesAt (append p t disk) q = if q = p then some (a ++ t) else bytesAt disk q := by
  unfold append
  rw [bytesAt_store, bytes_append, getD_bytes h]
  simp [bytes]

theorem buffered_close {p : Path} {pending : List Char} {disk fs : Fs} (h : Buffered p pending disk fs) :
    SameBytes (closeB p disk pending) fs := by
  obtain ⟨h1, h2, a, h3, h4⟩ := h
  refine ⟨h1, fun q => ?_⟩
  unfold closeB
  rw [bytesAt_append h3]
  split
  · rename_i h; rw [h, h4]
  · rename_i h; exact h2 q h

theorem buffered_put {p : Path} {pending text : List Char} {disk fs : Fs} {n : Nat} {k : Kind}
    (h : Buffered p pending disk fs) {disk' : Fs} {pending' : List Char} (hp : putB p text n disk pending = (disk', pending')) :
    Buffered p pending' disk' (store fs p ((read fs p).getD [] ++ [⟨k, text⟩])) := by
  obtain ⟨h1, h2, a, h3, h4⟩ := h
  unfold putB at hp
  cases hp
  refine ⟨h1, fun q hq => ?_, a ++ (pending ++ text).take n, ?_, ?_⟩
  · rw [bytesAt_append h3, if_neg hq, bytesAt_store, if_neg hq, h2 q hq]
  · rw [bytesAt_append h3, if_pos rfl]
  · rw [bytesAt_store, if_pos rfl, bytes_append, getD_bytes h4, List.append_assoc, List.append_assoc,
      List.take_append_drop]
    simp [bytes]

theorem buffered_end {p : Path} {pending text : List Char} {disk fs : Fs} {k : Kind} (h : Buffered p pending disk fs) :
    SameBytes (closeB p disk (pending ++ text)) (store fs p ((read fs p).getD [] ++ [⟨k, text⟩])) := by
  obtain ⟨h1, h2, a, h3, h4⟩ := h
  refine ⟨h1, fun q => ?_⟩
  unfold closeB
  rw [bytesAt_append h3, bytesAt_store]
  split
  · rw [bytes_append, getD_bytes h4]
    simp [bytes]
  · rename_i h; exact h2 q h

theorem buffered_tell {p : Path} {pending : List Char} {disk fs : Fs} (h : Buffered p pending disk fs) :
    tellB p disk pending = fileSize p true fs := by
  obtain ⟨-, -, a, h3, h4⟩ := h
  unfold tellB fileSize
  rw [if_pos rfl, size_bytes, size_bytes, getD_bytes h3, getD_bytes h4, List.length_append]

theorem sameBytes_exists {disk fs : Fs} (h : SameBytes disk fs) (q : Path) : exists' disk q = exists' fs q := by
  have := congrArg Option.isSome (h.2 q)
  unfold bytesAt at this
  simpa [exists'] using this

theorem sameBytes_none {disk fs : Fs} (h : SameBytes disk fs) (q : Path) : read disk q = none ↔ read fs q = none := by
  have := sameBytes_exists h q
  unfold exists' at this
  cases h1 : read disk q <;> cases h2 : read fs q <;> simp [h1, h2] at this ⊢

theorem sameBytes_remove {disk fs : Fs} (h : SameBytes disk fs) (q : Path) : SameBytes (remove disk q) (remove fs q) :=
  ⟨h.1, fun r => by rw [bytesAt_remove, bytesAt_remove, h.2]⟩

theorem sameBytes_scan {f : RotateFaults} {p : Path} {limit : Nat} (fuel : Nat) : ∀ {i n : Nat} {disk fs : Fs},
    SameBytes disk fs → (scanFiles f p limit fuel i n disk).2 = (scanFiles f p limit fuel i n fs).2 ∧
      SameBytes (scanFiles f p limit fuel i n disk).1 (scanFiles f p limit fuel i n fs).1 := by
  induction fuel with
  | zero => intro i n disk fs h; exact ⟨rfl, h⟩
  | succ fuel ih =>
    intro i n disk fs h
    unfold scanFiles
    rw [sameBytes_exists h]
    split
    · exact ⟨rfl, h⟩
    · split
      · exact ⟨rfl, h⟩
      · split
        · exact ih h
        · exact ih (sameBytes_remove h _)

theorem sameBytes_renameFiles {f : RotateFaults} {p : Path} (n : Nat) : ∀ {disk fs : Fs}, SameBytes disk fs →
    (renameFiles f p n disk).2 = (renameFiles f p n fs).2 ∧ SameBytes (renameFiles f p n disk).1 (renameFiles f p n fs).1 := by
  induction n with
  | zero => intro disk fs h; exact ⟨rfl, h⟩
  | succ n ih =>
    intro disk fs h
    unfold renameFiles
    split
    · exact ⟨rfl, h⟩
    · unfold rename
      have hr := h.2 (pathAt p n)
      unfold bytesAt at hr
      cases h1 : read disk (pathAt p n) with
      | none =>
        cases h2 : read fs (pathAt p n) with
        | none => exact ⟨rfl, h⟩
        | some c => rw [h1, h2] at hr; cases hr
      | some c =>
        cases h2 : read fs (pathAt p n) with
        | none => rw [h1, h2] at hr; cases hr
        | some c' =>
          rw [h1, h2] at hr
          have hr : bytes c = bytes c' := by simpa using hr
          refine ih ⟨h.1, fun q => ?_⟩
          rw [bytesAt_store, bytesAt_store, hr, bytesAt_remove, bytesAt_remove, h.2]

/-- `rotate_file` does not depend on what is in the files. -/
theorem sameBytes_rotate {f : RotateFaults} {p : Path} {limit : Nat} {disk fs : Fs} (h : SameBytes disk fs) :
    (rotate f p limit disk).2 = (rotate f p limit fs).2 ∧
      SameBytes (rotate f p limit disk).1 (rotate f p limit fs).1 := by
  obtain ⟨k, hk1, hk2⟩ := exists_first disk p
  have hle := consecutive_le hk1
  have hle' : k ≤ fs.files.length := consecutive_le fun i hi hn => hk1 i hi ((sameBytes_none h _).2 hn)
  have e1 := scanFiles_fuel (f := f) (limit := limit) (fuel := disk.files.length + 1)
    (fuel' := disk.files.length + fs.files.length + 1) (i := 0) (n := 0) (by omega) (by omega) (by omega) hk2
  have e2 := scanFiles_fuel (f := f) (limit := limit) (fuel := fs.files.length + 1)
    (fuel' := disk.files.length + fs.files.length + 1) (i := 0) (n := 0) (by omega) (by omega) (by omega)
    ((sameBytes_none h _).1 hk2)
  unfold rotate
  rw [e1, e2]
  obtain ⟨h1, h2⟩ := sameBytes_scan (f := f) (p := p) (limit := limit) (disk.files.length + fs.files.length + 1)
    (i := 0) (n := 0) h
  rcases hA : scanFiles f p limit (disk.files.length + fs.files.length + 1) 0 0 disk with ⟨disk₁, r⟩
  rcases hB : scanFiles f p limit (disk.files.length + fs.files.length + 1) 0 0 fs with ⟨fs₁, r'⟩
  rw [hA, hB] at h1 h2
  simp only at h1 h2
  subst h1
  cases r with
  | none => exact ⟨rfl, h2⟩
  | some n => exact sameBytes_renameFiles n h2

theorem sameBytes_open {b : Bool} {p : Path} {disk fs : Fs} (h : SameBytes disk fs) :
    (openFile b p disk).2 = (openFile b p fs).2 ∧ SameBytes (openFile b p disk).1 (openFile b p fs).1 ∧
      ((openFile b p disk).2 = true → Buffered p [] (openFile b p disk).1 (openFile b p fs).1) := by
  unfold openFile
  rw [h.1]
  split
  · exact ⟨rfl, h, fun h => by cases h⟩
  · have hr := h.2 p
    unfold bytesAt at hr
    cases h1 : read disk p with
    | none =>
      cases h2 : read fs p with
      | none =>
        have hs : SameBytes (store disk p []) (store fs p []) :=
          ⟨h.1, fun q => by rw [bytesAt_store, bytesAt_store, h.2]⟩
        refine ⟨rfl, hs, fun _ => ⟨h.1, fun q _ => hs.2 q, [], ?_, ?_⟩⟩
        · simp only; rw [bytesAt_store, if_pos rfl]; rfl
        · simp only; rw [bytesAt_store, if_pos rfl]; rfl
      | some c => rw [h1, h2] at hr; cases hr
    | some c =>
      cases h2 : read fs p with
      | none => rw [h1, h2] at hr; cases hr
      | some c' =>
        refine ⟨rfl, h, fun _ => ⟨h.1, fun q _ => h.2 q, bytes c, ?_, ?_⟩⟩
        · simp only; unfold bytesAt; rw [h1]; rfl
        · simp only; unfold bytesAt; rw [h2, List.append_nil]; rw [h1, h2] at hr; exact hr.symm

/-- What an iteration does with a buffer and without one. -/
def Alike (p : Path) (l : Locals) : TurnB → Turn → Prop
  | .next disk pending, .next fs l' whole => Buffered p pending disk fs ∧ l' = l ∧ whole = true
  | .before disk, .before fs => SameBytes disk fs
  | .after disk, .after fs => SameBytes disk fs
  | .crash, .crash => True
  | _, _ => False

theorem entry_alike {σ : Settings} {io : Io} {fl : Flush} {p : Path} {l : Locals} {name : Nat} {e : Entry} {disk fs : Fs}
    {pending : List Char} (hio : Writable io) (hg : l.good = true) (h : Buffered p pending disk fs) :
    Alike p l (turnEntryB σ fl p e disk pending) (turnEntry σ io p l name e fs) := by
  unfold turnEntryB turnEntry
  cases σ.logWriter e with
  | ok text =>
    simp only [put, hg, hio.2, if_true]
    refine ⟨buffered_put h rfl, ?_, rfl⟩
    cases l; cases hg; rfl
  | fsError text =>
    simp only [put, hg, hio.2, if_true]
    exact buffered_end h
  | error => trivial

theorem header_alike {σ : Settings} {io : Io} {fl : Flush} {p : Path} {l : Locals} {k name : Nat} {e : Entry}
    {disk fs : Fs} {pending : List Char} (hio : Writable io) (hg : l.good = true) (h : Buffered p pending disk fs) :
    Alike p l (turnHeaderB σ fl p l k e disk pending) (turnHeader σ io p l k name e fs) := by
  unfold turnHeaderB turnHeader
  split
  · cases σ.headerWriter with
    | ok text =>
      rcases hp : putB p (text ++ ['\n']) fl.header disk pending with ⟨disk', pending'⟩
      have hl : ({ l with good := true } : Locals) = l := by cases l; cases hg; rfl
      simp only [put, hg, hio.1, if_true, hp]
      rw [hl]
      exact entry_alike hio hg (buffered_put h hp)
    | fsError text =>
      simp only [put, hg, hio.1, if_true]
      exact buffered_end h
    | error => trivial
  · exact entry_alike hio hg h

theorem turn_alike {σ : Settings} {io : Io} {fl : Flush} {p : Path} {l : Locals} {name : Nat} {e : Entry}
    {disk fs : Fs} {pending : List Char} (hio : Writable io) (hg : l.good = true) (h : Buffered p pending disk fs) :
    Alike p l (turnB σ io fl p l e disk pending) (turn σ io p l name e fs) := by
  have hl : ({ l with good := true } : Locals) = l := by cases l; cases hg; rfl
  unfold turnB turn
  rw [hg, buffered_tell h]
  split
  · obtain ⟨h1, h2⟩ := sameBytes_rotate (f := io.rotating) (p := p) (limit := σ.fileRotationLimit) (buffered_close h)
    rcases hA : rotate io.rotating p σ.fileRotationLimit (closeB p disk pending) with ⟨disk₁, r⟩
    rcases hB : rotate io.rotating p σ.fileRotationLimit fs with ⟨fs₁, r'⟩
    rw [hA, hB] at h1 h2
    simp only at h1 h2
    subst h1
    cases r with
    | false => exact h2
    | true =>
      obtain ⟨h3, h4, h5⟩ := sameBytes_open (b := io.opening) (p := p) h2
      rcases hC : openFile io.opening p disk₁ with ⟨disk₂, r⟩
      rcases hD : openFile io.opening p fs₁ with ⟨fs₂, r'⟩
      rw [hC, hD] at h3 h4 h5
      simp only at h3 h4 h5
      subst h3
      simp only
      rw [hC, hD]
      cases r with
      | false => exact h4
      | true =>
        have hb := h5 rfl
        simp only
        rw [buffered_tell hb, hl]
        exact header_alike hio hg hb
  · exact header_alike hio hg h

/-- The file the logging thread has open. -/
def opened : Phase → Option (Path × Locals)
  | .writing _ p l _ _ => some (p, l)
  | _ => none

/-- The disk and the buffer make up the files of a logger whose streams have no buffer. -/
def Holds : Option (Path × Locals) → List Char → Fs → Fs → Prop
  | some (p, l), pending, disk, fs => l.good = true ∧ Buffered p pending disk fs
  | none, pending, disk, fs => pending = [] ∧ SameBytes disk fs

/-- How a logger with a buffer follows one without. -/
structure Follows (b : StateB) (s : State) : Prop where
  same : s = { b.s with fs := s.fs }
  ended : ∀ last, b.s.stage = .flushing last → b.s.thread = .exited
  holds : b.s.crashed = false → Holds (opened b.s.thread) b.pending b.s.fs s.fs

theorem opened_wake (x : Phase) : opened (wake x) = opened x := by
  cases x <;> rfl

/-- Events that write to no file. -/
def Quiet : Event → Prop
  | .thread _ => False
  | .flush _ _ => False
  | _ => True

theorem addLog_fs (s : State) (r : Request) (x : Fs) : addLog { s with fs := x } r = { addLog s r with fs := x } ∧
    (addLog s r).fs = s.fs ∧ (addLog s r).crashed = s.crashed ∧ (addLog s r).thread = s.thread ∧
    (addLog s r).stage = s.stage := by
  unfold addLog
  simp only
  generalize (if (find s.files r.name).isNone = true then emplace r.name {} s.files else s.files) = files
  split <;> exact ⟨rfl, rfl, rfl, rfl, rfl⟩

theorem step_quiet {paths : Nat → Path} {s s' : State} {ev : Event} (hq : Quiet ev) (h : step paths s ev = some s')
    (x : Fs) : step paths { s with fs := x } ev = some { s' with fs := x } ∧ s'.fs = s.fs ∧ s'.crashed = s.crashed ∧
      opened s'.thread = opened s.thread ∧
      ((∀ last, s.stage = .flushing last → s.thread = .exited) →
        ∀ last, s'.stage = .flushing last → s'.thread = .exited) := by
  unfold step at h
  split at h
  · cases h
  rename_i hc
  unfold step
  rw [if_neg hc]
  cases ev with
  | thread io => exact hq.elim
  | flush io ios => exact hq.elim
  | call tid name time level message =>
    simp only at h ⊢
    split at h
    · split at h <;> cases h <;> simp_all
    · cases h
  | enter i =>
    simp only at h ⊢
    split at h
    · split at h
      · cases h
        rename_i r hr ho
        obtain ⟨h1, h2, h3, h4, h5⟩ := addLog_fs s r x
        refine ⟨?_, h2, h3, by rw [← h4], fun h last hl => ?_⟩
        · rw [if_pos ho, h1]
        · simp only at hl ⊢
          rw [h4]
          exact h last (h5 ▸ hl)
      · cases h
    · cases h
  | leave =>
    simp only at h ⊢
    split at h
    · split at h <;> cases h <;> simp_all
    · cases h
  | notify i =>
    simp only at h ⊢
    split at h
    · cases h
      refine ⟨by simp_all, rfl, rfl, opened_wake _, fun h last hl => ?_⟩
      simp only at hl ⊢
      rw [h last hl]; rfl
    · cases h
  | set y =>
    simp only at h ⊢
    split at h
    · split at h <;> cases h <;> simp_all
    · cases h
  | setNotify =>
    simp only at h ⊢
    split at h
    · cases h
      refine ⟨by simp_all, rfl, rfl, opened_wake _, fun h last hl => ?_⟩
      simp only at hl ⊢
      rw [h last hl]; rfl
    · cases h
  | reset =>
    simp only at h ⊢
    split at h <;> cases h
    simp_all
  | spurious =>
    simp only at h ⊢
    split at h <;> cases h
    rename_i ha
    refine ⟨by simp_all, rfl, rfl, by rw [ha]; rfl, fun h last hl => ?_⟩
    have := h last hl
    rw [ha] at this
    cases this
  | stop =>
    simp only at h ⊢
    split at h <;> cases h
    refine ⟨by simp_all, rfl, rfl, rfl, fun h last hl => ?_⟩
    cases hl
  | stopNotify =>
    simp only at h ⊢
    split at h <;> cases h
    refine ⟨by simp_all, rfl, rfl, opened_wake _, fun h last hl => ?_⟩
    cases hl
  | join =>
    simp only at h ⊢
    split at h <;> cases h
    rename_i ha
    exact ⟨by simp_all, rfl, rfl, rfl, fun h last hl => ha.2⟩
  | finish =>
    simp only at h ⊢
    split at h
    · split at h <;> cases h
      refine ⟨by simp_all, rfl, rfl, rfl, fun h last hl => ?_⟩
      cases hl
    · cases h

theorem prepare_alike {σ : Settings} {io : Io} {p : Path} {f : LogFile} {disk fs : Fs} (h : SameBytes disk fs) :
    ∃ f' disk' fs' l, prepare σ io p f disk = (f', disk', l) ∧ prepare σ io p f fs = (f', fs', l) ∧
      SameBytes disk' fs' ∧ ∀ l', l = some l' → l'.good = true ∧ Buffered (f'.filePath.getD p) [] disk' fs' := by
  unfold prepare
  split
  · exact ⟨_, _, _, _, rfl, rfl, h, fun _ h => by cases h⟩
  · simp only
    split
    · exact ⟨_, _, _, _, rfl, rfl, h, fun _ h => by cases h⟩
    · by_cases hd : σ.createDirs = true ∧ f.dirsCreated = false
      · simp only [if_pos hd]
        have hd : SameBytes { disk with dirs := (f.filePath.getD p).dir :: disk.dirs }
            { fs with dirs := (f.filePath.getD p).dir :: fs.dirs } := ⟨by simp only; rw [h.1], h.2⟩
        obtain ⟨h1, h2, h3⟩ := sameBytes_open (b := io.opening) (p := f.filePath.getD p) hd
        simp only [Option.getD_some]
        rcases hC : openFile io.opening (f.filePath.getD p) { disk with dirs := (f.filePath.getD p).dir :: disk.dirs }
          with ⟨disk', r⟩
        rcases hD : openFile io.opening (f.filePath.getD p) { fs with dirs := (f.filePath.getD p).dir :: fs.dirs }
          with ⟨fs', r'⟩
        rw [hC, hD] at h1 h2 h3
        simp only at h1 h2 h3
        subst h1
        cases r with
        | true =>
          refine ⟨_, disk', fs', _, rfl, rfl, h2, fun l' hl => ?_⟩
          cases hl
          exact ⟨rfl, h3 rfl⟩
        | false => exact ⟨_, disk', fs', _, rfl, rfl, h2, fun _ h => by cases h⟩
      · simp only [if_neg hd]
        obtain ⟨h1, h2, h3⟩ := sameBytes_open (b := io.opening) (p := f.filePath.getD p) h
        simp only [Option.getD_some]
        rcases hC : openFile io.opening (f.filePath.getD p) disk with ⟨disk', r⟩
        rcases hD : openFile io.opening (f.filePath.getD p) fs with ⟨fs', r'⟩
        rw [hC, hD] at h1 h2 h3
        simp only at h1 h2 h3
        subst h1
        cases r with
        | true =>
          refine ⟨_, disk', fs', _, rfl, rfl, h2, fun l' hl => ?_⟩
          cases hl
          exact ⟨rfl, h3 rfl⟩
        | false => exact ⟨_, disk', fs', _, rfl, rfl, h2, fun _ h => by cases h⟩

theorem headD_writable {ios : List Io} (h : ∀ io ∈ ios, Writable io) : Writable (ios.headD {}) := by
  cases ios with
  | nil => exact ⟨rfl, rfl⟩
  | cons io ios => exact h io List.mem_cons_self

theorem tail_writable {ios : List Io} (h : ∀ io ∈ ios, Writable io) : ∀ io ∈ ios.tail, Writable io :=
  fun io hio => h io (List.mem_of_mem_tail hio)

theorem writeLoop_alike {σ : Settings} {p : Path} {name : Nat} {l : Locals} (hg : l.good = true) (todo : List Entry) :
    ∀ {ios : List Io} {fls : List Flush} {disk fs : Fs} {pending : List Char}, (∀ io ∈ ios, Writable io) →
      Buffered p pending disk fs →
      match writeLoopB σ p name l todo ios fls disk pending, writeLoop σ p name l todo ios fs with
      | some (disk', ps), some (fs', ps') => ps = ps' ∧ SameBytes disk' fs'
      | none, none => True
      | _, _ => False := by
  induction todo with
  | nil => intro ios fls disk fs pending _ h; exact ⟨rfl, buffered_close h⟩
  | cons e todo ih =>
    intro ios fls disk fs pending hio h
    have ht := turn_alike (σ := σ) (fl := fls.headD {}) (name := name) (e := e) (headD_writable hio) hg h
    unfold writeLoopB writeLoop
    rcases hB : turnB σ (ios.headD {}) (fls.headD {}) p l e disk pending with ⟨disk', pending'⟩ | disk' | disk' | _ <;>
    rcases hT : turn σ (ios.headD {}) p l name e fs with ⟨fs', l', w⟩ | fs' | fs' | _ <;>
    rw [hB, hT] at ht <;> simp only [Alike] at ht ⊢
    · obtain ⟨h1, rfl, rfl⟩ := ht
      have := ih (fls := fls.tail) (tail_writable hio) h1
      rcases hX : writeLoopB σ p name l' todo ios.tail fls.tail disk' pending' with _ | ⟨d, ps⟩ <;>
      rcases hY : writeLoop σ p name l' todo ios.tail fs' with _ | ⟨g, ps'⟩ <;>
      rw [hX, hY] at this <;> simp only at this ⊢
      exact ⟨by rw [this.1], this.2⟩
    · exact ⟨trivial, ht⟩
    · exact ⟨trivial, ht⟩

theorem threadStep_alike {paths : Nat → Path} {io : Io} {s s' : State} {x : Fs} (ho : opened s.thread = none)
    (hs : SameBytes s.fs x) (h : threadStep paths s io = some s') :
    ∃ x', threadStep paths { s with fs := x } io = some { s' with fs := x' } ∧ s'.stage = s.stage ∧
      s.thread ≠ .exited ∧ Holds (opened s'.thread) [] s'.fs x' := by
  unfold threadStep at h ⊢
  simp only
  cases ht : s.thread with
  | writing name p l todo done => rw [ht] at ho; cases ho
  | starting =>
    rw [ht] at h; simp only at h ⊢
    split at h <;> cases h
    exact ⟨x, by simp_all, rfl, by simp, rfl, hs⟩
  | checking w =>
    rw [ht] at h; simp only at h ⊢
    split at h
    · split at h <;> cases h
      · exact ⟨x, by simp_all, rfl, by simp, rfl, hs⟩
      · exact ⟨x, by simp_all, rfl, by simp, rfl, hs⟩
    · cases h
      exact ⟨x, by simp_all, rfl, by simp, rfl, hs⟩
  | drowsy =>
    rw [ht] at h; simp only at h ⊢
    cases h
    exact ⟨x, by simp_all, rfl, by simp, rfl, hs⟩
  | asleep => rw [ht] at h; cases h
  | woken =>
    rw [ht] at h; simp only at h ⊢
    split at h <;> cases h
    exact ⟨x, by simp_all, rfl, by simp, rfl, hs⟩
  | scanning last w =>
    rw [ht] at h; simp only at h ⊢
    split at h
    · cases h
      exact ⟨x, by simp_all, rfl, by simp, rfl, hs⟩
    · split at h <;> cases h
      · exact ⟨x, by simp_all, rfl, by simp, rfl, hs⟩
      · exact ⟨x, by simp_all, rfl, by simp, rfl, hs⟩
  | opening name todo =>
    rw [ht] at h; simp only at h ⊢
    obtain ⟨f', disk', fs', l, h1, h2, h3, h4⟩ := prepare_alike (σ := s.settings) (io := io) (p := paths name)
      (f := (find s.files name).getD {}) hs
    rw [h1] at h
    rw [h2]
    cases l with
    | none =>
      simp only at h ⊢
      cases h
      exact ⟨fs', rfl, rfl, by simp, rfl, h3⟩
    | some l =>
      simp only at h ⊢
      cases h
      exact ⟨fs', rfl, rfl, by simp, h4 l rfl⟩
  | returning name done =>
    rw [ht] at h; simp only at h ⊢
    split at h <;> cases h
    exact ⟨x, by simp_all, rfl, by simp, rfl, hs⟩
  | exited => rw [ht] at h; cases h

/-- A step with a buffer is a step without. -/
theorem follows_step {paths : Nat → Path} {b b' : StateB} {s : State} {ev : Event} {fls : List Flush}
    (hev : GetsThere ev) (hf : Follows b s) (h : stepB paths b ev fls = some b') :
    ∃ s', step paths s ev = some s' ∧ Follows b' s' := by
  obtain ⟨hsame, hend, hh₀⟩ := hf
  unfold stepB at h
  split at h
  · cases h
  rename_i hc
  have hc' : b.s.crashed = false := by simpa using hc
  have hh := hh₀ hc'
  clear hh₀
  generalize s.fs = x at hsame hh
  subst hsame
  by_cases hq : Quiet ev
  · have h' : (step paths b.s ev).map (⟨·, b.pending⟩) = some b' := by
      cases ev <;> first | exact h | exact hq.elim
    rw [Option.map_eq_some_iff] at h'
    obtain ⟨t, h1, rfl⟩ := h'
    obtain ⟨h2, h3, h4, h5, h6⟩ := step_quiet hq h1 x
    refine ⟨_, h2, rfl, h6 hend, fun _ => ?_⟩
    simp only
    rw [h5, h3]
    exact hh
  · cases ev with
    | thread io =>
      simp only at h
      have hstep : step paths { b.s with fs := x } (.thread io) = threadStep paths { b.s with fs := x } io := by
        unfold step
        rw [if_neg (by simpa using hc')]
      rw [hstep]
      cases ho : opened b.s.thread with
      | none =>
        rw [ho] at hh
        obtain ⟨hp, hs⟩ := hh
        have h' : (threadStep paths b.s io).map (⟨·, b.pending⟩) = some b' := by
          cases ht : b.s.thread <;> rw [ht] at h ho <;> first | exact h | cases ho
        rw [Option.map_eq_some_iff] at h'
        obtain ⟨t, h1, rfl⟩ := h'
        obtain ⟨x', h2, h3, h4, h5⟩ := threadStep_alike ho hs h1
        refine ⟨_, h2, rfl, fun last hl => ?_, fun _ => ?_⟩
        · simp only at hl
          rw [h3] at hl
          exact absurd (hend last hl) h4
        · simp only
          rw [hp]
          exact h5
      | some y =>
        cases ht : b.s.thread with
        | writing name p l todo done =>
          rw [ht] at h hh
          obtain ⟨hg, hb⟩ := hh
          have hne : ∀ last, b.s.stage ≠ .flushing last := by
            intro last hl
            have := hend last hl
            rw [ht] at this
            cases this
          simp only at h
          cases h
          unfold threadStep writeStepB
          simp only [ht]
          cases todo with
          | nil => exact ⟨_, rfl, rfl, fun last hl => absurd hl (hne last), fun _ => ⟨rfl, buffered_close hb⟩⟩
          | cons e todo =>
            simp only
            have ha := turn_alike (σ := b.s.settings) (fl := fls.headD {}) (name := name) (e := e) (io := io) hev hg hb
            rcases hB : turnB b.s.settings io (fls.headD {}) p l e b.s.fs b.pending with ⟨disk', pending'⟩ | disk' |
              disk' | _ <;>
            rcases hT : turn b.s.settings io p l name e x with ⟨fs', l', w⟩ | fs' | fs' | _ <;>
            rw [hB, hT] at ha <;> simp only [Alike] at ha ⊢
            · obtain ⟨h1, rfl, rfl⟩ := ha
              exact ⟨_, rfl, rfl, fun last hl => absurd hl (hne last), fun _ => ⟨hg, h1⟩⟩
            · exact ⟨_, rfl, rfl, fun last hl => absurd hl (hne last), fun _ => ⟨rfl, ha⟩⟩
            · exact ⟨_, rfl, rfl, fun last hl => absurd hl (hne last), fun _ => ⟨rfl, ha⟩⟩
            · exact ⟨_, rfl, rfl, fun last hl => absurd hl (hne last), fun h => by cases h⟩
        | _ => rw [ht] at ho; cases ho
    | flush io ios =>
      simp only at h
      unfold step
      rw [if_neg (by simpa using hc')]
      simp only
      cases hst : b.s.stage with
      | flushing last =>
        rw [hst] at h
        simp only at h ⊢
        have hex := hend last hst
        rw [hex] at hh
        obtain ⟨hp, hs⟩ := hh
        cases hn : next b.s.files last with
        | none => rw [hn] at h; cases h
        | some y =>
          obtain ⟨name, f⟩ := y
          rw [hn] at h
          simp only at h ⊢
          cases h
          refine ⟨_, rfl, ?_⟩
          unfold flushFileB flushFile
          split
          · obtain ⟨f', disk', fs', l, h1, h2, h3, h4⟩ := prepare_alike (σ := b.s.settings) (io := io)
              (p := paths name) (f := f) hs
            simp only
            rw [h1, h2]
            cases l with
            | none => exact ⟨rfl, fun _ _ => hex, fun _ => by simp only; rw [hex]; exact ⟨hp, h3⟩⟩
            | some l =>
              obtain ⟨h5, h6⟩ := h4 l rfl
              have hw := writeLoop_alike (σ := b.s.settings) (name := name) h5 f'.buffer.reverse (fls := fls) hev.2 h6
              simp only
              rcases hX : writeLoopB b.s.settings (f'.filePath.getD (paths name)) name l f'.buffer.reverse ios fls disk'
                [] with _ | ⟨d, ps⟩ <;>
              rcases hY : writeLoop b.s.settings (f'.filePath.getD (paths name)) name l f'.buffer.reverse ios fs' with
                _ | ⟨g, ps'⟩ <;>
              rw [hX, hY] at hw <;> simp only at hw ⊢
              · exact ⟨by simp only; rw [hst], fun _ _ => hex, fun h => by cases h⟩
              · obtain ⟨rfl, h7⟩ := hw
                exact ⟨rfl, fun _ _ => hex, fun _ => by simp only; rw [hex]; exact ⟨hp, h7⟩⟩
          · exact ⟨rfl, fun _ _ => hex, fun _ => by simp only; rw [hex]; exact ⟨hp, hs⟩⟩
      | _ => rw [hst] at h; cases h
    | _ => exact absurd trivial hq

theorem follows_run {paths : Nat → Path} (evs : List (Event × List Flush)) : ∀ {b b' : StateB} {s : State},
    (∀ x ∈ evs, GetsThere x.1) → Follows b s → runB paths b evs = some b' →
      ∃ s', run paths s (evs.map (·.1)) = some s' ∧ Follows b' s' := by
  induction evs with
  | nil => intro b b' s _ hf h; cases h; exact ⟨s, rfl, hf⟩
  | cons x evs ih =>
    intro b b' s hx hf h
    obtain ⟨ev, fls⟩ := x
    unfold runB at h
    cases hs : stepB paths b ev fls with
    | none => rw [hs] at h; cases h
    | some b₁ =>
      rw [hs] at h
      obtain ⟨s₁, h1, h2⟩ := follows_step (hx _ List.mem_cons_self) hf hs
      obtain ⟨s', h3, h4⟩ := ih (fun y hy => hx y (List.mem_cons_of_mem _ hy)) h2 h
      refine ⟨s', ?_, h4⟩
      rw [List.map_cons, run, h1]
      exact h3

theorem buffered_missing {p : Path} {pending : List Char} {disk fs : Fs} (h : Buffered p pending disk fs) :
    MissingEnd p disk fs := by
  obtain ⟨h1, h2, a, h3, h4⟩ := h
  exact ⟨h1, h2, a, pending, h3, h4⟩

theorem follows_init (σ : Settings) (fs : Fs) : Follows ⟨init σ fs, []⟩ (init σ fs) :=
  { same := rfl, ended := fun _ h => (by cases h), holds := fun _ => ⟨rfl, rfl, fun _ => rfl⟩ }

theorem turns_alike {σ : Settings} {p : Path} {name : Nat} {l : Locals} (hg : l.good = true) (todo : List Entry) :
    ∀ {ios : List Io} {fls : List Flush} {disk disk' fs : Fs} {pending pending' : List Char}, (∀ io ∈ ios, Writable io) →
      Buffered p pending disk fs → turnsB σ p l todo ios fls disk pending = some (disk', pending') →
      ∃ fs', writeLoop σ p name l todo ios fs = some (fs', todo.map fun e => (name, e, true)) ∧
        Buffered p pending' disk' fs' := by
  induction todo with
  | nil => intro ios fls disk disk' fs pending pending' _ hb h; cases h; exact ⟨fs, rfl, hb⟩
  | cons e todo ih =>
    intro ios fls disk disk' fs pending pending' hio hb h
    have ht := turn_alike (σ := σ) (fl := fls.headD {}) (name := name) (e := e) (headD_writable hio) hg hb
    unfold turnsB at h
    unfold writeLoop
    rcases hB : turnB σ (ios.headD {}) (fls.headD {}) p l e disk pending with ⟨disk₁, pending₁⟩ | _ | _ | _ <;>
    rw [hB] at h ht <;> simp only at h <;> try cases h
    rcases hT : turn σ (ios.headD {}) p l name e fs with ⟨fs₁, l', w⟩ | fs₁ | fs₁ | _ <;>
    rw [hT] at ht <;> simp only [Alike] at ht
    obtain ⟨h1, rfl, rfl⟩ := ht
    obtain ⟨fs', h2, h3⟩ := ih (tail_writable hio) h1 h
    refine ⟨fs', ?_, h3⟩
    simp only
    rw [h2]
    rfl

end Pluto.Log
