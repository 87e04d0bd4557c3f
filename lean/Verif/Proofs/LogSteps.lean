import Verif.Spec.LogSteps
import Verif.Proofs.Log

/-! # The functions of a logger statement by statement: what remains to be done (C142) -/

namespace Pluto.LogSteps
open Pluto.Log Pluto.Spec.Log Pluto.Spec.LogSteps

/-- Several setters. -/
def sets (σ : Settings) (xs : List Setting) : Settings := xs.foldl Settings.set σ

/-- What is used of the result of `prepare`. -/
def outcome (r : LogFile × Fs × Option Locals) : Option Path × Bool × Fs × Option Locals :=
  (r.1.filePath, r.1.dirsCreated, r.2.1, r.2.2)

/-- The end of lines 821-839 from line 837 on. -/
def openRest (p : Path) (x : Preparing) (h : Bool) (n : Nat) : Option Path × Bool × Fs × Option Locals :=
  match Log.openFile x.io.opening (x.filePath.getD p) x.fs with
  | (fs, true) => (x.filePath, x.dirsCreated, fs, some ⟨h, n, true⟩)
  | (fs, false) => (x.filePath, x.dirsCreated, fs, none)

def createRest (σ : Settings) (p : Path) (x : Preparing) : Option Path × Bool × Fs × Option Locals :=
  if x.io.prepare then (x.filePath, x.dirsCreated, x.fs, none)
  else
    openRest p { x with fs := { x.fs with dirs := (x.filePath.getD p).dir :: x.fs.dirs }, dirsCreated := true }
      σ.writeHeader σ.fileRotationSize

def dirsRest (σ : Settings) (p : Path) (x : Preparing) : Option Path × Bool × Fs × Option Locals :=
  if σ.createDirs = true ∧ x.dirsCreated = false then createRest σ p x
  else openRest p x σ.writeHeader σ.fileRotationSize

/-- What becomes of lines 821-839 if the settings are not changed any more. -/
def prepareRest (σ : Settings) (p : Path) (x : Preparing) : Option Path × Bool × Fs × Option Locals :=
  match x.pc with
  | .path =>
    if x.filePath.isNone then
      if x.io.prepare then (x.filePath, x.dirsCreated, x.fs, none)
      else dirsRest σ p { x with filePath := some p }
    else dirsRest σ p x
  | .readDirs => dirsRest σ p x
  | .create => createRest σ p x
  | .readHeader => openRest p x σ.writeHeader σ.fileRotationSize
  | .readSize h => openRest p x h σ.fileRotationSize
  | .openFile h n => openRest p x h n

theorem prepare_begin (σ : Settings) (io : Io) (p : Path) (f : LogFile) (fs : Fs) :
    outcome (prepare σ io p f fs) =
      prepareRest σ p { io := io, filePath := f.filePath, dirsCreated := f.dirsCreated, fs := fs } := by
  rcases f with ⟨b, fp, d⟩
  cases fp <;> cases hp : io.prepare <;> cases hc : σ.createDirs <;> cases d <;>
    simp [prepare, prepareRest, dirsRest, createRest, openRest, outcome, hp, hc] <;>
    (split <;> simp_all)

/-- A setting that is read. -/
theorem prepare_inl {σ : Settings} {p : Path} {x x' : Preparing} (h : prepareStep σ p x = .inl x') :
    x'.io = x.io ∧ ∃ ys : List Setting, (∀ y ∈ ys, σ.set y = σ ∧ ∀ n, y ≠ .bufferFlushSize n ∧ y ≠ .bufferMaxSize n ∧ ∀ l, y ≠ .level l) ∧
      ∀ τ, prepareRest τ p x' = prepareRest (sets τ ys) p x := by
  rcases x with ⟨io, pc, fp, d, fs⟩
  cases pc with
  | path =>
    simp only [prepareStep] at h
    split at h
    · rename_i h1
      split at h
      · cases h
      · rename_i h2
        cases h
        exact ⟨rfl, [], by simp, fun τ => by simp only [prepareRest, sets, List.foldl_nil, h1, h2, if_true]; rfl⟩
    · rename_i h1
      cases h
      exact ⟨rfl, [], by simp, fun τ => by simp only [prepareRest, sets, List.foldl_nil]; rw [if_neg h1]; rfl⟩
  | readDirs =>
    simp only [prepareStep] at h
    split at h
    · rename_i h1
      cases h
      refine ⟨rfl, [.createDirs σ.createDirs], ?_, fun τ => ?_⟩
      · intro y hy
        rw [List.mem_singleton] at hy
        subst hy
        exact ⟨rfl, fun n => ⟨by simp, by simp, fun l => by simp⟩⟩
      · exact (if_pos (t := createRest (sets τ [.createDirs σ.createDirs]) p _) h1).symm
    · rename_i h1
      cases h
      refine ⟨rfl, [.createDirs σ.createDirs], ?_, fun τ => ?_⟩
      · intro y hy
        rw [List.mem_singleton] at hy
        subst hy
        exact ⟨rfl, fun n => ⟨by simp, by simp, fun l => by simp⟩⟩
      · exact (if_neg (e := openRest p _ τ.writeHeader τ.fileRotationSize) h1).symm
  | create =>
    simp only [prepareStep] at h
    split at h
    · cases h
    · rename_i h1
      cases h
      exact ⟨rfl, [], by simp, fun τ => by
        simp only [prepareRest, sets, List.foldl_nil, createRest]; rw [if_neg h1]; rfl⟩
  | readHeader =>
    cases h
    refine ⟨rfl, [.writeHeader σ.writeHeader], ?_, fun τ => rfl⟩
    intro y hy
    rw [List.mem_singleton] at hy
    subst hy
    exact ⟨rfl, fun n => ⟨by simp, by simp, fun l => by simp⟩⟩
  | readSize hh =>
    cases h
    refine ⟨rfl, [.fileRotationSize σ.fileRotationSize], ?_, fun τ => rfl⟩
    intro y hy
    rw [List.mem_singleton] at hy
    subst hy
    exact ⟨rfl, fun n => ⟨by simp, by simp, fun l => by simp⟩⟩
  | openFile hh n =>
    simp only [prepareStep] at h
    split at h <;> cases h

theorem prepare_inr {σ : Settings} {p : Path} {x : Preparing} {r : Option Path × Bool × Fs × Option Locals}
    (h : prepareStep σ p x = .inr r) : ∀ τ, prepareRest τ p x = r := by
  rcases x with ⟨io, pc, fp, d, fs⟩
  intro τ
  cases pc with
  | path =>
    simp only [prepareStep] at h
    split at h
    · rename_i h1
      split at h
      · rename_i h2
        cases h
        simp only [prepareRest, h1, h2, if_true]
      · cases h
    · cases h
  | readDirs =>
    simp only [prepareStep] at h
    split at h <;> cases h
  | create =>
    simp only [prepareStep] at h
    split at h
    · rename_i h1
      cases h
      simp only [prepareRest, createRest, h1, if_true]
    · cases h
  | readHeader => cases h
  | readSize hh => cases h
  | openFile hh n =>
    simp only [prepareStep] at h
    simp only [prepareRest, openRest]
    split at h <;> cases h <;> simp only [*]

/-- The end of an iteration from the call of the log writer on. -/
def entryRest (w : Entry → Written) (p : Path) (name : Nat) (e : Entry) (x : Turning) : Turn :=
  match w e with
  | .ok text =>
    match put p (.entry name e) (text ++ ['\n']) x.io.entry x.l.good x.fs with
    | (fs, good) => .next fs { x.l with good := good } good
  | .fsError text =>
    match put p .torn text x.io.entry x.l.good x.fs with
    | (fs, _) => .after fs
  | .error => .crash

def headerRest (σ : Settings) (w : Written) (p : Path) (name : Nat) (e : Entry) (x : Turning) : Turn :=
  match w with
  | .ok text =>
    match put p .header (text ++ ['\n']) x.io.header x.l.good x.fs with
    | (fs, good) => entryRest σ.logWriter p name e { x with fs := fs, l := { x.l with good := good } }
  | .fsError text =>
    match put p .torn text x.io.header x.l.good x.fs with
    | (fs, _) => .before fs
  | .error => .crash

def readHeaderRest (σ : Settings) (n : Nat) (p : Path) (name : Nat) (e : Entry) (x : Turning) : Turn :=
  if x.l.writeHeader = true ∧ n = 0 then headerRest σ σ.headerWriter p name e x else entryRest σ.logWriter p name e x

def reopenRest (σ : Settings) (p : Path) (name : Nat) (e : Entry) (x : Turning) : Turn :=
  match Log.openFile x.io.opening p x.fs with
  | (fs, true) => readHeaderRest σ (fileSize p true fs) p name e { x with fs := fs, l := { x.l with good := true } }
  | (fs, false) => .before fs

def rotateRest (σ : Settings) (limit : Nat) (p : Path) (name : Nat) (e : Entry) (x : Turning) : Turn :=
  match Log.rotate x.io.rotating p limit x.fs with
  | (fs, true) => reopenRest σ p name e { x with fs := fs }
  | (fs, false) => .before fs

/-- What becomes of lines 843-863 if the settings are not changed any more. -/
def turnRest (σ : Settings) (p : Path) (name : Nat) (e : Entry) (x : Turning) : Turn :=
  match x.pc with
  | .tell =>
    if x.l.fileRotationSize ≠ 0 ∧ x.l.fileRotationSize ≤ fileSize p x.l.good x.fs then
      rotateRest σ σ.fileRotationLimit p name e x
    else readHeaderRest σ (fileSize p x.l.good x.fs) p name e x
  | .readLimit => rotateRest σ σ.fileRotationLimit p name e x
  | .rotate n => rotateRest σ n p name e x
  | .reopen => reopenRest σ p name e x
  | .readHeaderWriter n => readHeaderRest σ n p name e x
  | .header w => headerRest σ w p name e x
  | .readLogWriter => entryRest σ.logWriter p name e x
  | .entry w => entryRest w p name e x

theorem turn_begin (σ : Settings) (io : Io) (p : Path) (l : Locals) (name : Nat) (e : Entry) (fs : Fs) :
    turn σ io p l name e fs = turnRest σ p name e { io := io, l := l, fs := fs } := by
  have hE : ∀ (pc : TurnPc) (l : Locals) (fs : Fs), turnEntry σ io p l name e fs =
      entryRest σ.logWriter p name e { io := io, pc := pc, l := l, fs := fs } := fun _ _ _ => rfl
  have hH : ∀ (pc : TurnPc) (l : Locals) (n : Nat) (fs : Fs), turnHeader σ io p l n name e fs =
      readHeaderRest σ n p name e { io := io, pc := pc, l := l, fs := fs } := by
    intro pc l n fs
    simp only [turnHeader, readHeaderRest]
    split
    · simp only [headerRest]
      cases σ.headerWriter with
      | ok text => exact hE pc _ _
      | fsError text => rfl
      | error => rfl
    · rw [hE pc]
  simp only [turn, turnRest]
  split
  · simp only [rotateRest]
    rcases Log.rotate io.rotating p σ.fileRotationLimit fs with ⟨fs1, b1⟩
    cases b1
    · rfl
    · simp only [reopenRest]
      rcases Log.openFile io.opening p fs1 with ⟨fs2, b2⟩
      cases b2
      · rfl
      · exact hH .tell _ _ _
  · rw [hH .tell]

theorem turn_inl {σ : Settings} {p : Path} {name : Nat} {e : Entry} {x x' : Turning}
    (h : turnStep σ p name e x = .inl x') :
    x'.io = x.io ∧ ∃ ys : List Setting, (∀ y ∈ ys, σ.set y = σ ∧ ∀ n, y ≠ .bufferFlushSize n ∧ y ≠ .bufferMaxSize n ∧ ∀ l, y ≠ .level l) ∧
      ∀ τ, turnRest τ p name e x' = turnRest (sets τ ys) p name e x := by
  rcases x with ⟨io, pc, l, fs⟩
  cases pc with
  | tell =>
    simp only [turnStep] at h
    split at h
    · rename_i h1
      cases h
      exact ⟨rfl, [], by simp, fun τ => by simp only [turnRest, sets, List.foldl_nil]; rw [if_pos h1]; rfl⟩
    · rename_i h1
      cases h
      exact ⟨rfl, [], by simp, fun τ => by simp only [turnRest, sets, List.foldl_nil]; rw [if_neg h1]; rfl⟩
  | readLimit =>
    cases h
    refine ⟨rfl, [.fileRotationLimit σ.fileRotationLimit], ?_, fun τ => rfl⟩
    intro y hy
    rw [List.mem_singleton] at hy
    subst hy
    exact ⟨rfl, fun n => ⟨by simp, by simp, fun l => by simp⟩⟩
  | rotate n =>
    simp only [turnStep] at h
    split at h
    · rename_i h1
      cases h
      exact ⟨rfl, [], by simp, fun τ => by simp only [turnRest, rotateRest, sets, List.foldl_nil, h1]; rfl⟩
    · cases h
  | reopen =>
    simp only [turnStep] at h
    split at h
    · rename_i h1
      cases h
      exact ⟨rfl, [], by simp, fun τ => by simp only [turnRest, reopenRest, sets, List.foldl_nil, h1]; rfl⟩
    · cases h
  | readHeaderWriter n =>
    simp only [turnStep] at h
    split at h
    · rename_i h1
      cases h
      refine ⟨rfl, [.headerWriter σ.headerWriter], ?_, fun τ => ?_⟩
      · intro y hy
        rw [List.mem_singleton] at hy
        subst hy
        exact ⟨rfl, fun n => ⟨by simp, by simp, fun l => by simp⟩⟩
      · simp only [turnRest, readHeaderRest, sets, List.foldl_cons, List.foldl_nil, Settings.set]
        rw [if_pos h1]
        rfl
    · rename_i h1
      cases h
      exact ⟨rfl, [], by simp, fun τ => by
        simp only [turnRest, readHeaderRest, sets, List.foldl_nil]; rw [if_neg h1]; rfl⟩
  | header w =>
    simp only [turnStep] at h
    split at h
    · cases h
      exact ⟨rfl, [], by simp, fun τ => rfl⟩
    · cases h
    · cases h
  | readLogWriter =>
    cases h
    refine ⟨rfl, [.logWriter σ.logWriter], ?_, fun τ => rfl⟩
    intro y hy
    rw [List.mem_singleton] at hy
    subst hy
    exact ⟨rfl, fun n => ⟨by simp, by simp, fun l => by simp⟩⟩
  | entry w =>
    simp only [turnStep] at h
    split at h <;> cases h

theorem turn_inr {σ : Settings} {p : Path} {name : Nat} {e : Entry} {x : Turning} {t : Turn}
    (h : turnStep σ p name e x = .inr t) : ∀ τ, turnRest τ p name e x = t := by
  rcases x with ⟨io, pc, l, fs⟩
  intro τ
  cases pc with
  | tell =>
    simp only [turnStep] at h
    split at h <;> cases h
  | readLimit => cases h
  | rotate n =>
    simp only [turnStep] at h
    split at h
    · cases h
    · rename_i h1
      cases h
      simp only [turnRest, rotateRest, h1]
  | reopen =>
    simp only [turnStep] at h
    split at h
    · cases h
    · rename_i h1
      cases h
      simp only [turnRest, reopenRest, h1]
  | readHeaderWriter n =>
    simp only [turnStep] at h
    split at h <;> cases h
  | header w =>
    simp only [turnStep] at h
    split at h
    · cases h
    · cases h; rfl
    · cases h; rfl
  | readLogWriter => cases h
  | entry w =>
    simp only [turnStep] at h
    simp only [turnRest, entryRest]
    split at h <;> cases h <;> rename_i h1 <;> rw [h1]

/-! ## Setters -/

/-- The settings that the logging thread reads in lines 821-863. -/
def Read (y : Setting) : Prop := ∀ n, y ≠ .bufferFlushSize n ∧ y ≠ .bufferMaxSize n ∧ ∀ l, y ≠ .level l

theorem sets_append (σ : Settings) (xs ys : List Setting) : sets σ (xs ++ ys) = sets (sets σ xs) ys := by
  simp [sets, List.foldl_append]

theorem sets_noop {σ : Settings} {xs : List Setting} (h : ∀ y ∈ xs, σ.set y = σ) : sets σ xs = σ := by
  induction xs with
  | nil => rfl
  | cons y ys ih =>
    rw [sets, List.foldl_cons, h y List.mem_cons_self]
    exact ih fun y hy => h y (List.mem_cons_of_mem _ hy)

/-- The settings as they are now, except for the flush size. -/
def back (σ : Settings) : List Setting :=
  [.level σ.level, .createDirs σ.createDirs, .writeHeader σ.writeHeader, .bufferMaxSize σ.bufferMaxSize,
    .fileRotationSize σ.fileRotationSize, .fileRotationLimit σ.fileRotationLimit, .logWriter σ.logWriter,
    .headerWriter σ.headerWriter]

theorem back_noop (σ : Settings) : ∀ y ∈ back σ, σ.set y = σ := by
  simp [back, Settings.set]

theorem back_flush (σ : Settings) : ∀ y ∈ back σ, ∀ n, y ≠ .bufferFlushSize n := by
  simp [back]

theorem sets_flush {σ : Settings} {xs : List Setting} (h : ∀ y ∈ xs, ∀ n, y ≠ .bufferFlushSize n) :
    (sets σ xs).bufferFlushSize = σ.bufferFlushSize := by
  induction xs generalizing σ with
  | nil => rfl
  | cons y ys ih =>
    rw [sets, List.foldl_cons]
    refine (ih fun y hy => h y (List.mem_cons_of_mem _ hy)).trans ?_
    have := h y List.mem_cons_self
    cases y <;> first | rfl | exact absurd rfl (this _)

theorem sets_back {σ : Settings} {xs : List Setting} (h : ∀ y ∈ xs, ∀ n, y ≠ .bufferFlushSize n) :
    sets (sets σ xs) (back σ) = σ := by
  have := sets_flush (σ := σ) h
  generalize sets σ xs = τ at this
  rcases τ with ⟨⟩
  rcases σ with ⟨⟩
  simp only at this
  subst this
  rfl

/-- What a setting is after one of the setters. -/
theorem set_now {σ : Settings} {x y : Setting} (h : (σ.set x).set y = σ.set x) : y = x ∨ σ.set y = σ := by
  rcases σ with ⟨⟩
  cases x <;> cases y <;> simp_all [Settings.set]

end Pluto.LogSteps
