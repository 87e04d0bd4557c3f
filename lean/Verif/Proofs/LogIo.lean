import Verif.Proofs.LogFlow
import Verif.Proofs.LogFs

/-! # The logger: reasoning about what is on disk -/

namespace Pluto.Log
open Pluto.Spec.Log

/-! ## Opening files -/

/-- A file is created if it does not exist; nothing else changes. -/
def Opened (p : Path) (fs fs' : Fs) : Prop :=
  fs.dirs ⊆ fs'.dirs ∧ (∀ q, q ≠ p → read fs' q = read fs q) ∧
    (read fs' p = read fs p ∨ (read fs p = none ∧ read fs' p = some []))

theorem openFile_opened {b r : Bool} {p : Path} {fs fs' : Fs} (h : openFile b p fs = (fs', r)) :
    Opened p fs fs' ∧ (r = true → read fs' p ≠ none ∧ p.dir ∈ fs'.dirs) := by
  unfold openFile at h
  split at h
  · cases h
    exact ⟨⟨fun _ h => h, fun _ _ => rfl, .inl rfl⟩, by simp⟩
  · rename_i hd
    simp only [not_or, not_not] at hd
    split at h
    · rename_i c hc
      cases h
      exact ⟨⟨fun _ h => h, fun _ _ => rfl, .inl rfl⟩, fun _ => ⟨by rw [hc]; simp, hd.2⟩⟩
    · rename_i hc
      cases h
      refine ⟨⟨fun _ h => h, fun q hq => read_store_other _ _ hq, .inr ⟨hc, read_store_self ..⟩⟩,
        fun _ => ⟨by rw [read_store_self]; simp, hd.2⟩⟩

theorem openFile_ok {p : Path} {fs : Fs} (h : p.dir ∈ fs.dirs) :
    ∃ fs', openFile false p fs = (fs', true) := by
  unfold openFile
  rw [if_neg (by simp [h])]
  split <;> exact ⟨_, rfl⟩

/-- The path of a log file, once known, is the one its name stands for. -/
def Known (p : Path) (f : LogFile) : Prop := f.filePath = none ∨ f.filePath = some p

theorem prepare_cases {σ : Settings} {io : Io} {p : Path} {f f' : LogFile} {fs fs' : Fs}
    {l : Option Locals} (hk : Known p f) (h : prepare σ io p f fs = (f', fs', l)) :
    Known p f' ∧ Opened p fs fs' ∧
    (f'.dirsCreated = true → f.dirsCreated = true ∨ p.dir ∈ fs'.dirs) ∧
    (∀ l', l = some l' → f'.filePath = some p ∧ l' = ⟨σ.writeHeader, σ.fileRotationSize, true⟩ ∧
      read fs' p ≠ none ∧ p.dir ∈ fs'.dirs) := by
  have hget : f.filePath.getD p = p := by rcases hk with h | h <;> rw [h] <;> rfl
  have hrefl : Opened p fs fs := ⟨fun _ h => h, fun _ _ => rfl, .inl rfl⟩
  unfold prepare at h
  split at h
  · cases h
    exact ⟨hk, hrefl, fun h => .inl h, by simp⟩
  · simp only [hget, Option.getD_some] at h
    split at h
    · cases h
      exact ⟨.inr rfl, hrefl, fun h => .inl h, by simp⟩
    · by_cases hcd : σ.createDirs = true ∧ f.dirsCreated = false
      · rw [if_pos hcd] at h
        simp only at h
        rcases ho : openFile io.opening p { fs with dirs := p.dir :: fs.dirs } with ⟨fs₂, r⟩
        rw [ho] at h
        obtain ⟨⟨h1, h2, h3⟩, h4⟩ := openFile_opened ho
        cases r with
        | true =>
          cases h
          refine ⟨.inr rfl, ⟨fun x hx => h1 (List.mem_cons_of_mem _ hx), h2, h3⟩,
            fun _ => .inr (h1 (List.mem_cons_self ..)), ?_⟩
          intro l' hl'
          cases hl'
          exact ⟨rfl, rfl, h4 rfl⟩
        | false =>
          cases h
          exact ⟨.inr rfl, ⟨fun x hx => h1 (List.mem_cons_of_mem _ hx), h2, h3⟩,
            fun _ => .inr (h1 (List.mem_cons_self ..)), by simp⟩
      · rw [if_neg hcd] at h
        simp only at h
        rcases ho : openFile io.opening p fs with ⟨fs₂, r⟩
        rw [ho] at h
        obtain ⟨⟨h1, h2, h3⟩, h4⟩ := openFile_opened ho
        cases r with
        | true =>
          cases h
          refine ⟨.inr rfl, ⟨h1, h2, h3⟩, fun h => .inl h, ?_⟩
          intro l' hl'
          cases hl'
          exact ⟨rfl, rfl, h4 rfl⟩
        | false =>
          cases h
          exact ⟨.inr rfl, ⟨h1, h2, h3⟩, fun h => .inl h, by simp⟩

/-! ## Rotation with failures -/

/-- Files with numbers are removed, or renamed to the next number, which is free and at most
`limit`. -/
inductive Shift (p : Path) (limit : Nat) : Fs → Fs → Prop where
  | refl (fs : Fs) : Shift p limit fs fs
  | remove {fs fs' : Fs} (i : Nat) (hi : limit ≤ i) : Shift p limit (remove fs (pathAt p i)) fs' → Shift p limit fs fs'
  | rename {fs fs' : Fs} (i : Nat) (c : List Chunk) (hi : i < limit) (hc : read fs (pathAt p i) = some c)
      (hf : read fs (pathAt p (i + 1)) = none) :
      Shift p limit (store (Log.remove fs (pathAt p i)) (pathAt p (i + 1)) c) fs' → Shift p limit fs fs'

theorem Shift.trans {p : Path} {limit : Nat} {fs fs' fs'' : Fs} (h : Shift p limit fs fs') (h' : Shift p limit fs' fs'') :
    Shift p limit fs fs'' := by
  induction h with
  | refl => exact h'
  | remove i hi _ ih => exact .remove i hi (ih h')
  | rename i c hi hc hf _ ih => exact .rename i c hi hc hf (ih h')

theorem renameFiles_shift {f : RotateFaults} {p : Path} {limit : Nat} :
    ∀ {m : Nat} {fs fs' : Fs} {b : Bool}, m ≤ limit → read fs (pathAt p m) = none →
      renameFiles f p m fs = (fs', b) →
      Shift p limit fs fs' ∧ (b = true → read fs' (pathAt p 0) = none) := by
  intro m
  induction m with
  | zero =>
    intro fs fs' b hl hm h
    cases h
    exact ⟨.refl _, fun _ => hm⟩
  | succ i ih =>
    intro fs fs' b hl hm h
    unfold renameFiles at h
    split at h
    · cases h; exact ⟨.refl _, by simp⟩
    · unfold rename at h
      cases hc : read fs (pathAt p i) with
      | none => rw [hc] at h; cases h; exact ⟨.refl _, by simp⟩
      | some c =>
        rw [hc] at h
        simp only at h
        have h0 : read (store (remove fs (pathAt p i)) (pathAt p (i + 1)) c) (pathAt p i) = none := by
          rw [read_store_other _ _ (pathAt_ne (by omega)), read_remove_self]
        obtain ⟨h1, h2⟩ := ih (by omega) h0 h
        exact ⟨.rename i c (by omega) hc hm h1, h2⟩

theorem scanFiles_shift {f : RotateFaults} {p : Path} {limit : Nat} :
    ∀ {fuel i : Nat} {fs fs' : Fs} {r : Option Nat}, (limit < i → read fs (pathAt p limit) = none) →
      scanFiles f p limit fuel i (min i limit) fs = (fs', r) →
      Shift p limit fs fs' ∧ ∀ m, r = some m → m ≤ limit ∧ read fs' (pathAt p m) = none := by
  intro fuel
  induction fuel with
  | zero => intro i fs fs' r _ h; cases h; exact ⟨.refl _, by simp⟩
  | succ fuel ih =>
    intro i fs fs' r hl h
    unfold scanFiles at h
    split at h
    · cases h; exact ⟨.refl _, by simp⟩
    · split at h
      · rename_i he
        cases h
        refine ⟨.refl _, ?_⟩
        intro m hm
        cases hm
        refine ⟨Nat.min_le_right .., ?_⟩
        by_cases hi : limit < i
        · rw [Nat.min_eq_right (by omega)]; exact hl hi
        · rw [Nat.min_eq_left (by omega)]
          simpa [exists'] using he
      · split at h
        · rename_i hi
          rw [show min i limit + 1 = min (i + 1) limit by omega] at h
          exact ih (fun h => by omega) h
        · rename_i hi
          rw [show min i limit = min (i + 1) limit by omega] at h
          have := ih (fs := remove fs (pathAt p i)) ?_ h
          · exact ⟨.remove i (by omega) this.1, this.2⟩
          · intro _
            rw [read_remove]
            split
            · rfl
            · rename_i hne
              refine hl ?_
              have : limit ≠ i := fun e => hne (by rw [e])
              omega

/-- Whatever fails, rotation only removes files or gives them the next number; if it
succeeds there is no current file. -/
theorem rotate_shift {f : RotateFaults} {p : Path} {limit : Nat} {fs fs' : Fs} {b : Bool}
    (h : rotate f p limit fs = (fs', b)) :
    Shift p limit fs fs' ∧ (b = true → read fs' p = none) := by
  unfold rotate at h
  rcases hs : scanFiles f p limit (fs.files.length + 1) 0 0 fs with ⟨fs₁, r⟩
  rw [hs] at h
  have := scanFiles_shift (f := f) (p := p) (limit := limit) (i := 0) (fs := fs) (fs' := fs₁) (r := r)
    (fuel := fs.files.length + 1) (fun h => by omega) (by rw [Nat.zero_min]; exact hs)
  cases r with
  | none => cases h; exact ⟨this.1, by simp⟩
  | some m =>
    simp only at h
    have h2 := renameFiles_shift (this.2 m rfl).1 (this.2 m rfl).2 h
    rw [pathAt_zero] at h2
    exact ⟨this.1.trans h2.1, h2.2⟩

theorem shift_dirs {p : Path} {limit : Nat} {fs fs' : Fs} (h : Shift p limit fs fs') : fs'.dirs = fs.dirs := by
  induction h with
  | refl => rfl
  | remove i hi _ ih => rw [ih]; rfl
  | rename i c hi hc hf _ ih => rw [ih]; rfl

/-- Other files are not touched. -/
theorem shift_other {p q : Path} {limit : Nat} {fs fs' : Fs} (h : Shift p limit fs fs') (hq : ∀ i, q ≠ pathAt p i) :
    read fs' q = read fs q := by
  induction h with
  | refl => rfl
  | remove i hi _ ih => rw [ih, read_remove_other _ (hq i)]
  | rename i c hi hc hf _ ih =>
    rw [ih, read_store_other _ _ (hq (i + 1)), read_remove_other _ (hq i)]

/-- What is in a file afterwards was in a file before. -/
theorem shift_contents {p q : Path} {limit : Nat} {fs fs' : Fs} {c : List Chunk} (h : Shift p limit fs fs')
    (hq : read fs' q = some c) : ∃ q', read fs q' = some c := by
  induction h with
  | refl => exact ⟨q, hq⟩
  | remove i hi _ ih =>
    obtain ⟨q', h'⟩ := ih hq
    rw [read_remove] at h'
    split at h'
    · cases h'
    · exact ⟨q', h'⟩
  | rename i c' hi hc hf _ ih =>
    obtain ⟨q', h'⟩ := ih hq
    rw [read_store] at h'
    split at h'
    · cases h'; exact ⟨_, hc⟩
    · rw [read_remove] at h'
      split at h'
      · cases h'
      · exact ⟨q', h'⟩

/-! ## Writing -/

theorem put_cases {p : Path} {k : Kind} {text : List Char} {bad : Option Nat} {good : Bool} {fs fs' : Fs}
    {r : Bool} (h : put p k text bad good fs = (fs', r)) :
    (good = false ∧ fs' = fs ∧ r = false) ∨
    (good = true ∧ bad = none ∧ r = true ∧ fs' = store fs p ((read fs p).getD [] ++ [⟨k, text⟩])) ∨
    (good = true ∧ r = false ∧ ∃ n, bad = some n ∧
      fs' = store fs p ((read fs p).getD [] ++ [⟨.torn, text.take n⟩])) := by
  unfold put at h
  split at h
  · rename_i hg
    simp only at h
    split at h
    · cases h; exact .inr (.inl ⟨hg, rfl, rfl, rfl⟩)
    · cases h; exact .inr (.inr ⟨hg, rfl, _, rfl, rfl⟩)
  · rename_i hg
    cases h; exact .inl ⟨by simpa using hg, rfl, rfl⟩

/-- The end of an iteration. -/
theorem turnEntry_cases (σ : Settings) (io : Io) (p : Path) (l : Locals) (name : Nat) (e : Entry) (fs : Fs) :
    (∃ text fs' r, σ.logWriter e = .ok text ∧
      put p (.entry name e) (text ++ ['\n']) io.entry l.good fs = (fs', r) ∧
      turnEntry σ io p l name e fs = .next fs' { l with good := r } r) ∨
    (∃ text fs' r, σ.logWriter e = .fsError text ∧ put p .torn text io.entry l.good fs = (fs', r) ∧
      turnEntry σ io p l name e fs = .after fs') ∨
    turnEntry σ io p l name e fs = .crash := by
  unfold turnEntry
  cases hw : σ.logWriter e with
  | ok text =>
    left
    rcases hp : put p (.entry name e) (text ++ ['\n']) io.entry l.good fs with ⟨fs', r⟩
    exact ⟨text, fs', r, rfl, hp, by simp only [hp]⟩
  | fsError text =>
    right; left
    rcases hp : put p .torn text io.entry l.good fs with ⟨fs', r⟩
    exact ⟨text, fs', r, rfl, hp, by simp only [hp]⟩
  | error => right; right; rfl

/-- The middle of an iteration. -/
theorem turnHeader_cases (σ : Settings) (io : Io) (p : Path) (l : Locals) (k : Nat) (name : Nat) (e : Entry)
    (fs : Fs) :
    (¬ (l.writeHeader = true ∧ k = 0) ∧ turnHeader σ io p l k name e fs = turnEntry σ io p l name e fs) ∨
    (∃ text fs' r, l.writeHeader = true ∧ k = 0 ∧ σ.headerWriter = .ok text ∧
      put p .header (text ++ ['\n']) io.header l.good fs = (fs', r) ∧
      turnHeader σ io p l k name e fs = turnEntry σ io p { l with good := r } name e fs') ∨
    (∃ text fs' r, l.writeHeader = true ∧ k = 0 ∧ σ.headerWriter = .fsError text ∧
      put p .torn text io.header l.good fs = (fs', r) ∧ turnHeader σ io p l k name e fs = .before fs') ∨
    (l.writeHeader = true ∧ k = 0 ∧ σ.headerWriter = .error ∧ turnHeader σ io p l k name e fs = .crash) := by
  unfold turnHeader
  split
  · rename_i h
    cases hw : σ.headerWriter with
    | ok text =>
      right; left
      rcases hp : put p .header (text ++ ['\n']) io.header l.good fs with ⟨fs', r⟩
      exact ⟨text, fs', r, h.1, h.2, rfl, hp, by simp only [hp]⟩
    | fsError text =>
      right; right; left
      rcases hp : put p .torn text io.header l.good fs with ⟨fs', r⟩
      exact ⟨text, fs', r, h.1, h.2, rfl, hp, by simp only [hp]⟩
    | error => exact .inr (.inr (.inr ⟨h.1, h.2, rfl, rfl⟩))
  · rename_i h; exact .inl ⟨h, rfl⟩

/-- The beginning of an iteration. -/
theorem turn_cases (σ : Settings) (io : Io) (p : Path) (l : Locals) (name : Nat) (e : Entry) (fs : Fs) :
    (¬ (l.fileRotationSize ≠ 0 ∧ l.fileRotationSize ≤ fileSize p l.good fs) ∧
      turn σ io p l name e fs = turnHeader σ io p l (fileSize p l.good fs) name e fs) ∨
    (l.fileRotationSize ≠ 0 ∧ l.fileRotationSize ≤ fileSize p l.good fs ∧
      ∃ fs₁ b, rotate io.rotating p σ.fileRotationLimit fs = (fs₁, b) ∧
        ((b = false ∧ turn σ io p l name e fs = .before fs₁) ∨
        (b = true ∧ ∃ fs₂ r, openFile io.opening p fs₁ = (fs₂, r) ∧
          ((r = false ∧ turn σ io p l name e fs = .before fs₂) ∨
          (r = true ∧ turn σ io p l name e fs =
            turnHeader σ io p { l with good := true } (fileSize p true fs₂) name e fs₂))))) := by
  unfold turn
  split
  · rename_i h
    right
    refine ⟨h.1, h.2, ?_⟩
    rcases hr : rotate io.rotating p σ.fileRotationLimit fs with ⟨fs₁, b⟩
    refine ⟨fs₁, b, rfl, ?_⟩
    cases b with
    | false => exact .inl ⟨rfl, rfl⟩
    | true =>
      right
      refine ⟨rfl, ?_⟩
      rcases ho : openFile io.opening p fs₁ with ⟨fs₂, r⟩
      refine ⟨fs₂, r, rfl, ?_⟩
      cases r with
      | false => left; simp only [ho, true_and]
      | true => right; simp only [ho, true_and]
  · rename_i h; exact .inl ⟨h, rfl⟩

/-! ## Invariants of what is on disk -/

/-- How an iteration that ends in `t` changes the file system and the record of the entries. -/
def After (I : Fs → List (Nat × Entry × Bool) → Prop) (J : Locals → Prop) (name : Nat) (e : Entry)
    (ps : List (Nat × Entry × Bool)) : Turn → Prop
  | .next fs l whole => I fs (ps ++ [(name, e, whole)]) ∧ J l
  | .before fs => I fs ps
  | .after fs => I fs (ps ++ [(name, e, false)])
  | .crash => True

theorem writeLoop_invariant {okIo : Io → Prop} {I : Fs → List (Nat × Entry × Bool) → Prop}
    {J : Locals → Prop} {σ : Settings} {p : Path} {name : Nat} (h0 : okIo {})
    (hturn : ∀ io l e fs ps, okIo io → J l → I fs ps → After I J name e ps (turn σ io p l name e fs)) :
    ∀ {todo : List Entry} {l : Locals} {ios : List Io} {fs fs' : Fs} {qs ps : List (Nat × Entry × Bool)},
      (∀ io ∈ ios, okIo io) → J l → I fs qs → writeLoop σ p name l todo ios fs = some (fs', ps) →
      I fs' (qs ++ ps) := by
  intro todo
  induction todo with
  | nil =>
    intro l ios fs fs' qs ps _ _ hI h
    cases h
    simpa using hI
  | cons e todo ih =>
    intro l ios fs fs' qs ps hios hJ hI h
    have hio : okIo (ios.headD {}) := by
      cases ios with
      | nil => exact h0
      | cons a as => exact hios a (List.mem_cons_self ..)
    have htail : ∀ io ∈ ios.tail, okIo io := fun io hm => hios io (List.mem_of_mem_tail hm)
    have ht := hturn (ios.headD {}) l e fs qs hio hJ hI
    unfold writeLoop at h
    rcases hw : turn σ (ios.headD {}) p l name e fs with ⟨fs₁, l', whole⟩ | fs₁ | fs₁ | _
    · rw [hw] at h ht
      simp only at h
      rcases hr : writeLoop σ p name l' todo ios.tail fs₁ with _ | ⟨fs₂, ps'⟩
      · rw [hr] at h; cases h
      · rw [hr] at h
        cases h
        have := ih htail ht.2 ht.1 hr
        simpa using this
    · rw [hw] at h ht; cases h; rw [List.append_nil]; exact ht
    · rw [hw] at h ht; cases h; exact ht
    · rw [hw] at h; cases h

/-- What the logger knows about its paths. -/
structure PathsOk (paths : Nat → Path) (s : State) : Prop where
  known : ∀ n f, find s.files n = some f → Known (paths n) f
  dirs : ∀ n f, find s.files n = some f → f.dirsCreated = true → (paths n).dir ∈ s.fs.dirs
  writing : ∀ name p l todo done, s.thread = .writing name p l todo done → p = paths name

theorem opened_dirs {p : Path} {fs fs' : Fs} (h : Opened p fs fs') : fs.dirs ⊆ fs'.dirs := h.1

/-- An iteration does not remove directories. -/
theorem turn_dirs (σ : Settings) (io : Io) (p : Path) (l : Locals) (name : Nat) (e : Entry) (fs : Fs) :
    ∀ fs', (∀ l' w, turn σ io p l name e fs = .next fs' l' w → fs.dirs ⊆ fs'.dirs) ∧
      (turn σ io p l name e fs = .before fs' → fs.dirs ⊆ fs'.dirs) ∧
      (turn σ io p l name e fs = .after fs' → fs.dirs ⊆ fs'.dirs) := by
  have hput : ∀ {k text bad good fs fs' r}, put p k text bad good fs = (fs', r) → fs'.dirs = fs.dirs := by
    intro k text bad good fs fs' r h
    rcases put_cases h with ⟨-, rfl, -⟩ | ⟨-, -, -, rfl⟩ | ⟨-, -, n, -, rfl⟩
    · rfl
    · exact dirs_store ..
    · exact dirs_store ..
  have hentry : ∀ l fs fs', (∀ l' w, turnEntry σ io p l name e fs = .next fs' l' w → fs.dirs ⊆ fs'.dirs) ∧
      (turnEntry σ io p l name e fs = .before fs' → fs.dirs ⊆ fs'.dirs) ∧
      (turnEntry σ io p l name e fs = .after fs' → fs.dirs ⊆ fs'.dirs) := by
    intro l fs fs'
    rcases turnEntry_cases σ io p l name e fs with ⟨text, fs₁, r, -, hp, ht⟩ | ⟨text, fs₁, r, -, hp, ht⟩ | ht <;>
      rw [ht]
    · refine ⟨?_, by simp, by simp⟩
      intro l' w h; cases h; rw [hput hp]; exact fun _ h => h
    · refine ⟨by simp, by simp, ?_⟩
      intro h; cases h; rw [hput hp]; exact fun _ h => h
    · exact ⟨by simp, by simp, by simp⟩
  have hheader : ∀ l k fs fs', (∀ l' w, turnHeader σ io p l k name e fs = .next fs' l' w → fs.dirs ⊆ fs'.dirs) ∧
      (turnHeader σ io p l k name e fs = .before fs' → fs.dirs ⊆ fs'.dirs) ∧
      (turnHeader σ io p l k name e fs = .after fs' → fs.dirs ⊆ fs'.dirs) := by
    intro l k fs fs'
    rcases turnHeader_cases σ io p l k name e fs with ⟨-, ht⟩ | ⟨text, fs₁, r, -, -, -, hp, ht⟩ |
      ⟨text, fs₁, r, -, -, -, hp, ht⟩ | ⟨-, -, -, ht⟩ <;> rw [ht]
    · exact hentry l fs fs'
    · rw [← hput hp]; exact hentry _ fs₁ fs'
    · refine ⟨by simp, ?_, by simp⟩
      intro h; cases h; rw [hput hp]; exact fun _ h => h
    · exact ⟨by simp, by simp, by simp⟩
  intro fs'
  rcases turn_cases σ io p l name e fs with ⟨-, ht⟩ | ⟨-, -, fs₁, b, hr, ⟨-, ht⟩ | ⟨-, fs₂, r, ho, ⟨-, ht⟩ | ⟨-, ht⟩⟩⟩ <;>
    rw [ht]
  · exact hheader ..
  · refine ⟨by simp, ?_, by simp⟩
    intro h; cases h; rw [shift_dirs (rotate_shift hr).1]; exact fun _ h => h
  · refine ⟨by simp, ?_, by simp⟩
    intro h; cases h; rw [← shift_dirs (rotate_shift hr).1]; exact (openFile_opened ho).1.1
  · have h1 := (openFile_opened ho).1.1
    rw [shift_dirs (rotate_shift hr).1] at h1
    have := hheader { l with good := true } (fileSize p true fs₂) fs₂ fs'
    exact ⟨fun l' w h => h1.trans (this.1 l' w h), fun h => h1.trans (this.2.1 h),
      fun h => h1.trans (this.2.2 h)⟩

theorem writeLoop_dirs {σ : Settings} {p : Path} {name : Nat} :
    ∀ {todo : List Entry} {l : Locals} {ios : List Io} {fs fs' : Fs} {ps : List (Nat × Entry × Bool)},
      writeLoop σ p name l todo ios fs = some (fs', ps) → fs.dirs ⊆ fs'.dirs := by
  intro todo
  induction todo with
  | nil => intro l ios fs fs' ps h; cases h; exact fun _ h => h
  | cons e todo ih =>
    intro l ios fs fs' ps h
    unfold writeLoop at h
    have hd := turn_dirs σ (ios.headD {}) p l name e fs
    rcases hw : turn σ (ios.headD {}) p l name e fs with ⟨fs₁, l', whole⟩ | fs₁ | fs₁ | _
    · rw [hw] at h hd
      simp only at h
      rcases hr : writeLoop σ p name l' todo ios.tail fs₁ with _ | ⟨fs₂, ps'⟩
      · rw [hr] at h; cases h
      · rw [hr] at h
        cases h
        exact List.Subset.trans ((hd fs₁).1 _ _ rfl) (ih hr)
    · rw [hw] at h hd; cases h; exact (hd _).2.1 rfl
    · rw [hw] at h hd; cases h; exact (hd _).2.2 rfl
    · rw [hw] at h; cases h

theorem pathsOk_frame {paths : Nat → Path} {s s' : State} (h : PathsOk paths s)
    (hf : s'.files = s.files) (hd : s.fs.dirs ⊆ s'.fs.dirs)
    (hw : ∀ name p l todo done, s'.thread = .writing name p l todo done → p = paths name) :
    PathsOk paths s' :=
  ⟨by rw [hf]; exact h.known, by rw [hf]; exact fun n f h1 h2 => hd (h.dirs n f h1 h2), hw⟩

/-- The log file a producer finds or makes. -/
theorem pathsOk_update {paths : Nat → Path} {s s' : State} {name : Nat} {g : LogFile → LogFile}
    (h : PathsOk paths s) (hf : s'.files = update s.files name g) (hd : s.fs.dirs ⊆ s'.fs.dirs)
    (hg : ∀ f, find s.files name = some f → Known (paths name) (g f) ∧
      ((g f).dirsCreated = true → (paths name).dir ∈ s'.fs.dirs))
    (hw : ∀ name p l todo done, s'.thread = .writing name p l todo done → p = paths name) :
    PathsOk paths s' := by
  refine ⟨?_, ?_, hw⟩
  · intro n f hn
    rw [hf, find_update] at hn
    split at hn
    · rename_i he
      subst he
      obtain ⟨f₀, h0, rfl⟩ := Option.map_eq_some_iff.1 hn
      exact (hg f₀ h0).1
    · exact h.known n f hn
  · intro n f hn hc
    rw [hf, find_update] at hn
    split at hn
    · rename_i he
      subst he
      obtain ⟨f₀, h0, rfl⟩ := Option.map_eq_some_iff.1 hn
      exact (hg f₀ h0).2 hc
    · exact hd (h.dirs n f hn hc)

theorem wake_writing {p : Phase} {name : Nat} {q : Path} {l : Locals} {todo : List Entry} {done : Nat} :
    wake p = .writing name q l todo done ↔ p = .writing name q l todo done := by
  cases p <;> simp [wake]

theorem pathsOk_step {paths : Nat → Path} {s s' : State} {ev : Event} (hb : Base s) (h : PathsOk paths s)
    (hs : step paths s ev = some s') : PathsOk paths s' := by
  obtain ⟨-, hs⟩ := step_cases hs
  have hid : s.fs.dirs ⊆ s.fs.dirs := fun _ h => h
  cases hs with
  | enter i r hi ho =>
    have hemp : ∀ n f, find (if (find s.files r.name).isNone then emplace r.name {} s.files else s.files) n = some f →
        Known (paths n) f ∧ (f.dirsCreated = true → (paths n).dir ∈ s.fs.dirs) := by
      intro n f hn
      rw [addLog_files] at hn
      split at hn
      · rename_i he
        subst he
        cases hn
        cases hx : find s.files r.name with
        | none => exact ⟨.inl rfl, by simp⟩
        | some f => exact ⟨h.known _ f hx, h.dirs _ f hx⟩
      · exact ⟨h.known n f hn, h.dirs n f hn⟩
    rcases addLog_cases s r with ⟨heq, -⟩ | ⟨heq, -⟩
    · rw [heq]
      refine ⟨?_, ?_, h.writing⟩
      · intro n f hn
        simp only at hn
        rw [find_update] at hn
        split at hn
        · obtain ⟨f₀, h0, rfl⟩ := Option.map_eq_some_iff.1 hn
          exact (hemp n f₀ h0).1
        · exact (hemp n f hn).1
      · intro n f hn hc
        simp only at hn
        rw [find_update] at hn
        split at hn
        · obtain ⟨f₀, h0, rfl⟩ := Option.map_eq_some_iff.1 hn
          exact (hemp n f₀ h0).2 hc
        · exact (hemp n f hn).2 hc
    · rw [heq]
      exact ⟨fun n f hn => (hemp n f hn).1, fun n f hn => (hemp n f hn).2, h.writing⟩
  | notify i hi =>
    refine pathsOk_frame h rfl hid ?_
    intro name p l todo done ht
    exact h.writing _ _ _ _ _ (wake_writing.1 ht)
  | setNotify hs =>
    refine pathsOk_frame h rfl hid ?_
    intro name p l todo done ht
    exact h.writing _ _ _ _ _ (wake_writing.1 ht)
  | stopNotify hs =>
    refine pathsOk_frame h rfl hid ?_
    intro name p l todo done ht
    exact h.writing _ _ _ _ _ (wake_writing.1 ht)
  | openOk io name todo f fs l ht hp =>
    have hsome : (find s.files name).isSome := by have := hb.range; rw [ht] at this; exact this.1
    obtain ⟨f₀, hf₀⟩ := Option.isSome_iff_exists.1 hsome
    rw [hf₀] at hp
    obtain ⟨h1, h2, h3, h4⟩ := prepare_cases (h.known name f₀ hf₀) hp
    refine pathsOk_update (name := name) h (by dsimp only) h2.1 ?_ ?_
    · intro f' hf'
      rw [hf₀] at hf'
      cases hf'
      refine ⟨h1, ?_⟩
      intro hc
      rcases h3 hc with h5 | h5
      · exact h2.1 (h.dirs name f₀ hf₀ h5)
      · exact h5
    · intro name' p l' todo' done heq
      cases heq
      rw [(h4 l rfl).1]
      rfl
  | openFail io name todo f fs ht hp =>
    have hsome : (find s.files name).isSome := by have := hb.range; rw [ht] at this; exact this.1
    obtain ⟨f₀, hf₀⟩ := Option.isSome_iff_exists.1 hsome
    rw [hf₀] at hp
    obtain ⟨h1, h2, h3, h4⟩ := prepare_cases (h.known name f₀ hf₀) hp
    refine pathsOk_update (name := name) h (by dsimp only) h2.1 ?_ (by simp)
    intro f' hf'
    rw [hf₀] at hf'
    cases hf'
    refine ⟨h1, ?_⟩
    intro hc
    rcases h3 hc with h5 | h5
    · exact h2.1 (h.dirs name f₀ hf₀ h5)
    · exact h5
  | writeNext io name p l e todo done fs l' whole ht hw =>
    refine pathsOk_frame h rfl ((turn_dirs _ _ _ _ _ _ _ fs).1 _ _ hw) ?_
    intro name' p' l'' todo' done' heq
    cases heq
    exact h.writing _ _ _ _ _ ht
  | writeBefore io name p l e todo done fs ht hw =>
    exact pathsOk_frame h rfl ((turn_dirs _ _ _ _ _ _ _ fs).2.1 hw) (by simp)
  | writeAfter io name p l e todo done fs ht hw =>
    exact pathsOk_frame h rfl ((turn_dirs _ _ _ _ _ _ _ fs).2.2 hw) (by simp)
  | erase io name done ht ho =>
    refine pathsOk_update (name := name) h (by dsimp only) hid ?_ (by simp)
    intro f hf
    exact ⟨h.known name f hf, h.dirs name f hf⟩
  | flush io ios last name f hs hn =>
    have hf := (next_some hb.sorted hn).1
    unfold flushFile
    split
    · rcases hp : prepare s.settings io (paths name) f s.fs with ⟨f', fs, l⟩
      obtain ⟨h1, h2, h3, h4⟩ := prepare_cases (h.known name f hf) hp
      have hdc : f'.dirsCreated = true → (paths name).dir ∈ fs.dirs := by
        intro hc
        rcases h3 hc with h5 | h5
        · exact h2.1 (h.dirs name f hf h5)
        · exact h5
      cases l with
      | none =>
        simp only
        exact pathsOk_update (name := name) h (by dsimp only) h2.1 (fun _ _ => ⟨h1, hdc⟩) h.writing
      | some l =>
        simp only
        rcases hw : writeLoop s.settings (f'.filePath.getD (paths name)) name l f'.buffer.reverse ios fs
          with _ | ⟨fs₂, ps⟩
        · exact pathsOk_frame h rfl hid h.writing
        · have hd := writeLoop_dirs hw
          simp only
          exact pathsOk_update (name := name) (g := fun _ => { f' with
              buffer := f'.buffer.take (f'.buffer.length - ps.length) }) h rfl (h2.1.trans hd)
            (fun _ _ => ⟨h1, fun hc => hd (hdc hc)⟩) h.writing
    · exact pathsOk_frame h rfl hid h.writing
  | starting | checkWait | checkScan | checkExit | drowse | woken | scanEnd | scanFull | scanSkip | writeDone | spurious =>
    exact pathsOk_frame h rfl hid (by simp)
  | _ => exact pathsOk_frame h rfl hid h.writing

theorem pathsOk {paths : Nat → Path} {σ : Settings} {fs : Fs} {s : State} (h : Reachable paths σ fs s) :
    PathsOk paths s := by
  induction h with
  | init => exact ⟨by simp [init, find], by simp [init, find], by simp [init]⟩
  | step ev hr hs ih => exact pathsOk_step (base hr) ih hs

/-- Invariants of what is on disk: `I` is kept by opening files and by iterations of the
loop, and `J` holds for the local variables of the loop. -/
theorem disk_invariant {paths : Nat → Path} {okσ : Settings → Prop} {okIo : Io → Prop}
    {I : Fs → List (Nat × Entry × Bool) → Prop} {J : Locals → Prop} (h0 : okIo {})
    (hprep : ∀ σ n fs fs' ps, okσ σ → Opened (paths n) fs fs' → I fs ps → I fs' ps)
    (hloc : ∀ σ, okσ σ → J ⟨σ.writeHeader, σ.fileRotationSize, true⟩)
    (hturn : ∀ σ n io l e fs ps, okσ σ → okIo io → J l → I fs ps →
      After I J n e ps (turn σ io (paths n) l n e fs))
    {fs : Fs} {s : State} (hinit : I fs []) (h : Reaches paths okσ okIo fs s) :
    I s.fs s.passed ∧ ∀ name p l todo done, s.thread = .writing name p l todo done → J l := by
  obtain ⟨σ, hσ, h⟩ := h
  induction h with
  | init => exact ⟨hinit, by simp [init]⟩
  | @step s s' ev hr hok hs ih =>
    have hset := within_settings (okσ := okσ) hσ hr
    have hb := base (reachable_of_by hr)
    have hp' := pathsOk (reachable_of_by hr)
    obtain ⟨hI, hJ⟩ := ih
    obtain ⟨-, hs⟩ := step_cases hs
    cases hs with
    | enter i r hi ho =>
      rcases addLog_cases s r with ⟨heq, -⟩ | ⟨heq, -⟩ <;> rw [heq] <;> exact ⟨hI, hJ⟩
    | notify i hi => exact ⟨hI, fun name p l todo done ht => hJ _ _ _ _ _ (wake_writing.1 ht)⟩
    | setNotify hs => exact ⟨hI, fun name p l todo done ht => hJ _ _ _ _ _ (wake_writing.1 ht)⟩
    | stopNotify hs => exact ⟨hI, fun name p l todo done ht => hJ _ _ _ _ _ (wake_writing.1 ht)⟩
    | openOk io name todo f fs l ht hp =>
      have hsome : (find s.files name).isSome := by have := hb.range; rw [ht] at this; exact this.1
      obtain ⟨f₀, hf₀⟩ := Option.isSome_iff_exists.1 hsome
      rw [hf₀] at hp
      obtain ⟨h1, h2, h3, h4⟩ := prepare_cases (hp'.known name f₀ hf₀) hp
      refine ⟨hprep _ _ _ _ _ hset h2 hI, ?_⟩
      intro name' p l' todo' done heq
      cases heq
      rw [(h4 l rfl).2.1]
      exact hloc _ hset
    | openFail io name todo f fs ht hp =>
      have hsome : (find s.files name).isSome := by have := hb.range; rw [ht] at this; exact this.1
      obtain ⟨f₀, hf₀⟩ := Option.isSome_iff_exists.1 hsome
      rw [hf₀] at hp
      obtain ⟨h1, h2, h3, h4⟩ := prepare_cases (hp'.known name f₀ hf₀) hp
      exact ⟨hprep _ _ _ _ _ hset h2 hI, by simp⟩
    | writeNext io name p l e todo done fs l' whole ht hw =>
      have := hturn _ name io l e _ _ hset hok (hJ _ _ _ _ _ ht) hI
      rw [← hp'.writing _ _ _ _ _ ht, hw] at this
      refine ⟨this.1, ?_⟩
      intro name' p l' todo' done heq
      cases heq
      exact this.2
    | writeBefore io name p l e todo done fs ht hw =>
      have := hturn _ name io l e _ _ hset hok (hJ _ _ _ _ _ ht) hI
      rw [← hp'.writing _ _ _ _ _ ht, hw] at this
      exact ⟨this, by simp⟩
    | writeAfter io name p l e todo done fs ht hw =>
      have := hturn _ name io l e _ _ hset hok (hJ _ _ _ _ _ ht) hI
      rw [← hp'.writing _ _ _ _ _ ht, hw] at this
      exact ⟨this, by simp⟩
    | flush io ios last name f hs hn =>
      have hf := (next_some hb.sorted hn).1
      unfold flushFile
      split
      · rcases hp : prepare s.settings io (paths name) f s.fs with ⟨f', fs, l⟩
        obtain ⟨h1, h2, h3, h4⟩ := prepare_cases (hp'.known name f hf) hp
        have hI' := hprep _ _ _ _ _ hset h2 hI
        cases l with
        | none => exact ⟨hI', hJ⟩
        | some l =>
          simp only
          rcases hw : writeLoop s.settings (f'.filePath.getD (paths name)) name l f'.buffer.reverse ios fs
            with _ | ⟨fs₂, ps⟩
          · exact ⟨hI, hJ⟩
          · simp only
            refine ⟨?_, hJ⟩
            rw [(h4 l rfl).1] at hw
            refine writeLoop_invariant h0 (fun io l e fs ps h1 h2 h3 => hturn _ name io l e fs ps hset h1 h2 h3)
              hok.2 ?_ hI' hw
            rw [(h4 l rfl).2.1]
            exact hloc _ hset
      · exact ⟨hI, hJ⟩
    | starting | checkWait | checkScan | checkExit | drowse | woken | scanEnd | scanFull | scanSkip | writeDone | spurious | erase =>
      exact ⟨hI, by simp⟩
    | _ => exact ⟨hI, hJ⟩

end Pluto.Log
