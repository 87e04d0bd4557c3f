import Verif.Model.LogDir
import Verif.Proofs.LogEnd

/-! # A changing working directory makes no difference (C133) -/

namespace Pluto.Log
open Pluto.Spec.Log

/-- The path of a log file, if it is known. -/
def pathOf (s : State) (n : Nat) : Option Path := (find s.files n).bind (·.filePath)

/-- What `prepare` does to the path. -/
theorem prepare_path {σ : Settings} {io : Io} {p : Path} {f f' : LogFile} {fs fs' : Fs} {l : Option Locals}
    (h : prepare σ io p f fs = (f', fs', l)) :
    f'.buffer = f.buffer ∧ (f'.filePath = none → f.filePath = none ∧ l = none ∧ ∀ p', prepare σ io p' f fs = (f', fs', l)) ∧
      ∀ q, f'.filePath = some q → q = f.filePath.getD p := by
  unfold prepare at h
  split at h
  · rename_i hc
    cases h
    refine ⟨rfl, fun _ => ⟨by simpa using hc.1, rfl, fun p' => ?_⟩, fun q hq => by rw [hq]; rfl⟩
    unfold prepare
    rw [if_pos hc]
  · dsimp only at h
    have key : f'.buffer = f.buffer ∧ f'.filePath = some (f.filePath.getD p) := by
      split at h
      · cases h; exact ⟨rfl, rfl⟩
      · split at h <;> split at h <;> cases h <;> exact ⟨rfl, rfl⟩
    exact ⟨key.1, fun h0 => (by rw [key.2] at h0; cases h0), fun q hq => (by rw [key.2] at hq; cases hq; rfl)⟩

/-- `prepare` looks only at the path that is known, or else at what the name stands for. -/
theorem prepare_congr (σ : Settings) (io : Io) {p p' : Path} (f : LogFile) (fs : Fs)
    (h : f.filePath = none → p' = p) : prepare σ io p' f fs = prepare σ io p f fs := by
  unfold prepare
  cases hf : f.filePath with
  | none => rw [h hf]
  | some q => rfl

theorem pathOf_find {s : State} {n : Nat} {f : LogFile} (h : find s.files n = some f) : pathOf s n = f.filePath := by
  rw [pathOf, h]; rfl

theorem pathOf_update {s s' : State} {name : Nat} {g : LogFile → LogFile} (h : s'.files = update s.files name g) (n : Nat) :
    pathOf s' n = if n = name then (find s.files n).bind (fun f => (g f).filePath) else pathOf s n := by
  rw [pathOf, h, find_update]
  split
  · cases find s.files n <;> rfl
  · rfl

/-- Only steps that prepare a file look at what names stand for. -/
theorem step_indep (paths paths' : Nat → Path) (s : State) (ev : Event) (h1 : ∀ name todo, s.thread ≠ .opening name todo)
    (h2 : ∀ io ios, ev ≠ .flush io ios) : step paths' s ev = step paths s ev := by
  unfold step
  split
  · rfl
  · cases ev with
    | thread io =>
      dsimp only
      unfold threadStep
      split
      all_goals first | rfl | skip
      rename_i name todo ht
      exact absurd ht (h1 name todo)
    | flush io ios => exact absurd rfl (h2 io ios)
    | _ => rfl

theorem step_indep' (paths paths' : Nat → Path) (s : State) (ev : Event) (h1 : ∀ io, ev ≠ .thread io)
    (h2 : ∀ io ios, ev ≠ .flush io ios) : step paths' s ev = step paths s ev := by
  unfold step
  split
  · rfl
  · cases ev with
    | thread io => exact absurd rfl (h1 io)
    | flush io ios => exact absurd rfl (h2 io ios)
    | _ => rfl

/-- What a step does to the known paths, and what it needs to know about what names stand for. -/
theorem step_paths {paths : Nat → Path} {s s' : State} {ev : Event} (hb : Base s) (hs : step paths s ev = some s') :
    (∀ n p, pathOf s n = some p → pathOf s' n = some p) ∧
    (∀ n p, pathOf s' n = some p → pathOf s n = some p ∨ p = paths n) ∧
    ∀ paths' : Nat → Path, (∀ n, pathOf s n = none → (pathOf s' n).isSome = true ∨ s'.crashed = true → paths' n = paths n) →
      step paths' s ev = some s' := by
  have hs0 := hs
  obtain ⟨hcr, hS⟩ := step_cases hs
  have eqs : (∀ n, pathOf s' n = pathOf s n) → (∀ n p, pathOf s n = some p → pathOf s' n = some p) ∧
      (∀ n p, pathOf s' n = some p → pathOf s n = some p ∨ p = paths n) :=
    fun this => ⟨fun n p hp => by rw [this, hp], fun n p hp => .inl (by rw [← this, hp])⟩
  have frame : s'.files = s.files → ∀ n, pathOf s' n = pathOf s n := fun h n => by rw [pathOf, h, pathOf]
  have fin : (∀ n, pathOf s' n = pathOf s n) → (∀ paths', step paths' s ev = step paths s ev) → 
      (∀ n p, pathOf s n = some p → pathOf s' n = some p) ∧
      (∀ n p, pathOf s' n = some p → pathOf s n = some p ∨ p = paths n) ∧
      ∀ paths' : Nat → Path, (∀ n, pathOf s n = none → (pathOf s' n).isSome = true ∨ s'.crashed = true → paths' n = paths n) →
        step paths' s ev = some s' :=
    fun h1 h2 => ⟨(eqs h1).1, (eqs h1).2, fun paths' _ => by rw [h2, hs0]⟩
  have opening : ∀ (io : Io) (name : Nat) (todo : List Entry) (f : LogFile) (fs : Fs) (l : Option Locals),
      ev = .thread io → s.thread = .opening name todo →
      prepare s.settings io (paths name) ((find s.files name).getD {}) s.fs = (f, fs, l) →
      s'.files = update s.files name (fun g => { g with filePath := f.filePath, dirsCreated := f.dirsCreated }) →
      (∀ n p, pathOf s n = some p → pathOf s' n = some p) ∧
      (∀ n p, pathOf s' n = some p → pathOf s n = some p ∨ p = paths n) ∧
      ∀ paths' : Nat → Path, (∀ n, pathOf s n = none → (pathOf s' n).isSome = true ∨ s'.crashed = true → paths' n = paths n) →
        step paths' s ev = some s' := by
    intro io name todo f fs l hev ht hp hfiles
    have hsome : (find s.files name).isSome := by have := hb.range; rw [ht] at this; exact this.1
    obtain ⟨f₀, hf₀⟩ := Option.isSome_iff_exists.1 hsome
    rw [hf₀, Option.getD_some] at hp
    obtain ⟨-, h2, h3⟩ := prepare_path hp
    have hname : pathOf s' name = f.filePath := by
      rw [pathOf_update hfiles, if_pos rfl, hf₀]; rfl
    have hold : pathOf s name = f₀.filePath := pathOf_find hf₀
    have hother : ∀ n, n ≠ name → pathOf s' n = pathOf s n := fun n hn => by rw [pathOf_update hfiles, if_neg hn]
    refine ⟨fun n p hn => ?_, fun n p hn => ?_, fun paths' hpaths => ?_⟩
    · by_cases he : n = name
      · subst he
        rw [hname]
        rw [hold] at hn
        cases hf : f.filePath with
        | none => rw [(h2 hf).1] at hn; cases hn
        | some q => rw [h3 q hf, hn]; rfl
      · rw [hother n he, hn]
    · by_cases he : n = name
      · subst he
        rw [hname] at hn
        have := h3 p hn
        cases hf₁ : f₀.filePath with
        | none => rw [hf₁] at this; exact .inr this
        | some q => rw [hf₁] at this; exact .inl (by rw [hold, hf₁, this]; rfl)
      · exact .inl (by rw [← hother n he, hn])
    · rw [← hs0, hev]
      have hpr : prepare s.settings io (paths' name) f₀ s.fs = prepare s.settings io (paths name) f₀ s.fs := by
        cases hf : f.filePath with
        | none => rw [(h2 hf).2.2, hp]
        | some q =>
          refine prepare_congr _ _ _ _ fun h0 => hpaths name (by rw [hold, h0]) (.inl ?_)
          rw [hname, hf]; rfl
      unfold step
      rw [hcr]
      simp only [Bool.false_eq_true, if_false, threadStep, ht, hf₀, Option.getD_some, hpr, hp]
      cases l with
      | none => rfl
      | some l =>
        cases hf : f.filePath with
        | none => exact absurd (h2 hf).2.1 (by simp)
        | some q => rfl
  cases hS with
  | enter i r hi ho =>
    refine fin (fun n => ?_) (fun paths' => step_indep' _ _ _ _ (by simp) (by simp))
    have hemp : ∀ n, (find (if (find s.files r.name).isNone then emplace r.name {} s.files else s.files) n).bind (·.filePath) =
        pathOf s n := by
      intro n
      rw [addLog_files]
      split
      · rename_i he
        subst he
        rw [pathOf]
        cases find s.files r.name <;> rfl
      · rfl
    rcases addLog_cases s r with ⟨heq, -⟩ | ⟨heq, -⟩
    · rw [heq]
      simp only [pathOf, find_update]
      split
      · rw [← pathOf, ← hemp]
        generalize find _ n = o
        cases o <;> rfl
      · exact hemp n
    · rw [heq]
      exact hemp n
  | openOk io name todo f fs l ht hp => exact opening io name todo f fs _ rfl ht hp rfl
  | openFail io name todo f fs ht hp => exact opening io name todo f fs _ rfl ht hp rfl
  | erase io name done ht ho =>
    refine fin (fun n => ?_) (fun paths' => step_indep _ _ _ _ (by simp [ht]) (by simp))
    rw [pathOf_update (s := s) (name := name)
      (g := fun f => { f with buffer := f.buffer.take (f.buffer.length - done) }) rfl]
    split
    · rw [pathOf]
    · rfl
  | flush io ios last name f hst hn =>
    have hf := (next_some hb.sorted hn).1
    have hstep : ∀ paths', step paths' s (.flush io ios) = some (flushFile paths' s io ios name f) := by
      intro paths'
      unfold step
      rw [hcr]
      simp only [Bool.false_eq_true, if_false, hst, hn]
    by_cases hbuf : f.buffer = []
    · refine fin (fun n => ?_) (fun paths' => ?_)
      · rw [flushFile, if_neg (by simp [hbuf])]; rfl
      · rw [hstep, hstep, flushFile, flushFile, if_neg (by simp [hbuf]), if_neg (by simp [hbuf])]
    · rcases hp : prepare s.settings io (paths name) f s.fs with ⟨f', fs', l⟩
      obtain ⟨h1, h2, h3⟩ := prepare_path hp
      have hold : pathOf s name = f.filePath := pathOf_find hf
      have done : ∀ g : LogFile → LogFile, (∀ x, (g x).filePath = f'.filePath) →
          (flushFile paths s io ios name f).files = update s.files name g →
          (∀ n p, pathOf s n = some p → pathOf (flushFile paths s io ios name f) n = some p) ∧
          (∀ n p, pathOf (flushFile paths s io ios name f) n = some p → pathOf s n = some p ∨ p = paths n) ∧
          (pathOf (flushFile paths s io ios name f) name = f'.filePath) := by
        intro g hg hfiles
        have hname : pathOf (flushFile paths s io ios name f) name = f'.filePath := by
          rw [pathOf_update hfiles, if_pos rfl, hf]; exact hg f
        have hother : ∀ n, n ≠ name → pathOf (flushFile paths s io ios name f) n = pathOf s n :=
          fun n hn => by rw [pathOf_update hfiles, if_neg hn]
        refine ⟨fun n p hk => ?_, fun n p hk => ?_, hname⟩
        · by_cases he : n = name
          · subst he
            rw [hname]
            rw [hold] at hk
            cases hf' : f'.filePath with
            | none => rw [(h2 hf').1] at hk; cases hk
            | some q => rw [h3 q hf', hk]; rfl
          · rw [hother n he, hk]
        · by_cases he : n = name
          · subst he
            rw [hname] at hk
            have := h3 p hk
            cases hf₁ : f.filePath with
            | none => rw [hf₁] at this; exact .inr this
            | some q => rw [hf₁] at this; exact .inl (by rw [hold, hf₁, this]; rfl)
          · exact .inl (by rw [← hother n he, hk])
      have same : ∀ paths' : Nat → Path, prepare s.settings io (paths' name) f s.fs = (f', fs', l) →
          step paths' s (.flush io ios) = some (flushFile paths s io ios name f) := by
        intro paths' hp'
        rw [hstep]
        unfold flushFile
        rw [hp, hp']
        cases l with
        | none => rfl
        | some l =>
          cases hf' : f'.filePath with
          | none => exact absurd (h2 hf').2.1 (by simp)
          | some q => simp only [hf', Option.getD_some]
      cases l with
      | none =>
        have heq : (flushFile paths s io ios name f).files = update s.files name fun _ => f' := by
          rw [flushFile, if_pos hbuf, hp]
        obtain ⟨d1, d2, d3⟩ := done _ (fun _ => rfl) heq
        refine ⟨d1, d2, fun paths' hpaths => same paths' ?_⟩
        cases hf' : f'.filePath with
        | none => exact (h2 hf').2.2 _
        | some q =>
          rw [← hp]
          exact prepare_congr _ _ _ _ fun h0 => hpaths name (by rw [hold, h0]) (.inl (by rw [d3, hf']; rfl))
      | some l =>
        rcases hw : writeLoop s.settings (f'.filePath.getD (paths name)) name l f'.buffer.reverse ios fs'
          with _ | ⟨fs₂, ps⟩
        · have heq : flushFile paths s io ios name f = { s with crashed := true } := by
            rw [flushFile, if_pos hbuf, hp]
            simp only [hw]
          have hsame : ∀ n, pathOf (flushFile paths s io ios name f) n = pathOf s n := fun n => by rw [heq]; rfl
          refine ⟨(eqs hsame).1, (eqs hsame).2, fun paths' hpaths => same paths' ?_⟩
          rw [← hp]
          exact prepare_congr _ _ _ _ fun h0 => hpaths name (by rw [hold, h0]) (.inr (by rw [heq]))
        · have heq : (flushFile paths s io ios name f).files = update s.files name fun _ =>
              { f' with buffer := f'.buffer.take (f'.buffer.length - ps.length) } := by
            rw [flushFile, if_pos hbuf, hp]
            simp only [hw]
          obtain ⟨d1, d2, d3⟩ := done (fun _ => { f' with buffer := f'.buffer.take (f'.buffer.length - ps.length) }) (fun _ => rfl) heq
          refine ⟨d1, d2, fun paths' hpaths => same paths' ?_⟩
          cases hf' : f'.filePath with
          | none => exact (h2 hf').2.2 _
          | some q =>
            rw [← hp]
            exact prepare_congr _ _ _ _ fun h0 => hpaths name (by rw [hold, h0]) (.inl (by rw [d3, hf']; rfl))
  | starting | checkWait | checkScan | checkExit | drowse | woken | scanEnd | scanFull | scanSkip | writeDone | writeNext | writeBefore | writeAfter | writeCrash =>
    exact fin (frame rfl) (fun paths' => step_indep _ _ _ _ (by simp [*]) (by simp))
  | _ => exact fin (frame rfl) (fun paths' => step_indep' _ _ _ _ (by simp) (by simp))

/-- Steps do not change which paths are known, and need only those that are known afterwards. -/
theorem runIn_paths :
    ∀ {evs : List ((Nat → Path) × Event)} {s s' : State}, Base s → runIn s evs = some s' →
      Base s' ∧ (∀ n p, pathOf s n = some p → pathOf s' n = some p) ∧
      (∀ n p, pathOf s' n = some p → pathOf s n = some p ∨ ∃ x ∈ evs, p = x.1 n) ∧
      ∃ chosen : Nat → Option Path, (∀ n p, pathOf s' n = some p → chosen n = some p) ∧
        (∀ n p, chosen n = some p → pathOf s n = some p ∨ ∃ x ∈ evs, p = x.1 n) ∧
        ∀ paths' : Nat → Path, (∀ n p, chosen n = some p → paths' n = p) →
          run paths' s (evs.map (·.2)) = some s' := by
  intro evs
  induction evs with
  | nil =>
    intro s s' hb h
    cases h
    exact ⟨hb, fun n p h => h, fun n p h => .inl h, pathOf s, fun n p h => h, fun n p h => .inl h, fun _ _ => rfl⟩
  | cons x evs ih =>
    intro s s' hb h
    obtain ⟨paths, ev⟩ := x
    simp only [runIn] at h
    cases hs : step paths s ev with
    | none => rw [hs] at h; cases h
    | some s₁ =>
      rw [hs] at h
      obtain ⟨m1, m2, m3⟩ := step_paths hb hs
      have hb₁ := base_step hb hs
      obtain ⟨hb', i1, i2, chosen, i3, i4, i5⟩ := ih hb₁ h
      refine ⟨hb', fun n p hn => i1 n p (m1 n p hn), fun n p hn => ?_, ?_⟩
      · rcases i2 n p hn with h1 | ⟨x, hx, h1⟩
        · rcases m2 n p h1 with h2 | h2
          · exact .inl h2
          · exact .inr ⟨_, List.mem_cons_self, h2⟩
        · exact .inr ⟨x, List.mem_cons_of_mem _ hx, h1⟩
      · by_cases hc : s₁.crashed = true
        · have hev : evs = [] ∧ s₁ = s' := by
            cases evs with
            | nil => cases h; exact ⟨rfl, rfl⟩
            | cons y ys =>
              obtain ⟨q, ev'⟩ := y
              simp [runIn, step, hc] at h
          obtain ⟨rfl, rfl⟩ := hev
          refine ⟨fun n => some ((pathOf s n).getD (paths n)), fun n p hn => ?_, fun n p hn => ?_, fun paths' hp => ?_⟩
          · show some ((pathOf s n).getD (paths n)) = some p
            rcases m2 n p hn with h2 | h2
            · rw [h2]; rfl
            · cases hn' : pathOf s n with
              | none => rw [h2]; rfl
              | some q =>
                rw [m1 n q hn'] at hn
                rw [← hn]; rfl
          · injection hn with hn
            cases hn' : pathOf s n with
            | none => rw [hn'] at hn; exact .inr ⟨_, List.mem_cons_self, hn.symm⟩
            | some q => rw [hn'] at hn; exact .inl (by rw [← hn]; rfl)
          · have := m3 paths' fun n hn _ => by rw [hp n _ rfl, hn]; rfl
            simp only [List.map_cons, List.map_nil, run, this]
        · refine ⟨chosen, i3, fun n p hn => ?_, fun paths' hp => ?_⟩
          · rcases i4 n p hn with h1 | ⟨x, hx, h1⟩
            · rcases m2 n p h1 with h2 | h2
              · exact .inl h2
              · exact .inr ⟨_, List.mem_cons_self, h2⟩
            · exact .inr ⟨x, List.mem_cons_of_mem _ hx, h1⟩
          · have := m3 paths' fun n hn h1 => by
              rcases h1 with h1 | h1
              · obtain ⟨q, hq⟩ := Option.isSome_iff_exists.1 h1
                rw [hp n q (i3 n q (i1 n q hq))]
                rcases m2 n q hq with h2 | h2
                · rw [hn] at h2; cases h2
                · exact h2
              · exact absurd h1 hc
            simp only [List.map_cons, run, this]
            exact i5 paths' hp

/-- A successful `prepare` has found the path, and has created the directories if it should. -/
theorem prepare_done {σ : Settings} {io : Io} {p : Path} {f f' : LogFile} {fs fs' : Fs} {l : Locals}
    (h : prepare σ io p f fs = (f', fs', some l)) :
    f'.filePath.isSome = true ∧ (σ.createDirs = true → f'.dirsCreated = true) := by
  unfold prepare at h
  split at h
  · cases h
  · dsimp only at h
    split at h
    · cases h
    · by_cases hc : σ.createDirs = true ∧ f.dirsCreated = false
      · rw [if_pos hc] at h
        dsimp only at h
        split at h <;> cases h
        exact ⟨rfl, fun _ => rfl⟩
      · rw [if_neg hc] at h
        dsimp only at h
        split at h <;> cases h
        exact ⟨rfl, fun h1 => by simpa [h1] using hc⟩

/-- `prepare` does not take anything back. -/
theorem prepare_keeps {σ : Settings} {io : Io} {p : Path} {f f' : LogFile} {fs fs' : Fs} {l : Option Locals}
    (h : prepare σ io p f fs = (f', fs', l)) :
    (f.filePath.isSome = true → f'.filePath.isSome = true) ∧ (f.dirsCreated = true → f'.dirsCreated = true) := by
  unfold prepare at h
  split at h
  · cases h; exact ⟨id, id⟩
  · dsimp only at h
    split at h
    · cases h; exact ⟨fun _ => rfl, id⟩
    · split at h <;> split at h <;> cases h
      all_goals first | exact ⟨fun _ => rfl, fun _ => rfl⟩ | exact ⟨fun _ => rfl, id⟩

/-- A log file has been opened: its path is known, and its directories have been created if `on`. -/
def Prepared (on : Bool) (f : LogFile) : Prop := f.filePath.isSome = true ∧ (on = true → f.dirsCreated = true)

/-- Log files that have been written to, or are being written to, have been opened. -/
structure Opened' (on : Bool) (s : State) : Prop where
  passed : ∀ x ∈ s.passed, ∃ f, find s.files x.1 = some f ∧ Prepared on f
  writing : ∀ name p l todo done, s.thread = .writing name p l todo done → ∃ f, find s.files name = some f ∧ Prepared on f

theorem opened'_step {paths : Nat → Path} {on : Bool} {s s' : State} {ev : Event} (hb : Base s) (h : Opened' on s)
    (hon : on = true → s.settings.createDirs = true) (hs : step paths s ev = some s') : Opened' on s' := by
  obtain ⟨-, hS⟩ := step_cases hs
  have frame : ∀ s' : State, s'.files = s.files → s'.passed = s.passed →
      (∀ name p l todo done, s'.thread = .writing name p l todo done → s.thread = .writing name p l todo done) →
      Opened' on s' := by
    intro s' h1 h2 h3
    exact ⟨by rw [h1, h2]; exact h.passed, fun n p l t d ht => by rw [h1]; exact h.writing _ _ _ _ _ (h3 n p l t d ht)⟩
  have upd : ∀ (name : Nat) (g : LogFile → LogFile),
      (∀ f, find s.files name = some f → Prepared on f → Prepared on (g f)) →
      ∀ n, (∃ f, find s.files n = some f ∧ Prepared on f) → ∃ f, find (update s.files name g) n = some f ∧ Prepared on f := by
    intro name g hg n ⟨f, hf, hr⟩
    rw [find_update]
    by_cases he : n = name
    · subst he
      exact ⟨g f, by rw [if_pos rfl, hf]; rfl, hg f hf hr⟩
    · exact ⟨f, by rw [if_neg he, hf], hr⟩
  cases hS with
  | enter i r hi ho =>
    have hemp : ∀ n, (∃ f, find s.files n = some f ∧ Prepared on f) →
        ∃ f, find (if (find s.files r.name).isNone then emplace r.name {} s.files else s.files) n = some f ∧ Prepared on f := by
      intro n ⟨f, hf, hr⟩
      rw [addLog_files]
      by_cases he : n = r.name
      · subst he
        exact ⟨f, by rw [if_pos rfl, hf]; rfl, hr⟩
      · exact ⟨f, by rw [if_neg he, hf], hr⟩
    have hall : ∀ n, (∃ f, find s.files n = some f ∧ Prepared on f) → ∃ f, find (addLog s r).files n = some f ∧ Prepared on f := by
      intro n hn
      rcases addLog_cases s r with ⟨heq, -⟩ | ⟨heq, -⟩
      · rw [heq]
        obtain ⟨f, hf, hr⟩ := hemp n hn
        simp only [find_update, hf]
        by_cases he : n = r.name
        · exact ⟨{ f with buffer := r.entry :: f.buffer }, by rw [if_pos he]; rfl, hr⟩
        · exact ⟨f, by rw [if_neg he], hr⟩
      · rw [heq]
        exact hemp n hn
    have hfr : (addLog s r).passed = s.passed ∧ (addLog s r).thread = s.thread := by
      rcases addLog_cases s r with ⟨heq, -⟩ | ⟨heq, -⟩ <;> rw [heq] <;> exact ⟨rfl, rfl⟩
    refine ⟨fun x hx => hall _ (h.passed x (hfr.1 ▸ hx)), fun n p l t d ht => hall _ (h.writing n p l t d (hfr.2 ▸ ht))⟩
  | notify i hi => exact frame _ rfl rfl fun _ _ _ _ _ ht => wake_writing.1 ht
  | setNotify hs => exact frame _ rfl rfl fun _ _ _ _ _ ht => wake_writing.1 ht
  | stopNotify hs => exact frame _ rfl rfl fun _ _ _ _ _ ht => wake_writing.1 ht
  | openOk io name todo f fs l ht hp =>
    have hsome : (find s.files name).isSome := by have := hb.range; rw [ht] at this; exact this.1
    obtain ⟨f₀, hf₀⟩ := Option.isSome_iff_exists.1 hsome
    rw [hf₀, Option.getD_some] at hp
    have hd := prepare_done hp
    have hr : ∀ g : LogFile, Prepared on { g with filePath := f.filePath, dirsCreated := f.dirsCreated } :=
      fun g => ⟨hd.1, fun ho => hd.2 (hon ho)⟩
    refine ⟨fun x hx => upd name _ (fun g _ _ => hr g) _ (h.passed x hx), ?_⟩
    intro n p l t d heq
    cases heq
    simp only [find_update, if_pos]
    exact ⟨_, by rw [hf₀]; rfl, hr f₀⟩
  | openFail io name todo f fs ht hp =>
    have hsome : (find s.files name).isSome := by have := hb.range; rw [ht] at this; exact this.1
    obtain ⟨f₀, hf₀⟩ := Option.isSome_iff_exists.1 hsome
    rw [hf₀, Option.getD_some] at hp
    have hk := prepare_keeps hp
    refine ⟨fun x hx => upd name (fun g => { g with filePath := f.filePath, dirsCreated := f.dirsCreated })
      (fun g hg hr => ?_) _ (h.passed x hx), by simp⟩
    rw [hf₀] at hg
    cases hg
    exact ⟨hk.1 hr.1, fun ho => hk.2 (hr.2 ho)⟩
  | writeNext io name p l e todo done fs l' whole ht hw =>
    have hn := h.writing _ _ _ _ _ ht
    refine ⟨fun x hx => ?_, ?_⟩
    · rcases List.mem_append.1 hx with hx | hx
      · exact h.passed x hx
      · rw [List.mem_singleton.1 hx]; exact hn
    · intro n p l t d heq
      cases heq
      exact hn
  | writeBefore io name p l e todo done fs ht hw => exact ⟨h.passed, by simp⟩
  | writeAfter io name p l e todo done fs ht hw =>
    have hn := h.writing _ _ _ _ _ ht
    refine ⟨fun x hx => ?_, by simp⟩
    rcases List.mem_append.1 hx with hx | hx
    · exact h.passed x hx
    · rw [List.mem_singleton.1 hx]; exact hn
  | erase io name done ht ho =>
    exact ⟨fun x hx => upd name (fun f => { f with buffer := f.buffer.take (f.buffer.length - done) })
      (fun f _ hr => hr) _ (h.passed x hx), by simp⟩
  | flush io ios last name f hst hn =>
    have hf := (next_some hb.sorted hn).1
    unfold flushFile
    split
    · rcases hp : prepare s.settings io (paths name) f s.fs with ⟨f', fs', l⟩
      have hk := prepare_keeps hp
      have hkeep : ∀ g, find s.files name = some g → Prepared on g → Prepared on f' := by
        intro g hg hr
        rw [hf] at hg
        cases hg
        exact ⟨hk.1 hr.1, fun ho => hk.2 (hr.2 ho)⟩
      cases l with
      | none =>
        exact ⟨fun x hx => upd name (fun _ => f') hkeep _ (h.passed x hx),
          fun n p l t d ht => upd name (fun _ => f') hkeep _ (h.writing n p l t d ht)⟩
      | some l =>
        have hd := prepare_done hp
        simp only
        rcases hw : writeLoop s.settings (f'.filePath.getD (paths name)) name l f'.buffer.reverse ios fs'
          with _ | ⟨fs₂, ps⟩
        · exact frame _ rfl rfl fun _ _ _ _ _ ht => ht
        · simp only
          refine ⟨fun x hx => ?_, fun n p l t d ht => ?_⟩
          · rcases List.mem_append.1 hx with hx | hx
            · exact upd name (fun _ => { f' with buffer := f'.buffer.take (f'.buffer.length - ps.length) }) hkeep _
                (h.passed x hx)
            · rw [(writeLoop_passed hw).2.2 x hx, find_update, if_pos rfl, hf]
              exact ⟨_, rfl, hd.1, fun ho => hd.2 (hon ho)⟩
          · exact upd name (fun _ => { f' with buffer := f'.buffer.take (f'.buffer.length - ps.length) }) hkeep _
              (h.writing n p l t d ht)
    · exact frame _ rfl rfl fun _ _ _ _ _ ht => ht
  | starting | checkWait | checkScan | checkExit | drowse | woken | scanEnd | scanFull | scanSkip | writeDone | spurious =>
    exact frame _ rfl rfl (by simp)
  | _ => exact frame _ rfl rfl fun _ _ _ _ _ ht => ht

theorem opened' {paths : Nat → Path} {on : Bool} {okσ : Settings → Prop} {okIo : Io → Prop} {fs : Fs} {s : State}
    (hon : ∀ σ, okσ σ → on = true → σ.createDirs = true) (h : Reaches paths okσ okIo fs s) : Opened' on s := by
  obtain ⟨σ, hσ, h⟩ := h
  induction h with
  | init => exact ⟨by simp [init], by simp [init]⟩
  | @step s s' ev hr hok hs ih =>
    exact opened'_step (base (reachable_of_by hr)) ih (hon _ (within_settings (okσ := okσ) hσ hr)) hs

/-! ## Directories (C132) -/

theorem openFile_dirs {b r : Bool} {p : Path} {fs fs' : Fs} (h : openFile b p fs = (fs', r)) : fs'.dirs = fs.dirs := by
  unfold openFile at h
  split at h
  · cases h; rfl
  · split at h <;> cases h <;> rfl

/-- An iteration does not create directories. -/
theorem turn_dirs_eq (σ : Settings) (io : Io) (p : Path) (l : Locals) (name : Nat) (e : Entry) (fs : Fs) :
    ∀ fs', (∀ l' w, turn σ io p l name e fs = .next fs' l' w → fs'.dirs = fs.dirs) ∧
      (turn σ io p l name e fs = .before fs' → fs'.dirs = fs.dirs) ∧
      (turn σ io p l name e fs = .after fs' → fs'.dirs = fs.dirs) := by
  have hput : ∀ {k text bad good fs fs' r}, put p k text bad good fs = (fs', r) → fs'.dirs = fs.dirs := by
    intro k text bad good fs fs' r h
    rcases put_cases h with ⟨-, rfl, -⟩ | ⟨-, -, -, rfl⟩ | ⟨-, -, n, -, rfl⟩
    · rfl
    · exact dirs_store ..
    · exact dirs_store ..
  have hentry : ∀ l fs fs', (∀ l' w, turnEntry σ io p l name e fs = .next fs' l' w → fs'.dirs = fs.dirs) ∧
      (turnEntry σ io p l name e fs = .before fs' → fs'.dirs = fs.dirs) ∧
      (turnEntry σ io p l name e fs = .after fs' → fs'.dirs = fs.dirs) := by
    intro l fs fs'
    rcases turnEntry_cases σ io p l name e fs with ⟨text, fs₁, r, -, hp, ht⟩ | ⟨text, fs₁, r, -, hp, ht⟩ | ht <;>
      rw [ht]
    · refine ⟨?_, by simp, by simp⟩
      intro l' w h; cases h; exact hput hp
    · refine ⟨by simp, by simp, ?_⟩
      intro h; cases h; exact hput hp
    · exact ⟨by simp, by simp, by simp⟩
  have hheader : ∀ l k fs fs', (∀ l' w, turnHeader σ io p l k name e fs = .next fs' l' w → fs'.dirs = fs.dirs) ∧
      (turnHeader σ io p l k name e fs = .before fs' → fs'.dirs = fs.dirs) ∧
      (turnHeader σ io p l k name e fs = .after fs' → fs'.dirs = fs.dirs) := by
    intro l k fs fs'
    rcases turnHeader_cases σ io p l k name e fs with ⟨-, ht⟩ | ⟨text, fs₁, r, -, -, -, hp, ht⟩ |
      ⟨text, fs₁, r, -, -, -, hp, ht⟩ | ⟨-, -, -, ht⟩ <;> rw [ht]
    · exact hentry l fs fs'
    · rw [← hput hp]; exact hentry _ fs₁ fs'
    · refine ⟨by simp, ?_, by simp⟩
      intro h; cases h; exact hput hp
    · exact ⟨by simp, by simp, by simp⟩
  intro fs'
  rcases turn_cases σ io p l name e fs with ⟨-, ht⟩ | ⟨-, -, fs₁, b, hr, ⟨-, ht⟩ | ⟨-, fs₂, r, ho, ⟨-, ht⟩ | ⟨-, ht⟩⟩⟩ <;>
    rw [ht]
  · exact hheader ..
  · refine ⟨by simp, ?_, by simp⟩
    intro h; cases h; exact shift_dirs (rotate_shift hr).1
  · refine ⟨by simp, ?_, by simp⟩
    intro h; cases h; rw [openFile_dirs ho]; exact shift_dirs (rotate_shift hr).1
  · have h1 := openFile_dirs ho
    rw [shift_dirs (rotate_shift hr).1] at h1
    rw [← h1]
    exact hheader { l with good := true } (fileSize p true fs₂) fs₂ fs'

theorem writeLoop_dirs_eq {σ : Settings} {p : Path} {name : Nat} :
    ∀ {todo : List Entry} {l : Locals} {ios : List Io} {fs fs' : Fs} {ps : List (Nat × Entry × Bool)},
      writeLoop σ p name l todo ios fs = some (fs', ps) → fs'.dirs = fs.dirs := by
  intro todo
  induction todo with
  | nil => intro l ios fs fs' ps h; cases h; rfl
  | cons e todo ih =>
    intro l ios fs fs' ps h
    unfold writeLoop at h
    have hd := turn_dirs_eq σ (ios.headD {}) p l name e fs
    rcases hw : turn σ (ios.headD {}) p l name e fs with ⟨fs₁, l', whole⟩ | fs₁ | fs₁ | _
    · rw [hw] at h hd
      simp only at h
      rcases hr : writeLoop σ p name l' todo ios.tail fs₁ with _ | ⟨fs₂, ps'⟩
      · rw [hr] at h; cases h
      · rw [hr] at h
        cases h
        rw [ih hr, (hd fs₁).1 _ _ rfl]
    · rw [hw] at h hd; cases h; exact (hd _).2.1 rfl
    · rw [hw] at h hd; cases h; exact (hd _).2.2 rfl
    · rw [hw] at h; cases h

theorem prepare_dirs {σ : Settings} {io : Io} {p : Path} {f f' : LogFile} {fs fs' : Fs} {l : Option Locals}
    (hk : Known p f) (h : prepare σ io p f fs = (f', fs', l)) :
    fs'.dirs = fs.dirs ∨ σ.createDirs = true ∧ f.dirsCreated = false ∧ fs'.dirs = p.dir :: fs.dirs := by
  have hget : f.filePath.getD p = p := by rcases hk with h | h <;> rw [h] <;> rfl
  unfold prepare at h
  split at h
  · cases h; exact .inl rfl
  · simp only [hget, Option.getD_some] at h
    split at h
    · cases h; exact .inl rfl
    · by_cases hc : σ.createDirs = true ∧ f.dirsCreated = false
      · rw [if_pos hc] at h
        simp only at h
        rcases ho : openFile io.opening p { fs with dirs := p.dir :: fs.dirs } with ⟨fs₂, r⟩
        rw [ho] at h
        have := openFile_dirs ho
        cases r <;> cases h <;> exact .inr ⟨hc.1, hc.2, this⟩
      · rw [if_neg hc] at h
        simp only at h
        rcases ho : openFile io.opening p fs with ⟨fs₂, r⟩
        rw [ho] at h
        have := openFile_dirs ho
        cases r <;> cases h <;> exact .inl this

/-- A file is opened only if there is something to be written. -/
def Busy (s : State) : Prop := ∀ name todo, s.thread = .opening name todo → todo ≠ []

theorem wake_opening {p : Phase} {name : Nat} {todo : List Entry} : wake p = .opening name todo ↔ p = .opening name todo := by
  cases p <;> simp [wake]

theorem busy_step {paths : Nat → Path} {s s' : State} {ev : Event} (h : Busy s) (hs : step paths s ev = some s') : Busy s' := by
  obtain ⟨-, hS⟩ := step_cases hs
  cases hS with
  | enter i r hi ho => rcases addLog_cases s r with ⟨heq, -⟩ | ⟨heq, -⟩ <;> rw [heq] <;> exact h
  | notify i hi => exact fun name todo ht => h name todo (wake_opening.1 ht)
  | setNotify hs => exact fun name todo ht => h name todo (wake_opening.1 ht)
  | stopNotify hs => exact fun name todo ht => h name todo (wake_opening.1 ht)
  | scanFull io last w name f ht hn hb hf =>
    intro n todo heq
    cases heq
    simpa using hb
  | flush io ios last name f hst hn =>
    have : (flushFile paths s io ios name f).thread = s.thread := by
      unfold flushFile
      split
      · split
        · split <;> rfl
        · rfl
      · rfl
    intro n todo ht
    exact h n todo (this ▸ ht)
  | starting | checkWait | checkScan | checkExit | drowse | woken | scanEnd | scanSkip | writeDone | writeNext | writeBefore | writeAfter | erase | openOk | openFail | spurious =>
    intro n todo heq
    cases heq
  | _ => exact h

/-- The directories a step creates. -/
theorem step_dirs {paths : Nat → Path} {s s' : State} {ev : Event} (hb : Base s) (hp' : PathsOk paths s) (hbusy : Busy s)
    (hs : step paths s ev = some s') :
    s'.fs.dirs = s.fs.dirs ∨ s.settings.createDirs = true ∧
      ∃ n, buffered s n ≠ [] ∧ s'.fs.dirs = (paths n).dir :: s.fs.dirs := by
  obtain ⟨-, hS⟩ := step_cases hs
  have opening : ∀ (io : Io) (name : Nat) (todo : List Entry) (f : LogFile) (fs : Fs) (l : Option Locals),
      s.thread = .opening name todo →
      prepare s.settings io (paths name) ((find s.files name).getD {}) s.fs = (f, fs, l) →
      fs.dirs = s.fs.dirs ∨ s.settings.createDirs = true ∧
        ∃ n, buffered s n ≠ [] ∧ fs.dirs = (paths n).dir :: s.fs.dirs := by
    intro io name todo f fs l ht hp
    have hr := hb.range
    rw [ht] at hr
    obtain ⟨f₀, hf₀⟩ := Option.isSome_iff_exists.1 hr.1
    rw [hf₀, Option.getD_some] at hp
    refine (prepare_dirs (hp'.known name f₀ hf₀) hp).imp_right fun h => ⟨h.1, name, ?_, h.2.2⟩
    intro h0
    have := hr.2
    rw [h0] at this
    exact hbusy name todo ht (List.prefix_nil.1 this)
  cases hS with
  | enter i r hi ho => rcases addLog_cases s r with ⟨heq, -⟩ | ⟨heq, -⟩ <;> rw [heq] <;> exact .inl rfl
  | openOk io name todo f fs l ht hp => exact opening io name todo f fs _ ht hp
  | openFail io name todo f fs ht hp => exact opening io name todo f fs _ ht hp
  | writeNext io name p l e todo done fs l' whole ht hw => exact .inl ((turn_dirs_eq _ _ _ _ _ _ _ fs).1 _ _ hw)
  | writeBefore io name p l e todo done fs ht hw => exact .inl ((turn_dirs_eq _ _ _ _ _ _ _ fs).2.1 hw)
  | writeAfter io name p l e todo done fs ht hw => exact .inl ((turn_dirs_eq _ _ _ _ _ _ _ fs).2.2 hw)
  | flush io ios last name f hst hn =>
    have hf := (next_some hb.sorted hn).1
    unfold flushFile
    split
    · rename_i hbuf
      rcases hp : prepare s.settings io (paths name) f s.fs with ⟨f', fs', l⟩
      have hd := prepare_dirs (hp'.known name f hf) hp
      have key : fs'.dirs = s.fs.dirs ∨ s.settings.createDirs = true ∧
          ∃ n, buffered s n ≠ [] ∧ fs'.dirs = (paths n).dir :: s.fs.dirs :=
        hd.imp_right fun h => ⟨h.1, name, by simpa [buffered, hf] using hbuf, h.2.2⟩
      cases l with
      | none => exact key
      | some l =>
        simp only
        rcases hw : writeLoop s.settings (f'.filePath.getD (paths name)) name l f'.buffer.reverse ios fs'
          with _ | ⟨fs₂, ps⟩
        · exact .inl rfl
        · simp only
          rw [writeLoop_dirs_eq hw]
          exact key
    · exact .inl rfl
  | _ => exact .inl rfl

/-- What has been accepted stays accepted. -/
theorem accepted_step {paths : Nat → Path} {s s' : State} {ev : Event} (hs : step paths s ev = some s') :
    ∃ new, s'.accepted = s.accepted ++ new := by
  obtain ⟨-, hS⟩ := step_cases hs
  cases hS with
  | enter i r hi ho =>
    rcases addLog_cases s r with ⟨heq, -⟩ | ⟨heq, -⟩ <;> rw [heq]
    · exact ⟨_, rfl⟩
    · exact ⟨[], by simp⟩
  | flush io ios last name f hst hn =>
    refine ⟨[], ?_⟩
    rw [List.append_nil]
    unfold flushFile
    split
    · split
      · split <;> rfl
      · rfl
    · rfl
  | _ => exact ⟨[], by simp⟩

end Pluto.Log
