import Verif.Proofs.LogSteps

/-! # The functions of a logger statement by statement: the simulation (C142) -/

namespace Pluto.LogSteps
open Pluto.Log Pluto.Spec.Log Pluto.Spec.LogSteps

/-! ## Executions of `Logger.lean` -/

theorem run_append {paths : Nat → Path} {s : Log.State} {as bs : List Event} :
    Log.run paths s (as ++ bs) = (Log.run paths s as).bind fun s => Log.run paths s bs := by
  induction as generalizing s with
  | nil => rfl
  | cons a as ih =>
    simp only [List.cons_append, Log.run]
    cases Log.step paths s a with
    | none => rfl
    | some s1 => exact ih

theorem run_one {paths : Nat → Path} {s s' : Log.State} {ev : Event} (h : Log.step paths s ev = some s') :
    Log.run paths s [ev] = some s' := by
  simp only [Log.run, h]

theorem run_trans {paths : Nat → Path} {s s1 s2 : Log.State} {as bs : List Event}
    (h1 : Log.run paths s as = some s1) (h2 : Log.run paths s1 bs = some s2) :
    Log.run paths s (as ++ bs) = some s2 := by
  rw [run_append, h1]
  exact h2

theorem step_set {paths : Nat → Path} {s : Log.State} {y : Setting} (hc : s.crashed = false) (ha : s.stage = .alive)
    (hy : ∀ n, y ≠ .bufferFlushSize n) :
    Log.step paths s (.set y) = some { s with settings := s.settings.set y } := by
  cases y <;> first | exact absurd rfl (hy _) | simp [Log.step, hc, ha]

theorem run_sets {paths : Nat → Path} {s : Log.State} {ys : List Setting} (hc : s.crashed = false)
    (ha : s.stage = .alive) (hy : ∀ y ∈ ys, ∀ n, y ≠ .bufferFlushSize n) :
    Log.run paths s (ys.map .set) = some { s with settings := sets s.settings ys } := by
  induction ys generalizing s with
  | nil => rfl
  | cons y ys ih =>
    rw [List.map_cons, Log.run, step_set hc ha (hy y List.mem_cons_self)]
    exact ih (s := { s with settings := s.settings.set y }) hc ha fun y h => hy y (List.mem_cons_of_mem _ h)

/-! ## Corresponding executions -/

/-- What is added to the execution for a step. -/
structure Extra (σ : Settings) (ms : List Move) (m : Move) (more : List Event) : Prop where
  calls : more.filter isCall = calls [m]
  given : ∀ x, .set x ∈ more → Given σ (ms ++ [m]) x
  unset : Unset (ms ++ [m]) → ∀ x, .set x ∉ more
  fails : ∀ ev ∈ more, Fails (ms ++ [m]) ev

theorem given_mono {σ : Settings} {ms : List Move} {y : Setting} (m : Move) (h : Given σ ms y) : Given σ (ms ++ [m]) y :=
  h.imp id fun h => List.mem_append_left _ h

theorem unset_left {ms : List Move} {m : Move} (h : Unset (ms ++ [m])) : Unset ms :=
  fun x hx => h x (List.mem_append_left _ hx)

theorem fails_mono {ms : List Move} {ev : Event} (m : Move) (h : Fails ms ev) : Fails (ms ++ [m]) ev := by
  cases ev with
  | thread io => exact h.imp id fun h => h.imp (List.mem_append_left _) (List.mem_append_left _)
  | flush io ios => exact List.mem_append_left _ h
  | _ => trivial

theorem atOnce_append {σ : Settings} {ms : List Move} {m : Move} {evs more : List Event} (h : AtOnce σ ms evs)
    (h' : Extra σ ms m more) : AtOnce σ (ms ++ [m]) (evs ++ more) where
  calls := by rw [List.filter_append, h.calls, h'.calls]; simp [calls, List.filterMap_append]
  given x hx := (List.mem_append.1 hx).elim (fun hx => given_mono m (h.given x hx)) (h'.given x)
  unset hu x hx := (List.mem_append.1 hx).elim (h.unset (unset_left hu) x) (h'.unset hu x)
  fails ev hx := (List.mem_append.1 hx).elim (fun hx => fails_mono m (h.fails ev hx)) (h'.fails ev)

theorem extra_nil {σ : Settings} {ms : List Move} {m : Move} (h : calls [m] = []) : Extra σ ms m [] where
  calls := h.symm
  given x hx := by cases hx
  unset _ x hx := by cases hx
  fails ev hx := by cases hx

/-- The same event happens. -/
theorem extra_other (σ : Settings) (ms : List Move) (ev : Event) : Extra σ ms (.other ev) [ev] where
  calls := by cases ev <;> rfl
  given x hx := .inr (by rw [List.mem_singleton] at hx; subst hx; simp)
  unset hu x hx := hu x (by rw [List.mem_singleton] at hx; subst hx; simp)
  fails ev' hx := by
    rw [List.mem_singleton] at hx
    subst hx
    cases ev' with
    | thread io => exact .inr (.inr (by simp))
    | flush io ios => show _ ∈ _; simp
    | _ => trivial

/-- An event is executed with other settings, which are then restored. -/
theorem with_settings {paths : Nat → Path} {σ : Settings} {ms : List Move} {m : Move} {c c' : Log.State} {ev : Event}
    {xs : List Setting} (hm : calls [m] = []) (hc : c.crashed = false) (ha : c.stage = .alive)
    (hx : ∀ y ∈ xs, Given σ ms y ∧ ∀ n, y ≠ .bufferFlushSize n)
    (hk : ∀ y, c.settings.set y = c.settings → Given σ ms y) (hs : Unset ms → c.settings = σ)
    (hev : isCall ev = false) (hset : ∀ y, ev ≠ .set y) (hf : Fails ms ev)
    (h : Log.step paths { c with settings := sets c.settings xs } ev = some c') (ha' : c'.stage = .alive)
    (hs' : c'.settings = sets c.settings xs) :
    ∃ more c'', Log.run paths c more = some c'' ∧ Extra σ ms m more ∧
      (c'.crashed = false → c'' = { c' with settings := c.settings }) ∧ (c'.crashed = true → c''.crashed = true) := by
  by_cases hno : sets c.settings xs = c.settings
  · rw [hno] at h hs'
    refine ⟨[ev], c', run_one h, ⟨?_, ?_, ?_, ?_⟩, fun _ => ?_, fun h => h⟩
    · rw [List.filter_cons_of_neg (by simp [hev]), hm]; rfl
    · intro x hx
      rw [List.mem_singleton] at hx
      exact absurd hx.symm (hset x)
    · intro _ x hx
      rw [List.mem_singleton] at hx
      exact absurd hx.symm (hset x)
    · intro ev' hx
      rw [List.mem_singleton] at hx
      subst hx
      exact fails_mono m hf
    · rw [← hs']
  · have hnot : ¬ Unset ms := by
      intro hu
      refine hno (sets_noop fun y hy => ?_)
      rw [hs hu]
      exact (hx y hy).1.resolve_right (hu y)
    have h1 : Log.run paths c (xs.map .set) = some { c with settings := sets c.settings xs } :=
      run_sets hc ha fun y hy => (hx y hy).2
    have hcallsX : ∀ ys : List Setting, (ys.map Event.set).filter isCall = [] := by
      intro ys
      rw [List.filter_eq_nil_iff]
      intro e he
      obtain ⟨y, -, rfl⟩ := List.mem_map.1 he
      simp [isCall]
    have hfX : ∀ ys : List Setting, ∀ e ∈ ys.map Event.set, Fails (ms ++ [m]) e := by
      intro ys e he
      obtain ⟨y, -, rfl⟩ := List.mem_map.1 he
      trivial
    by_cases hcr : c'.crashed = true
    · refine ⟨xs.map .set ++ [ev], c', run_trans h1 (run_one h), ⟨?_, ?_, ?_, ?_⟩, fun h => ?_, fun h => h⟩
      · rw [List.filter_append, hcallsX, List.filter_cons_of_neg (by simp [hev]), hm]; rfl
      · intro x hxm
        rcases List.mem_append.1 hxm with hxm | hxm
        · obtain ⟨y, hy, hyx⟩ := List.mem_map.1 hxm
          cases hyx
          exact given_mono m (hx _ hy).1
        · rw [List.mem_singleton] at hxm
          exact absurd hxm.symm (hset x)
      · exact fun hu => absurd (unset_left hu) hnot
      · intro e he
        rcases List.mem_append.1 he with he | he
        · exact hfX _ e he
        · rw [List.mem_singleton] at he
          subst he
          exact fails_mono m hf
      · rw [hcr] at h; cases h
    · have h2 : Log.run paths c' ((back c.settings).map .set) = some { c' with settings := c.settings } := by
        rw [run_sets (by simpa using hcr) ha' (back_flush _), hs', sets_back fun y hy => (hx y hy).2]
      refine ⟨xs.map .set ++ [ev] ++ (back c.settings).map .set, _, run_trans (run_trans h1 (run_one h)) h2,
        ⟨?_, ?_, ?_, ?_⟩, fun _ => rfl, fun h => absurd h hcr⟩
      · rw [List.filter_append, List.filter_append, hcallsX, hcallsX, List.filter_cons_of_neg (by simp [hev]), hm]; rfl
      · intro x hxm
        rcases List.mem_append.1 hxm with hxm | hxm
        · rcases List.mem_append.1 hxm with hxm | hxm
          · obtain ⟨y, hy, hyx⟩ := List.mem_map.1 hxm
            cases hyx
            exact given_mono m (hx _ hy).1
          · rw [List.mem_singleton] at hxm
            exact absurd hxm.symm (hset x)
        · obtain ⟨y, hy, hyx⟩ := List.mem_map.1 hxm
          cases hyx
          exact given_mono m (hk _ (back_noop _ _ hy))
      · exact fun hu => absurd (unset_left hu) hnot
      · intro e he
        rcases List.mem_append.1 he with he | he
        · rcases List.mem_append.1 he with he | he
          · exact hfX _ e he
          · rw [List.mem_singleton] at he
            subst he
            exact fails_mono m hf
        · exact hfX _ e he

/-! ## The relation -/

/-- The table after lines 731-735. -/
def ensured (files : List (Nat × LogFile)) (name : Nat) : List (Nat × LogFile) :=
  if (Log.find files name).isNone then emplace name {} files else files

/-- What the call that is being executed has done; `files` is the table before. -/
def AddRel (σ : Settings) (ms : List Move) (s : Log.State) (files : List (Nat × LogFile)) (r : Request) : Add → Prop
  | .find => s.files = files
  | .insert => s.files = files ∧ (Log.find files r.name).isNone = true
  | .readMax => s.files = ensured files r.name
  | .test m => s.files = ensured files r.name ∧ Given σ ms (.bufferMaxSize m)
  | .push m =>
    s.files = ensured files r.name ∧ Given σ ms (.bufferMaxSize m) ∧
      (m = 0 ∨ ((Log.find s.files r.name).getD {}).buffer.length < m)
  | .count m =>
    s.files = ensured files r.name ∧ Given σ ms (.bufferMaxSize m) ∧
      ¬ (m = 0 ∨ ((Log.find s.files r.name).getD {}).buffer.length < m)

/-- The state of `Logger.lean` if the call that is being executed has not yet begun, or has ended. -/
def Lag (σ : Settings) (ms : List Move) (f : State) (c : Log.State) : Prop :=
  match f.producer with
  | .idle => c = f.base
  | .adding i pc =>
    ∃ r files, f.base.calls[i]? = some r ∧ f.base.owner = .free ∧ c = { f.base with files := files } ∧
      AddRel σ ms f.base files r pc
  | .leaving b =>
    ∃ tid name, f.base.owner = .producer tid name ∧
      c = { f.base with
        owner := .free
        notifying := if b then f.base.notifying ++ [tid] else f.base.notifying }

/-- What the logging thread is in the middle of, before the destructor is called. -/
def Inner (paths : Nat → Path) (σ : Settings) (ms : List Move) (f : State) (c : Log.State) : Prop :=
  match f.inside with
  | .out => True
  | .preparing x =>
    ∃ name todo xs, c.thread = .opening name todo ∧ (∀ y ∈ xs, Given σ ms y ∧ Read y) ∧ Fails ms (.thread x.io) ∧
      ∀ τ, outcome (prepare (sets τ xs) x.io (paths name) ((Log.find c.files name).getD {}) c.fs) =
        prepareRest τ (paths name) x
  | .turning x =>
    ∃ name p l e todo done xs, c.thread = .writing name p l (e :: todo) done ∧ (∀ y ∈ xs, Given σ ms y ∧ Read y) ∧
      Fails ms (.thread x.io) ∧
      ∀ τ, turn (sets τ xs) x.io p l name e c.fs = turnRest τ p name e x
  | .erasing => (∃ name done, c.thread = .returning name done) ∧ f.base.owner = .free ∧ f.producer = .idle

/-- Before the destructor is called. -/
structure Alive (paths : Nat → Path) (σ : Settings) (ms : List Move) (f : State) (c : Log.State) : Prop where
  live : f.base.crashed = false
  stage : f.base.stage = .alive
  lag : Lag σ ms f c
  inner : Inner paths σ ms f c
  kept : ∀ y, f.base.settings.set y = f.base.settings → Given σ ms y
  same : Unset ms → f.base.settings = σ

/-- Afterwards, the state of `Logger.lean` is ahead: what the logging thread was in the middle of has been completed. -/
def Ahead (paths : Nat → Path) (f : State) (c : Log.State) : Prop :=
  match f.inside with
  | .out => c = f.base
  | .preparing x =>
    ∃ name todo, f.base.thread = .opening name todo ∧
      c = finishPrepare paths f.base name todo (prepareRest f.base.settings (paths name) x)
  | .turning x =>
    ∃ name p l e todo done, f.base.thread = .writing name p l (e :: todo) done ∧
      ((turnRest f.base.settings p name e x = .crash ∧ c.crashed = true) ∨
        (turnRest f.base.settings p name e x ≠ .crash ∧
          c = finishTurn f.base name p e todo done (turnRest f.base.settings p name e x)))
  | .erasing => c = f.base ∧ (∃ name done, f.base.thread = .returning name done) ∧ f.base.owner = .free

/-- After the destructor has been called. -/
structure Ending (paths : Nat → Path) (f : State) (c : Log.State) : Prop where
  live : f.base.crashed = false
  stage : f.base.stage ≠ .alive
  idle : f.producer = .idle
  free : f.base.owner = .free ∨ f.base.owner = .logging
  calls : f.base.calls = []
  quiet : f.base.notifying = [] ∧ f.base.setters = 0
  early : f.inside = .out ∨ f.base.stage = .flagged ∨ f.base.stage = .joining
  ahead : Ahead paths f c

/-- The relation between a state and the one of `Logger.lean`. -/
def Rel (paths : Nat → Path) (σ : Settings) (ms : List Move) (f : State) (c : Log.State) : Prop :=
  (f.base.crashed = true ∧ c.crashed = true) ∨ Alive paths σ ms f c ∨ Ending paths f c

/-- What does not lag. -/
theorem lag_same {σ : Settings} {ms : List Move} {f : State} {c : Log.State} (h : Lag σ ms f c) :
    c.settings = f.base.settings ∧ c.thread = f.base.thread ∧ c.fs = f.base.fs ∧ c.stage = f.base.stage ∧
      c.crashed = f.base.crashed := by
  unfold Lag at h
  split at h
  · subst h; exact ⟨rfl, rfl, rfl, rfl, rfl⟩
  · obtain ⟨r, files, -, -, rfl, -⟩ := h; exact ⟨rfl, rfl, rfl, rfl, rfl⟩
  · obtain ⟨tid, name, -, rfl⟩ := h; exact ⟨rfl, rfl, rfl, rfl, rfl⟩

theorem addRel_mono {σ : Settings} {ms : List Move} {s : Log.State} {files : List (Nat × LogFile)} {r : Request}
    {pc : Add} (m : Move) (h : AddRel σ ms s files r pc) : AddRel σ (ms ++ [m]) s files r pc := by
  cases pc with
  | test n => exact ⟨h.1, given_mono m h.2⟩
  | push n => exact ⟨h.1, given_mono m h.2.1, h.2.2⟩
  | count n => exact ⟨h.1, given_mono m h.2.1, h.2.2⟩
  | _ => exact h

theorem lag_mono {σ : Settings} {ms : List Move} {f : State} {c : Log.State} (m : Move) (h : Lag σ ms f c) :
    Lag σ (ms ++ [m]) f c := by
  unfold Lag at h ⊢
  split
  · simpa [*] using h
  · simp only [*] at h
    obtain ⟨r, files, h1, h2, h3, h4⟩ := h
    exact ⟨r, files, h1, h2, h3, addRel_mono m h4⟩
  · simpa [*] using h

/-- The part of the relation for the logging thread does not depend on other things. -/
theorem inner_congr {paths : Nat → Path} {σ : Settings} {ms : List Move} {f f' : State} {c c' : Log.State} (m : Move)
    (h : Inner paths σ ms f c) (hi : f'.inside = f.inside) (ht : c'.thread = wake c.thread ∨ c'.thread = c.thread)
    (hfs : c'.fs = c.fs)
    (hfiles : ∀ n todo, c.thread = .opening n todo →
      ((Log.find c'.files n).getD {}).filePath = ((Log.find c.files n).getD {}).filePath ∧
      ((Log.find c'.files n).getD {}).dirsCreated = ((Log.find c.files n).getD {}).dirsCreated)
    (he : f.inside = .erasing → f'.base.owner = .free ∧ f'.producer = .idle) : Inner paths σ (ms ++ [m]) f' c' := by
  unfold Inner at h ⊢
  rw [hi]
  split
  · trivial
  · simp only [*] at h
    obtain ⟨name, todo, xs, h1, h2, h3, h4⟩ := h
    refine ⟨name, todo, xs, ?_, fun y hy => ⟨given_mono m (h2 y hy).1, (h2 y hy).2⟩, fails_mono m h3, fun τ => ?_⟩
    · rcases ht with ht | ht <;> rw [ht, h1]
      rfl
    · obtain ⟨h5, h6⟩ := hfiles name todo h1
      rw [← h4 τ, prepare_begin, prepare_begin, h5, h6, hfs]
  · simp only [*] at h
    obtain ⟨name, p, l, e, todo, done, xs, h1, h2, h3, h4⟩ := h
    refine ⟨name, p, l, e, todo, done, xs, ?_, fun y hy => ⟨given_mono m (h2 y hy).1, (h2 y hy).2⟩, fails_mono m h3,
      fun τ => ?_⟩
    · rcases ht with ht | ht <;> rw [ht, h1]
      rfl
    · rw [hfs]; exact h4 τ
  · rename_i hin
    simp only [*] at h
    obtain ⟨⟨name, done, h1⟩, -, -⟩ := h
    refine ⟨⟨name, done, ?_⟩, he hin⟩
    rcases ht with ht | ht <;> rw [ht, h1]
    rfl

end Pluto.LogSteps
