import Verif.Proofs.LogStepsSim

/-! # The functions of a logger statement by statement: every step is simulated (C142) -/

namespace Pluto.LogSteps
open Pluto.Log Pluto.Spec.Log Pluto.Spec.LogSteps

theorem base_run {paths : Nat → Path} {s s' : Log.State} {evs : List Event} (hb : Base s)
    (h : Log.run paths s evs = some s') : Base s' := by
  induction evs generalizing s with
  | nil => cases h; exact hb
  | cons ev evs ih =>
    rw [Log.run] at h
    split at h
    · rename_i s1 h1
      exact ih (base_step hb h1) h
    · cases h

/-! ## The table of log files -/

theorem find_ensured (files : List (Nat × LogFile)) (n m : Nat) :
    (Log.find (ensured files n) m).getD {} = (Log.find files m).getD {} := by
  unfold ensured
  rw [addLog_files]
  split
  · rename_i h; rw [h]; rfl
  · rfl

theorem update_emplace {files : List (Nat × LogFile)} {n r : Nat} (h : n ≠ r) (g : LogFile → LogFile) :
    update (emplace r {} files) n g = emplace r {} (update files n g) := by
  induction files with
  | nil => simp [emplace, update, h.symm]
  | cons x xs ih =>
    rw [emplace]
    split
    · rename_i hx
      by_cases hn : x.1 = n
      · simp [update, emplace, hn ▸ hx, hn, h.symm]
      · simp [update, emplace, hx, hn, h.symm]
    · rename_i hx
      have hcons : ∀ ys : List (Nat × LogFile), update (x :: ys) n g =
          (if x.1 = n then (x.1, g x.2) else x) :: update ys n g := fun _ => rfl
      have hx' : ¬ r < (if x.1 = n then (x.1, g x.2) else x).1 := by split <;> exact hx
      rw [hcons, hcons, emplace, ih, if_neg hx']

theorem update_ensured {files : List (Nat × LogFile)} {n r : Nat} (hs : (Log.find files n).isSome = true)
    (g : LogFile → LogFile) : update (ensured files r) n g = ensured (update files n g) r := by
  unfold ensured
  have hf : (Log.find (update files n g) r).isNone = (Log.find files r).isNone := by
    rw [find_update]
    split
    · cases Log.find files r <;> rfl
    · rfl
  rw [hf]
  split
  · rename_i h
    refine update_emplace ?_ g
    rintro rfl
    rw [Option.isNone_iff_eq_none] at h
    rw [h] at hs
    cases hs
  · rfl

theorem lag_files {σ : Settings} {ms : List Move} {f : State} {c : Log.State} (h : Lag σ ms f c) (n : Nat) :
    (Log.find f.base.files n).getD {} = (Log.find c.files n).getD {} := by
  unfold Lag at h
  split at h
  · subst h; rfl
  · obtain ⟨r, files, -, -, rfl, h4⟩ := h
    rename_i i pc _
    show _ = (Log.find files n).getD {}
    cases pc with
    | find => rw [show f.base.files = files from h4]
    | insert => rw [show f.base.files = files from h4.1]
    | readMax => rw [show f.base.files = ensured files r.name from h4, find_ensured]
    | test m => rw [show f.base.files = ensured files r.name from h4.1, find_ensured]
    | push m => rw [show f.base.files = ensured files r.name from h4.1, find_ensured]
    | count m => rw [show f.base.files = ensured files r.name from h4.1, find_ensured]
  · obtain ⟨tid, name, -, rfl⟩ := h; rfl

theorem mutexFree_iff {f : State} (h : mutexFree f = true) :
    f.base.owner = .free ∧ f.producer = .idle ∧ f.inside ≠ .erasing := by
  unfold mutexFree at h
  simp only [Bool.and_eq_true, decide_eq_true_eq] at h
  refine ⟨h.1.1, h.1.2, fun he => ?_⟩
  rw [he] at h
  cases h.2

/-! ## The steps of `Logger.lean` that are divided -/

theorem thread_prepare {paths : Nat → Path} {s : Log.State} {io : Io} {name : Nat} {todo : List Entry}
    (hc : s.crashed = false) (ht : s.thread = .opening name todo) :
    Log.step paths s (.thread io) = some (finishPrepare paths s name todo
      (outcome (prepare s.settings io (paths name) ((Log.find s.files name).getD {}) s.fs))) := by
  have hcs : ¬ s.crashed = true := by simp [hc]
  simp only [Log.step, if_neg hcs, threadStep, ht]
  rcases prepare s.settings io (paths name) ((Log.find s.files name).getD {}) s.fs with ⟨g, fs, l⟩
  cases l <;> rfl

theorem thread_turn {paths : Nat → Path} {s : Log.State} {io : Io} {name : Nat} {p : Path} {l : Locals} {e : Entry}
    {todo : List Entry} {done : Nat} (hc : s.crashed = false) (ht : s.thread = .writing name p l (e :: todo) done) :
    Log.step paths s (.thread io) =
      some (finishTurn s name p e todo done (turn s.settings io p l name e s.fs)) := by
  have hcs : ¬ s.crashed = true := by simp [hc]
  simp only [Log.step, if_neg hcs, threadStep, ht]
  cases turn s.settings io p l name e s.fs <;> simp only [finishTurn, ht]

theorem finishPrepare_same (paths : Nat → Path) (s : Log.State) (name : Nat) (todo : List Entry)
    (r : Option Path × Bool × Fs × Option Locals) :
    (finishPrepare paths s name todo r).stage = s.stage ∧ (finishPrepare paths s name todo r).settings = s.settings ∧
      (finishPrepare paths s name todo r).crashed = s.crashed ∧ (finishPrepare paths s name todo r).owner = s.owner ∧
      (finishPrepare paths s name todo r).calls = s.calls ∧ (finishPrepare paths s name todo r).notifying = s.notifying ∧
      (finishPrepare paths s name todo r).setters = s.setters := by
  rcases r with ⟨a, b, c, d⟩
  cases d <;> exact ⟨rfl, rfl, rfl, rfl, rfl, rfl, rfl⟩

theorem finishTurn_same (s : Log.State) (name : Nat) (p : Path) (e : Entry) (todo : List Entry) (done : Nat) (t : Turn) :
    (finishTurn s name p e todo done t).stage = s.stage ∧ (finishTurn s name p e todo done t).settings = s.settings ∧
      ((finishTurn s name p e todo done t).crashed = true ↔ t = .crash ∨ s.crashed = true) ∧
      (finishTurn s name p e todo done t).owner = s.owner ∧ (finishTurn s name p e todo done t).calls = s.calls ∧
      (finishTurn s name p e todo done t).notifying = s.notifying ∧
      (finishTurn s name p e todo done t).setters = s.setters ∧ (finishTurn s name p e todo done t).files = s.files := by
  cases t <;> simp [finishTurn]

theorem lag_prepare {paths : Nat → Path} {σ : Settings} {ms : List Move} {f : State} {c : Log.State} {name : Nat}
    {todo : List Entry} {r : Option Path × Bool × Fs × Option Locals} {i : Inside} (h : Lag σ ms f c)
    (hs : (Log.find c.files name).isSome = true) :
    Lag σ ms { f with base := finishPrepare paths f.base name todo r, inside := i } (finishPrepare paths c name todo r) := by
  rcases r with ⟨a, b, fs, d⟩
  unfold Lag at h ⊢
  simp only
  split
  · rename_i hp
    simp only [hp] at h
    rw [h]
  · rename_i j pc hp
    simp only [hp] at h
    obtain ⟨q, files, h1, h2, rfl, h4⟩ := h
    obtain ⟨-, -, -, h5, h6, -, -⟩ := finishPrepare_same paths f.base name todo (a, b, fs, d)
    refine ⟨q, update files name fun g => { g with filePath := a, dirsCreated := b }, by rw [h6]; exact h1,
      by rw [h5]; exact h2, by cases d <;> rfl, ?_⟩
    have hf : (finishPrepare paths f.base name todo (a, b, fs, d)).files =
        update f.base.files name fun g => { g with filePath := a, dirsCreated := b } := by cases d <;> rfl
    have hlen : ∀ n, ((Log.find (update f.base.files name fun g => { g with filePath := a, dirsCreated := b }) n).getD
        {}).buffer = ((Log.find f.base.files n).getD {}).buffer := by
      intro n
      rw [find_update]
      split
      · cases Log.find f.base.files n <;> rfl
      · rfl
    have hs' : (Log.find files name).isSome = true := hs
    have he := fun g => update_ensured (r := q.name) hs' g
    have hn : ∀ g, (Log.find (update files name g) q.name).isNone = (Log.find files q.name).isNone := by
      intro g
      rw [find_update]
      split
      · cases Log.find files q.name <;> rfl
      · rfl
    cases pc with
    | find =>
      show _ = _
      rw [hf, show f.base.files = files from h4]
    | insert =>
      refine ⟨?_, ?_⟩
      · rw [hf, h4.1]
      · rw [hn]; exact h4.2
    | readMax =>
      show _ = _
      rw [hf, show f.base.files = ensured files q.name from h4, he]
    | test m =>
      refine ⟨?_, h4.2⟩
      rw [hf, h4.1, he]
    | push m =>
      refine ⟨?_, h4.2.1, ?_⟩
      · rw [hf, h4.1, he]
      · rw [hf, hlen]; exact h4.2.2
    | count m =>
      refine ⟨?_, h4.2.1, ?_⟩
      · rw [hf, h4.1, he]
      · rw [hf, hlen]; exact h4.2.2
  · rename_i b' hp
    simp only [hp] at h
    obtain ⟨tid, n, h1, rfl⟩ := h
    obtain ⟨-, -, -, h5, -, h6, -⟩ := finishPrepare_same paths f.base name todo (a, b, fs, d)
    refine ⟨tid, n, by rw [h5]; exact h1, ?_⟩
    cases d <;> rfl

theorem addRel_congr {σ : Settings} {ms : List Move} {s s' : Log.State} {files : List (Nat × LogFile)} {r : Request}
    {pc : Add} (h : AddRel σ ms s files r pc) (hf : s'.files = s.files) : AddRel σ ms s' files r pc := by
  cases pc <;> simp only [AddRel, hf] at h ⊢ <;> exact h

theorem lag_turn {σ : Settings} {ms : List Move} {f : State} {c : Log.State} {name : Nat} {p : Path} {e : Entry}
    {todo : List Entry} {done : Nat} {t : Turn} {i : Inside} (h : Lag σ ms f c) :
    Lag σ ms { f with base := finishTurn f.base name p e todo done t, inside := i }
      (finishTurn c name p e todo done t) := by
  obtain ⟨-, -, -, h5, h6, -, -, hf⟩ := finishTurn_same f.base name p e todo done t
  unfold Lag at h ⊢
  simp only
  split
  · rename_i hp
    simp only [hp] at h
    rw [h]
  · rename_i j pc hp
    simp only [hp] at h
    obtain ⟨q, files, h1, h2, rfl, h4⟩ := h
    refine ⟨q, files, by rw [h6]; exact h1, by rw [h5]; exact h2, by cases t <;> rfl, addRel_congr h4 hf⟩
  · rename_i b' hp
    simp only [hp] at h
    obtain ⟨tid, n, h1, rfl⟩ := h
    refine ⟨tid, n, by rw [h5]; exact h1, ?_⟩
    cases t <;> rfl

/-! ## Other steps before the destructor is called -/

/-- Steps of other threads. -/
def foreign : Event → Bool
  | .call .. => true
  | .notify _ => true
  | .set _ => true
  | .setNotify => true
  | .reset => true
  | .spurious => true
  | _ => false

/-- What such a step does not change. -/
theorem foreign_frame {paths : Nat → Path} {s s' : Log.State} {ev : Event} (hev : foreign ev = true)
    (h : Log.step paths s ev = some s') :
    s'.files = s.files ∧ s'.fs = s.fs ∧ s'.owner = s.owner ∧ s'.stage = s.stage ∧ s'.crashed = s.crashed ∧
      (∃ l, s'.calls = s.calls ++ l) ∧ (s'.thread = wake s.thread ∨ s'.thread = s.thread) := by
  have hc : s.crashed = false := by
    cases hcr : s.crashed with
    | false => rfl
    | true => simp [Log.step, hcr] at h
  have hcs : ¬ s.crashed = true := by simp [hc]
  cases ev with
  | call tid name time level message =>
    simp only [Log.step, if_neg hcs] at h
    split at h
    · split at h
      · cases h
        exact ⟨rfl, rfl, rfl, rfl, rfl, ⟨_, rfl⟩, .inr rfl⟩
      · cases h
        exact ⟨rfl, rfl, rfl, rfl, rfl, ⟨[], by simp⟩, .inr rfl⟩
    · cases h
  | notify i =>
    simp only [Log.step, if_neg hcs] at h
    split at h <;> cases h
    exact ⟨rfl, rfl, rfl, rfl, rfl, ⟨[], by simp⟩, .inl rfl⟩
  | set x =>
    simp only [Log.step, if_neg hcs] at h
    split at h
    · split at h <;> cases h <;> exact ⟨rfl, rfl, rfl, rfl, rfl, ⟨[], by simp⟩, .inr rfl⟩
    · cases h
  | setNotify =>
    simp only [Log.step, if_neg hcs] at h
    split at h <;> cases h
    exact ⟨rfl, rfl, rfl, rfl, rfl, ⟨[], by simp⟩, .inl rfl⟩
  | reset =>
    simp only [Log.step, if_neg hcs] at h
    split at h <;> cases h
    exact ⟨rfl, rfl, rfl, rfl, rfl, ⟨[], by simp⟩, .inr rfl⟩
  | spurious =>
    simp only [Log.step, if_neg hcs] at h
    split at h <;> cases h
    rename_i ht
    exact ⟨rfl, rfl, rfl, rfl, rfl, ⟨[], by simp⟩, .inl (by rw [ht]; rfl)⟩
  | _ => cases hev

/-- Such a step does not look at the table. -/
theorem foreign_files {paths : Nat → Path} {s s' : Log.State} {ev : Event} (hev : foreign ev = true)
    (files : List (Nat × LogFile)) (h : Log.step paths s ev = some s') :
    Log.step paths { s with files := files } ev = some { s' with files := files } := by
  have hc : s.crashed = false := by
    cases hcr : s.crashed with
    | false => rfl
    | true => simp [Log.step, hcr] at h
  have hcs : ¬ s.crashed = true := by simp [hc]
  cases ev with
  | call tid name time level message =>
    simp only [Log.step, if_neg hcs] at h ⊢
    split at h
    · rename_i h1
      rw [if_pos h1]
      split at h
      · rename_i h2; cases h; rw [if_pos h2]
      · rename_i h2; cases h; rw [if_neg h2]
    · cases h
  | notify i =>
    simp only [Log.step, if_neg hcs] at h ⊢
    split at h
    · rename_i h1; cases h; rw [if_pos h1]
    · cases h
  | set x =>
    simp only [Log.step, if_neg hcs] at h ⊢
    split at h
    · rename_i h1
      rw [if_pos h1]
      cases x <;> cases h <;> rfl
    · cases h
  | setNotify =>
    simp only [Log.step, if_neg hcs] at h ⊢
    split at h
    · rename_i h1; cases h; rw [if_pos h1]
    · cases h
  | reset =>
    simp only [Log.step, if_neg hcs] at h ⊢
    split at h
    · rename_i h1; cases h; rw [if_pos h1]
    · cases h
  | spurious =>
    simp only [Log.step, if_neg hcs] at h ⊢
    split at h
    · rename_i h1; cases h; rw [if_pos h1]
    · cases h
  | _ => cases hev

/-- The producer that owns the mutex has released it. -/
def released (b : Bool) (tid : Nat) (s : Log.State) : Log.State :=
  { s with owner := .free, notifying := if b then s.notifying ++ [tid] else s.notifying }

/-- Such a step can also be taken when the mutex has been released. -/
theorem foreign_released {paths : Nat → Path} {s s' : Log.State} {ev : Event} (hev : foreign ev = true) (b : Bool)
    {tid n : Nat} (ho : s.owner = .producer tid n) (h : Log.step paths s ev = some s') :
    Log.step paths (released b tid s) ev = some (released b tid s') := by
  have hc : s.crashed = false := by
    cases hcr : s.crashed with
    | false => rfl
    | true => simp [Log.step, hcr] at h
  have hcs : ¬ s.crashed = true := by simp [hc]
  unfold released
  cases ev with
  | call t name time level message =>
    simp only [Log.step, if_neg hcs] at h ⊢
    split at h
    · rename_i h1
      have h2 : s.stage = .alive ∧ t ∉ s.calls.map (·.entry.tid) ∧
          t ∉ (if b then s.notifying ++ [tid] else s.notifying) ∧ (!isProducer t .free) = true := by
        refine ⟨h1.1, h1.2.1, ?_, rfl⟩
        have h3 := h1.2.2.2
        rw [ho] at h3
        simp only [isProducer, Bool.not_eq_true', beq_eq_false_iff_ne] at h3
        split
        · simp only [List.mem_append, List.mem_singleton, not_or]
          exact ⟨h1.2.2.1, fun h => h3 h.symm⟩
        · exact h1.2.2.1
      rw [if_pos h2]
      split at h
      · rename_i h4; cases h; rw [if_pos h4]
      · rename_i h4; cases h; rw [if_neg h4]
    · cases h
  | notify i =>
    simp only [Log.step, if_neg hcs] at h ⊢
    split at h
    · rename_i h1
      cases h
      cases b with
      | false => simp only [Bool.false_eq_true, if_false]; rw [if_pos h1]
      | true =>
        simp only [if_true]
        rw [if_pos (by rw [List.length_append]; omega), List.eraseIdx_append_of_lt_length h1]
    · cases h
  | set x =>
    simp only [Log.step, if_neg hcs] at h ⊢
    split at h
    · rename_i h1
      rw [if_pos h1]
      cases x <;> cases h <;> rfl
    · cases h
  | setNotify =>
    simp only [Log.step, if_neg hcs] at h ⊢
    split at h
    · rename_i h1; cases h; rw [if_pos h1]
    · cases h
  | reset =>
    simp only [Log.step, if_neg hcs] at h ⊢
    split at h
    · rename_i h1; cases h; rw [if_pos h1]
    · cases h
  | spurious =>
    simp only [Log.step, if_neg hcs] at h ⊢
    split at h
    · rename_i h1; cases h; rw [if_pos h1]
    · cases h
  | _ => cases hev

theorem lag_foreign {paths : Nat → Path} {σ : Settings} {ms : List Move} {f : State} {c s : Log.State} {ev : Event}
    (hev : foreign ev = true) (hl : Lag σ ms f c) (h : Log.step paths f.base ev = some s) :
    ∃ c', Log.step paths c ev = some c' ∧ Lag σ ms { f with base := s } c' := by
  obtain ⟨h1, -, h3, -, -, ⟨l, h6⟩, -⟩ := foreign_frame hev h
  unfold Lag at hl
  split at hl
  · rename_i hp
    subst hl
    exact ⟨s, h, by simp [Lag, hp]⟩
  · rename_i i pc hp
    obtain ⟨r, files, h7, h8, rfl, h10⟩ := hl
    refine ⟨_, foreign_files hev files h, ?_⟩
    simp only [Lag, hp]
    refine ⟨r, files, ?_, by rw [h3]; exact h8, rfl, addRel_congr h10 h1⟩
    rw [h6, List.getElem?_append_left]
    · exact h7
    · exact (List.getElem?_eq_some_iff.1 h7).1
  · rename_i b hp
    obtain ⟨tid, n, h7, rfl⟩ := hl
    refine ⟨_, foreign_released hev b h7 h, ?_⟩
    simp only [Lag, hp]
    exact ⟨tid, n, by rw [h3]; exact h7, rfl⟩

/-- A step of the logging thread that is not divided. -/
theorem lag_thread {paths : Nat → Path} {σ : Settings} {ms : List Move} {f : State} {c s : Log.State} {io : Io}
    (hb : Base c) (hl : Lag σ ms f c) (ha : allowed f (.thread io) = true)
    (h : Log.step paths f.base (.thread io) = some s) :
    (∃ c', Log.step paths c (.thread io) = some c' ∧ Lag σ ms { f with base := s } c') ∧ s.stage = f.base.stage ∧
      s.crashed = false ∧ s.settings = f.base.settings := by
  have hc : f.base.crashed = false := by
    cases hcr : f.base.crashed with
    | false => rfl
    | true => simp [Log.step, hcr] at h
  have hcs : ¬ f.base.crashed = true := by simp [hc]
  obtain ⟨-, ht, -, -, hcc⟩ := lag_same hl
  simp only [allowed, Bool.and_eq_true, Bool.or_eq_true, Bool.not_eq_true'] at ha
  obtain ⟨⟨-, ha1⟩, ha2⟩ := ha
  have hstep : s.stage = f.base.stage ∧ s.crashed = false ∧ s.settings = f.base.settings := by
    have h' := h
    simp only [Log.step, if_neg hcs, threadStep] at h'
    split at h'
    · split at h' <;> cases h'; exact ⟨rfl, hc, rfl⟩
    · split at h'
      · split at h' <;> cases h' <;> exact ⟨rfl, hc, rfl⟩
      · cases h'; exact ⟨rfl, hc, rfl⟩
    · cases h'; exact ⟨rfl, hc, rfl⟩
    · cases h'
    · split at h' <;> cases h'; exact ⟨rfl, hc, rfl⟩
    · split at h'
      · cases h'; exact ⟨rfl, hc, rfl⟩
      · split at h' <;> cases h' <;> exact ⟨rfl, hc, rfl⟩
    · rename_i ht'; rw [ht'] at ha1; cases ha1
    · rename_i ht'
      split at h'
      · cases h'; exact ⟨rfl, hc, rfl⟩
      · rw [ht'] at ha1; cases ha1
    · rename_i ht'; rw [ht'] at ha1; cases ha1
    · cases h'
  refine ⟨?_, hstep⟩
  unfold Lag at hl
  split at hl
  · rename_i hp
    subst hl
    exact ⟨s, h, by simp [Lag, hp]⟩
  · rename_i i pc hp
    obtain ⟨r, files, h7, h8, rfl, h10⟩ := hl
    have hmf : mutexFree f = false := by simp [mutexFree, hp]
    have hnl : locks f.base.thread = false := by
      rcases ha2 with h | h
      · exact h
      · rw [hmf] at h; cases h
    have hnh : ¬ holds f.base.thread = true := by
      intro hh
      have := hb.owner.2 hh
      rw [show ({ f.base with files := files } : Log.State).owner = f.base.owner from rfl, h8] at this
      cases this
    simp only [Log.step, if_neg hcs, threadStep] at h ⊢
    cases hth : f.base.thread with
    | writing name p l todo done =>
      cases todo with
      | nil =>
        rw [hth] at h
        cases h
        refine ⟨_, rfl, ?_⟩
        simp only [Lag, hp]
        exact ⟨r, files, h7, h8, rfl, addRel_congr h10 rfl⟩
      | cons e todo => rw [hth] at ha1; cases ha1
    | starting => rw [hth] at hnl; cases hnl
    | woken => rw [hth] at hnl; cases hnl
    | checking b => rw [hth] at hnh; exact absurd rfl hnh
    | drowsy => rw [hth] at hnh; exact absurd rfl hnh
    | scanning a b => rw [hth] at hnh; exact absurd rfl hnh
    | asleep => rw [hth] at h; cases h
    | exited => rw [hth] at h; cases h
    | opening a b => rw [hth] at ha1; cases ha1
    | returning a b => rw [hth] at ha1; cases ha1
  · rename_i b hp
    obtain ⟨tid, n, h7, rfl⟩ := hl
    have hmf : mutexFree f = false := by simp [mutexFree, hp]
    have hnl : locks f.base.thread = false := by
      rcases ha2 with h | h
      · exact h
      · rw [hmf] at h; cases h
    have hnh : ¬ holds f.base.thread = true := by
      intro hh
      have := hb.owner.2 hh
      cases this
    simp only [Log.step, if_neg hcs, threadStep] at h ⊢
    cases hth : f.base.thread with
    | writing name p l todo done =>
      cases todo with
      | nil =>
        rw [hth] at h
        cases h
        refine ⟨_, rfl, ?_⟩
        simp only [Lag, hp]
        exact ⟨tid, n, h7, rfl⟩
      | cons e todo => rw [hth] at ha1; cases ha1
    | starting => rw [hth] at hnl; cases hnl
    | woken => rw [hth] at hnl; cases hnl
    | checking b => rw [hth] at hnh; exact absurd rfl hnh
    | drowsy => rw [hth] at hnh; exact absurd rfl hnh
    | scanning a b => rw [hth] at hnh; exact absurd rfl hnh
    | asleep => rw [hth] at h; cases h
    | exited => rw [hth] at h; cases h
    | opening a b => rw [hth] at ha1; cases ha1
    | returning a b => rw [hth] at ha1; cases ha1

end Pluto.LogSteps
