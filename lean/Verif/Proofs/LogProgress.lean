import Verif.Proofs.LogWake

/-! # The logger comes to rest -/

namespace Pluto.Log
open Pluto.Spec.Log

/-! ## The logging thread while it writes -/

/-- What is known while the logging thread writes. -/
def Ready (paths : Nat → Path) (s : State) : Phase → Prop
  | .opening _ todo => todo ≠ []
  | .writing name _ _ _ _ => (paths name).dir ∈ s.fs.dirs
  | _ => True

theorem ready_wake {paths : Nat → Path} {s s' : State} {p : Phase} (h : Ready paths s p) (hf : s'.fs = s.fs) :
    Ready paths s' (wake p) := by
  cases p with
  | writing name p l todo done => show _ ∈ _; rw [hf]; exact h
  | _ => exact h

theorem ready {paths : Nat → Path} {σ : Settings} {fs : Fs} {s : State} (h : Reachable paths σ fs s) :
    Ready paths s s.thread := by
  induction h with
  | init => trivial
  | @step s s' ev hr hs ih =>
    have hb := base hr
    have hp := pathsOk hr
    have hsame : ∀ {s' : State}, s'.fs = s.fs → s'.thread = s.thread → Ready paths s' s'.thread := by
      intro s' h1 h2
      rw [h2]
      cases ht : s.thread with
      | writing name p l todo done => rw [ht] at ih; show _ ∈ _; rw [h1]; exact ih
      | opening name todo => rw [ht] at ih; exact ih
      | _ => trivial
    replace hs := (step_cases hs).2
    cases hs with
    | enter i r hi ho =>
      refine hsame ?_ ?_ <;> rcases addLog_cases s r with ⟨heq, -⟩ | ⟨heq, -⟩ <;> rw [heq]
    | notify i hi => exact ready_wake ih rfl
    | setNotify hs => exact ready_wake ih rfl
    | stopNotify hs => exact ready_wake ih rfl
    | scanFull io last w name f ht hn hbuf hf =>
      show f.buffer.reverse ≠ []
      simpa using hbuf
    | openOk io name todo f fs l ht hpr =>
      have hr := hb.range
      rw [ht] at hr
      obtain ⟨g, hg⟩ := Option.isSome_iff_exists.1 hr.1
      rw [hg] at hpr
      obtain ⟨-, -, -, h4⟩ := prepare_cases (hp.known name g hg) hpr
      exact (h4 l rfl).2.2.2
    | writeNext io name p l e todo done fs l' whole ht hw =>
      rw [ht] at ih
      exact ((turn_dirs s.settings io p l name e s.fs fs).1 l' whole hw) ih
    | flush io ios last name f hs hn =>
      obtain ⟨-, -, -, -, -, -, -, -, h3, -, -, -⟩ := flushFile_same paths s io ios name f
      rw [h3]
      rcases hb.ended with ⟨h, -⟩ | h
      · exact absurd hs (h last)
      · rw [h]; trivial
    | callFiltered tid name time level message hs hl => exact ih
    | call tid name time level message hs hc hn ho hl => exact hsame rfl rfl
    | leaveNotify tid name ho hf => exact hsame rfl rfl
    | leave tid name ho hf => exact hsame rfl rfl
    | setFlush x hs => exact hsame rfl rfl
    | set x hs hx => exact hsame rfl rfl
    | reset hs => exact hsame rfl rfl
    | writeCrash io name p l e todo done ht hw => exact hsame rfl rfl
    | stop hs hc hn hset ho => exact hsame rfl rfl
    | join hs ht => exact hsame rfl rfl
    | finish last hs hn => exact hsame rfl rfl
    | _ => trivial

/-- Without failures every iteration goes on to the next entry. -/
theorem turn_next {σ : Settings} {p : Path} {l : Locals} {name : Nat} {e : Entry} {fs : Fs}
    (hσ : GoodWriter σ ∧ ∃ text, σ.headerWriter = .ok text) (hd : p.dir ∈ fs.dirs) :
    ∃ fs' l' whole, turn σ {} p l name e fs = .next fs' l' whole := by
  have hentry : ∀ (l : Locals) fs, ∃ fs' l' whole, turnEntry σ {} p l name e fs = .next fs' l' whole := by
    intro l fs
    obtain ⟨text, ht⟩ := hσ.1 e
    unfold turnEntry
    rw [ht]
    exact ⟨_, _, _, rfl⟩
  have hheader : ∀ (l : Locals) k fs, ∃ fs' l' whole, turnHeader σ {} p l k name e fs = .next fs' l' whole := by
    intro l k fs
    obtain ⟨text, ht⟩ := hσ.2
    unfold turnHeader
    split
    · rw [ht]
      exact hentry _ _
    · exact hentry _ _
  rcases turn_cases σ {} p l name e fs with ⟨-, ht⟩ | ⟨-, -, fs₁, b, hr, hcase⟩
  · rw [ht]; exact hheader ..
  · obtain ⟨k, hk1, hk2⟩ := exists_first fs p
    obtain ⟨fs', h1, h2, -, -⟩ := rotate_spec (f := {}) (limit := σ.fileRotationLimit) rfl rfl hk1 hk2
    rw [h1] at hr
    cases hr
    have hd1 : p.dir ∈ fs₁.dirs := by rw [h2]; exact hd
    rcases hcase with ⟨h, -⟩ | ⟨-, fs₂, r, ho, hcase⟩
    · cases h
    · obtain ⟨fs₃, h3⟩ := openFile_ok hd1
      rw [h3] at ho
      cases ho
      rcases hcase with ⟨h, -⟩ | ⟨-, ht⟩
      · cases h
      · rw [ht]; exact hheader ..

/-! ## The measure -/

/-- Number of entries in all buffers. -/
def total (files : List (Nat × LogFile)) : Nat := (files.map fun x => x.2.buffer.length).sum

theorem total_emplace (files : List (Nat × LogFile)) (n : Nat) : total (emplace n {} files) = total files := by
  induction files with
  | nil => rfl
  | cons x xs ih =>
    unfold emplace
    split
    · simp [total]
    · simp only [total, List.map_cons, List.sum_cons] at ih ⊢
      rw [ih]

theorem emplace_length (files : List (Nat × LogFile)) (n : Nat) (f : LogFile) :
    (emplace n f files).length = files.length + 1 := by
  induction files with
  | nil => rfl
  | cons x xs ih =>
    unfold emplace
    split
    · rfl
    · simp [ih]

theorem total_update_same (files : List (Nat × LogFile)) (n : Nat) (g : LogFile → LogFile)
    (hg : ∀ f, (g f).buffer.length = f.buffer.length) : total (update files n g) = total files := by
  unfold total update
  rw [List.map_map]
  congr 1
  apply List.map_congr_left
  intro x _
  simp only [Function.comp]
  split <;> simp [hg]

theorem update_other {xs : List (Nat × LogFile)} {n : Nat} {g : LogFile → LogFile} (h : ∀ x ∈ xs, x.1 ≠ n) :
    update xs n g = xs := by
  unfold update
  rw [List.map_congr_left (g := id) (fun x hx => by rw [if_neg (h x hx)]; rfl)]
  simp

theorem total_update {files : List (Nat × LogFile)} (hs : Sorted files) {n : Nat} {f : LogFile}
    (hf : find files n = some f) (g : LogFile → LogFile) :
    total (update files n g) + f.buffer.length = total files + (g f).buffer.length := by
  induction files with
  | nil => simp [find] at hf
  | cons x xs ih =>
    replace hs := List.pairwise_cons.1 hs
    rw [find_cons] at hf
    by_cases hx : x.1 = n
    · rw [if_pos hx] at hf
      cases hf
      have : update (x :: xs) n g = (x.1, g x.2) :: xs := by
        have := update_other (g := g) (xs := xs) (n := n) fun y hy => by
          have := hs.1 y hy
          omega
        show (if x.1 = n then _ else _) :: update xs n g = _
        rw [this, if_pos hx]
      rw [this]
      simp only [total, List.map_cons, List.sum_cons]
      omega
    · rw [if_neg hx] at hf
      have := ih hs.2 hf
      have hu : update (x :: xs) n g = x :: update xs n g := by
        show (if x.1 = n then _ else _) :: update xs n g = _
        rw [if_neg hx]
      rw [hu]
      simp only [total, List.map_cons, List.sum_cons] at this ⊢
      omega

theorem le_total {files : List (Nat × LogFile)} {n : Nat} {f : LogFile}
    (hf : find files n = some f) : f.buffer.length ≤ total files := by
  induction files with
  | nil => simp [find] at hf
  | cons x xs ih =>
    rw [find_cons] at hf
    simp only [total, List.map_cons, List.sum_cons] at ih ⊢
    split at hf
    · cases hf; omega
    · have := ih hf; omega

/-- Entries of the buffers that have been passed by `itWritten`. -/
def passedNow : Phase → Nat
  | .writing _ _ _ _ done => done
  | .returning _ done => done
  | _ => 0

/-- What the calls in progress still have to do. -/
def ownerWork : Owner → Nat
  | .producer _ _ => 2
  | _ => 0

/-- Entries to be written, and steps of calls and notifications. -/
def outstanding (s : State) : Nat :=
  (total s.files - passedNow s.thread) + 4 * s.calls.length + ownerWork s.owner + s.notifying.length + s.setters

/-- Bound on the number of log files. -/
def width (s : State) : Nat := s.files.length + s.calls.length

/-- Bound on the steps of the logging thread until it writes an entry or sleeps. -/
def lap (s : State) : Nat :=
  match s.thread with
  | .exited => 0
  | .asleep => 0
  | .drowsy => 1
  | .checking true => 2
  | .scanning last true => 3 + after (fun _ => 1) s.files last
  | .opening _ _ => 2
  | .writing _ _ _ (_ :: _) _ => 1
  | .checking false => 4 + width s
  | .scanning last false => 5 + width s + after (fun _ => 1) s.files last
  | .returning _ _ => 6 + width s + width s
  | .writing _ _ _ [] _ => 7 + width s + width s
  | .starting => 5 + width s
  | .woken => 5 + width s

theorem after_le (files : List (Nat × LogFile)) (last : Option Nat) :
    after (fun _ => 1) files last ≤ files.length := by
  unfold after
  rw [show ((List.filter (past last) files).map fun _ => 1).sum = (List.filter (past last) files).length by simp]
  exact List.length_filter_le ..

theorem lap_le (s : State) : lap s ≤ 7 + width s + width s := by
  have h1 : ∀ last, after (fun _ => 1) s.files last ≤ width s := fun last =>
    Nat.le_trans (after_le s.files last) (by unfold width; omega)
  unfold lap
  split <;> first | omega | (rename_i last _; have := h1 last; omega)

/-- Bound on the steps until the logger is at rest. -/
def restWork (s : State) : Nat := (8 + width s + width s) * outstanding s + lap s

theorem rest_less {s s' : State} (hw : width s' ≤ width s) (ho : outstanding s' < outstanding s) :
    restWork s' < restWork s := by
  unfold restWork
  have h1 := lap_le s'
  have h2 : (8 + width s' + width s') * outstanding s' ≤ (8 + width s + width s) * outstanding s' :=
    Nat.mul_le_mul_right _ (by omega)
  have h3 : (8 + width s + width s) * (outstanding s' + 1) ≤ (8 + width s + width s) * outstanding s :=
    Nat.mul_le_mul_left _ ho
  rw [Nat.mul_add, Nat.mul_one] at h3
  omega

theorem rest_lap {s s' : State} (hw : width s' = width s) (ho : outstanding s' = outstanding s)
    (hl : lap s' < lap s) : restWork s' < restWork s := by
  unfold restWork
  rw [hw, ho]
  omega

theorem passedNow_wake (p : Phase) : passedNow (wake p) = passedNow p := by cases p <;> rfl

/-- What the mutex has to do with the calls in progress. -/
theorem owner_work {s : State} (hb : Base s) : holds s.thread = true → ownerWork s.owner = 0 := by
  intro h
  rw [hb.owner.2 h]
  rfl

/-- Every step of its own brings the logger closer to rest. -/
theorem rest_step {paths : Nat → Path} {σ : Settings} {fs : Fs} {s s' : State} {ev : Event}
    (h : Reachable paths σ fs s) (hσ : Usable s.settings) (ha : s.isLogging = true) (hok : Own ev)
    (hs : step paths s ev = some s') :
    restWork s' < restWork s ∧ s'.settings = s.settings ∧ s'.isLogging = true ∧ s'.stage = s.stage ∧
      s'.crashed = false := by
  have hb := base h
  have hp := pathsOk h
  have hrd := ready h
  have hcr := (step_cases hs).1
  replace hs := (step_cases hs).2
  have howner := owner_work hb
  cases hs with
  | enter i r hi ho =>
    have hi' : i < s.calls.length := (List.getElem?_eq_some_iff.1 hi).1
    have hlen := List.length_eraseIdx_of_lt hi'
    let files := if (find s.files r.name).isNone then emplace r.name {} s.files else s.files
    have htot : total files = total s.files := by
      show total (if _ then _ else _) = _
      split
      · exact total_emplace ..
      · rfl
    have hfl : files.length ≤ s.files.length + 1 := by
      show (if _ then _ else _ : List (Nat × LogFile)).length ≤ _
      split
      · rw [emplace_length]; omega
      · omega
    rcases addLog_cases s r with ⟨heq, -⟩ | ⟨heq, -⟩
    · rw [heq]
      refine ⟨rest_less ?_ ?_, rfl, ha, rfl, hcr⟩
      · simp only [width, update_length, hlen]
        show files.length + _ ≤ _
        omega
      · have hsf : Sorted files := by
          show Sorted (if _ then _ else _)
          split
          · rename_i hn
            exact sorted_emplace hb.sorted (by simpa using hn)
          · exact hb.sorted
        have hff : find files r.name = some ((find s.files r.name).getD {}) := by
          show find (if _ then _ else _) _ = _
          rw [addLog_files, if_pos rfl]
        have := total_update hsf hff fun f => { f with buffer := r.entry :: f.buffer }
        simp only [List.length_cons] at this
        simp only [outstanding, hlen, ho, ownerWork]
        show total (update files r.name _) - _ + _ + _ + _ + _ < _
        omega
    · rw [heq]
      refine ⟨rest_less ?_ ?_, rfl, ha, rfl, hcr⟩
      · simp only [width, hlen]
        show files.length + _ ≤ _
        omega
      · simp only [outstanding, hlen, ho, ownerWork]
        show total files - _ + _ + _ + _ + _ < _
        omega
  | leaveNotify tid name ho hf =>
    refine ⟨rest_less (Nat.le_refl _) ?_, rfl, ha, rfl, hcr⟩
    simp only [outstanding, ho, ownerWork, List.length_append, List.length_singleton]
    omega
  | leave tid name ho hf =>
    refine ⟨rest_less (Nat.le_refl _) ?_, rfl, ha, rfl, hcr⟩
    simp only [outstanding, ho, ownerWork]
    omega
  | notify i hi =>
    refine ⟨rest_less (Nat.le_refl _) ?_, rfl, ha, rfl, hcr⟩
    simp only [outstanding, passedNow_wake, List.length_eraseIdx_of_lt hi]
    omega
  | setNotify hs =>
    refine ⟨rest_less (Nat.le_refl _) ?_, rfl, ha, rfl, hcr⟩
    simp only [outstanding, passedNow_wake]
    omega
  | starting io ht ho =>
    refine ⟨rest_lap rfl ?_ ?_, rfl, ha, rfl, hcr⟩
    · simp [outstanding, ht, ho, ownerWork, passedNow]
    · simp only [lap, ht, width]; omega
  | woken io ht ho =>
    refine ⟨rest_lap rfl ?_ ?_, rfl, ha, rfl, hcr⟩
    · simp [outstanding, ht, ho, ownerWork, passedNow]
    · simp only [lap, ht, width]; omega
  | checkWait io ht hl =>
    refine ⟨rest_lap rfl ?_ ?_, rfl, ha, rfl, hcr⟩
    · simp [outstanding, ht, passedNow]
    · simp only [lap, ht]; omega
  | checkScan io ht hl =>
    refine ⟨rest_lap rfl ?_ ?_, rfl, ha, rfl, hcr⟩
    · simp [outstanding, ht, passedNow]
    · simp only [lap, ht, after_one, width]; omega
  | checkExit io w ht hl => rw [ha] at hl; cases hl
  | drowse io ht =>
    refine ⟨rest_lap rfl ?_ ?_, rfl, ha, rfl, hcr⟩
    · simp [outstanding, ht, passedNow, howner (by rw [ht]; rfl)]; rfl
    · simp only [lap, ht]; omega
  | scanEnd io last w ht hn =>
    refine ⟨rest_lap rfl ?_ ?_, rfl, ha, rfl, hcr⟩
    · simp [outstanding, ht, passedNow]
    · cases w
      · simp only [lap, ht, width]; omega
      · simp only [lap, ht]; omega
  | scanFull io last w name f ht hn hbuf hf =>
    refine ⟨rest_lap rfl ?_ ?_, rfl, ha, rfl, hcr⟩
    · simp [outstanding, ht, passedNow, howner (by rw [ht]; rfl)]; rfl
    · cases w <;> simp only [lap, ht] <;> omega
  | scanSkip io last w name f ht hn hf =>
    have := after_next (w := fun _ => 1) hb.sorted hn
    refine ⟨rest_lap rfl ?_ ?_, rfl, ha, rfl, hcr⟩
    · simp [outstanding, ht, passedNow]
    · cases w
      · simp only [lap, ht, width]; omega
      · simp only [lap, ht]; omega
  | openOk io name todo f fs l ht hpr =>
    rw [ht] at hrd
    refine ⟨rest_lap ?_ ?_ ?_, rfl, ha, rfl, hcr⟩
    · simp [width, update_length]
    · simp only [outstanding, ht, passedNow]
      rw [total_update_same _ _ _ (by intro g; rfl)]
    · cases todo with
      | nil => exact absurd rfl hrd
      | cons e todo => simp only [lap, ht]; omega
  | openFail io name todo f fs ht hpr =>
    exfalso
    have hr := hb.range
    rw [ht] at hr
    obtain ⟨g, hg⟩ := Option.isSome_iff_exists.1 hr.1
    rw [hg] at hpr
    obtain ⟨f', fs', h1, -⟩ := prepare_ok (hp.known name g hg) hσ.2.2 (hp.dirs name g hg)
    cases hok
    rw [Option.getD_some, h1] at hpr
    cases hpr
  | writeDone io name p l done ht =>
    refine ⟨rest_lap rfl ?_ ?_, rfl, ha, rfl, hcr⟩
    · simp [outstanding, ht, passedNow]
    · simp only [lap, ht, width]; omega
  | writeNext io name p l e todo done fs l' whole ht hw =>
    have hr := hb.range
    rw [ht] at hr
    obtain ⟨g, hg⟩ := Option.isSome_iff_exists.1 hr.1
    have h1 := le_total hg
    have h2 := hr.2.2.length_le
    have h3 : (buffered s name).length = g.buffer.length := by unfold buffered; simp [hg]
    rw [List.length_cons, List.length_drop, h3] at h2
    refine ⟨rest_less (Nat.le_refl _) ?_, rfl, ha, rfl, hcr⟩
    simp only [outstanding, ht, passedNow]
    omega
  | writeBefore io name p l e todo done fs ht hw =>
    exfalso
    cases hok
    rw [ht] at hrd
    obtain ⟨fs', l', w, h1⟩ := turn_next (l := l) (name := name) (e := e) ⟨hσ.1, hσ.2.1⟩ hrd
    rw [hp.writing _ _ _ _ _ ht, h1] at hw
    cases hw
  | writeAfter io name p l e todo done fs ht hw =>
    exfalso
    cases hok
    rw [ht] at hrd
    obtain ⟨fs', l', w, h1⟩ := turn_next (l := l) (name := name) (e := e) ⟨hσ.1, hσ.2.1⟩ hrd
    rw [hp.writing _ _ _ _ _ ht, h1] at hw
    cases hw
  | writeCrash io name p l e todo done ht hw =>
    exfalso
    cases hok
    rw [ht] at hrd
    obtain ⟨fs', l', w, h1⟩ := turn_next (l := l) (name := name) (e := e) ⟨hσ.1, hσ.2.1⟩ hrd
    rw [hp.writing _ _ _ _ _ ht, h1] at hw
    cases hw
  | erase io name done ht ho =>
    have hr := hb.range
    rw [ht] at hr
    obtain ⟨g, hg⟩ := Option.isSome_iff_exists.1 hr.1
    have h1 := le_total hg
    have h3 : (buffered s name).length = g.buffer.length := by unfold buffered; simp [hg]
    have h2 := hr.2
    rw [h3] at h2
    have htu := total_update hb.sorted hg fun f => { f with buffer := f.buffer.take (f.buffer.length - done) }
    simp only [List.length_take] at htu
    refine ⟨rest_lap ?_ ?_ ?_, rfl, ha, rfl, hcr⟩
    · simp [width, update_length]
    · simp only [outstanding, ht, passedNow, ho, ownerWork]
      omega
    · simp only [lap, ht, width, update_length, after_update]
      have := after_le s.files (some name)
      omega
  | _ => exact absurd hok id

/-- Runs of the logger's own steps are finite. -/
theorem rest_run {paths : Nat → Path} {σ : Settings} {fs : Fs} {s s' : State} {evs : List Event}
    (h : Reachable paths σ fs s) (hσ : Usable s.settings) (ha : s.isLogging = true) (hok : ∀ ev ∈ evs, Own ev)
    (hr : run paths s evs = some s') :
    evs.length + restWork s' ≤ restWork s ∧ s'.settings = s.settings ∧ s'.isLogging = true ∧
      s'.stage = s.stage ∧ (s.crashed = false → s'.crashed = false) := by
  induction evs generalizing s with
  | nil => cases hr; exact ⟨by simp, rfl, ha, rfl, id⟩
  | cons ev evs ih =>
    simp only [run] at hr
    cases hs : step paths s ev with
    | none => rw [hs] at hr; cases hr
    | some s₁ =>
      rw [hs] at hr
      obtain ⟨h1, h2, h3, h4, h5⟩ := rest_step h hσ ha (hok ev (List.mem_cons_self ..)) hs
      obtain ⟨h6, h7, h8, h9, h10⟩ := ih (.step ev h hs) (h2 ▸ hσ) h3
        (fun ev hm => hok ev (List.mem_cons_of_mem _ hm)) hr
      refine ⟨?_, h7.trans h2, h8, h9.trans h4, fun _ => h10 h5⟩
      rw [List.length_cons]
      omega

/-- At rest: the logger can do nothing by itself. -/
theorem rest_state {paths : Nat → Path} {σ : Settings} {fs : Fs} {s : State}
    (h : Reachable paths σ fs s) (ha : s.isLogging = true) (hcr : s.crashed = false)
    (hr : ∀ ev, Own ev → step paths s ev = none) :
    s.calls = [] ∧ s.notifying = [] ∧ s.setters = 0 ∧ s.owner = .free ∧ (s.thread = .asleep ∨ s.thread = .exited) := by
  have hb := base h
  have hthread : threadStep paths s {} = none := by
    have := hr (.thread {}) rfl
    unfold step at this
    simpa [hcr] using this
  have hfree : s.owner = .free := by
    cases ho : s.owner with
    | free => rfl
    | producer tid name =>
      have := hr .leave trivial
      unfold step at this
      rw [hcr, ho] at this
      simp only [Bool.false_eq_true, if_false] at this
      split at this <;> cases this
    | logging =>
      exfalso
      have hh := hb.owner.1 ho
      unfold threadStep at hthread
      cases ht : s.thread with
      | checking w => rw [ht, ha] at hthread; cases w <;> simp at hthread
      | drowsy => rw [ht] at hthread; cases hthread
      | scanning last w =>
        rw [ht] at hthread
        simp only at hthread
        split at hthread
        · cases hthread
        · split at hthread <;> cases hthread
      | _ => rw [ht] at hh; cases hh
  refine ⟨?_, ?_, ?_, hfree, ?_⟩
  · cases hc : s.calls with
    | nil => rfl
    | cons r rs =>
      have := hr (.enter 0) trivial
      unfold step at this
      simp [hcr, hc, hfree] at this
  · cases hc : s.notifying with
    | nil => rfl
    | cons r rs =>
      have := hr (.notify 0) trivial
      unfold step at this
      simp [hcr, hc] at this
  · have := hr .setNotify trivial
    unfold step at this
    simp only [hcr, Bool.false_eq_true, if_false] at this
    split at this
    · cases this
    · omega
  · have hnl : holds s.thread = false := by
      cases hh : holds s.thread with
      | false => rfl
      | true => rw [hb.owner.2 hh] at hfree; cases hfree
    unfold threadStep at hthread
    cases ht : s.thread with
    | asleep => exact .inl rfl
    | exited => exact .inr rfl
    | starting => rw [ht] at hthread; simp [hfree] at hthread
    | woken => rw [ht] at hthread; simp [hfree] at hthread
    | returning name done => rw [ht] at hthread; simp [hfree] at hthread
    | opening name todo =>
      rw [ht] at hthread
      simp only at hthread
      split at hthread <;> cases hthread
    | writing name p l todo done =>
      rw [ht] at hthread
      simp only at hthread
      split at hthread
      · cases hthread
      · split at hthread <;> cases hthread
    | _ => rw [ht] at hnl; cases hnl

/-- The logging thread ends only when the destructor has begun. -/
theorem not_exited {paths : Nat → Path} {σ : Settings} {fs : Fs} {s : State} (h : Reachable paths σ fs s) :
    s.isLogging = true → s.thread ≠ .exited := by
  induction h with
  | init => intro _; simp [init]
  | @step s s' ev hr hs ih =>
    have hcl := closing hr
    replace hs := (step_cases hs).2
    cases hs with
    | enter i r hi ho => rcases addLog_cases s r with ⟨heq, -⟩ | ⟨heq, -⟩ <;> rw [heq] <;> exact ih
    | checkExit io w ht hl => intro h; rw [hl] at h; cases h
    | stop hs hc hn hset ho => intro h; cases h
    | flush io ios last name f hs hn =>
      obtain ⟨-, -, -, -, -, -, -, h2, h3, -⟩ := flushFile_same paths s io ios name f
      rw [h2, h3]
      exact ih
    | notify i hi => intro h; show wake _ ≠ _; rw [Ne, wake_eq_exited]; exact ih h
    | setNotify hs => intro h; show wake _ ≠ _; rw [Ne, wake_eq_exited]; exact ih h
    | stopNotify hs => intro h; show wake _ ≠ _; rw [Ne, wake_eq_exited]; exact ih h
    | starting | checkWait | checkScan | drowse | woken | scanEnd | scanFull | scanSkip | openOk | openFail
    | writeDone | writeNext | writeBefore | writeAfter | erase | spurious => intro _; simp
    | _ => exact ih

end Pluto.Log
