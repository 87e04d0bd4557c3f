import Verif.Proofs.LogOutside

/-! # Proofs that the logging thread gets its work done when others let it -/

namespace Pluto.LogOutside
open Pluto.LogShare (Config Pc Stream set tell)

/-- The logging thread goes on for some steps. -/
inductive Goes (cfg : Config) : State → State → Prop where
  | refl (s : State) : Goes cfg s s
  | step {s s' s'' : State} : go cfg s = some s' → Goes cfg s' s'' → Goes cfg s s''

section
variable {cfg : Config} {s s' s'' : State}

theorem Goes.trans (h : Goes cfg s s') (h' : Goes cfg s' s'') : Goes cfg s s'' := by
  induction h with
  | refl => exact h'
  | step h _ ih => exact .step h (ih h')

theorem Goes.one (h : go cfg s = some s') : Goes cfg s s' := .step h (.refl _)

theorem Goes.run (h : Goes cfg s s') : ∃ n, run cfg s (List.replicate n .go) = some s' := by
  induction h with
  | refl => exact ⟨0, rfl⟩
  | step h _ ih =>
    obtain ⟨n, hn⟩ := ih
    refine ⟨n + 1, ?_⟩
    rw [List.replicate_succ]
    simp only [LogOutside.run, LogOutside.step, h]
    exact hn

theorem Goes.names (h : Goes cfg s s') (I : Names s) : Names s' := by
  induction h with
  | refl => exact I
  | step h _ ih => exact ih (names_go I h)

theorem Goes.shape (h : Goes cfg s s') (I : Shape s) : Shape s' := by
  induction h with
  | refl => exact I
  | step h _ ih => exact ih (shape_go I h)

theorem Goes.lines (h : Goes cfg s s') : lines s' ++ s'.queue = lines s ++ s.queue ∧ s'.logged = s.logged := by
  induction h with
  | refl => exact ⟨rfl, rfl⟩
  | step h _ ih => exact ⟨ih.1.trans (go_lines h).1, ih.2.trans (go_lines h).2⟩

/-- What rotation does not change. -/
structure Frame (s s' : State) : Prop where
  there : s'.fs.there = s.fs.there
  createDirs : s'.createDirs = s.createDirs
  dirsCreated : s'.dirsCreated = s.dirsCreated
  queue : s'.queue = s.queue
  left : s'.left = s.left

theorem Frame.rfl' : Frame s s := ⟨rfl, rfl, rfl, rfl, rfl⟩

theorem Frame.trans (h : Frame s s') (h' : Frame s' s'') : Frame s s'' :=
  ⟨h'.there.trans h.there, h'.createDirs.trans h.createDirs, h'.dirsCreated.trans h.dirsCreated, h'.queue.trans h.queue,
    h'.left.trans h.left⟩

/-- The first loop of `rotate_file` ends. -/
theorem scan_goes (m : Nat) : ∀ {s : State} {k num : Nat}, (∀ j, k + m ≤ j → s.fs.entry (.own j) = none) → s.pc = .scan k num →
    s.stream = none → ∃ s' n, Goes cfg s s' ∧ s'.pc = .rename n ∧ s'.stream = none ∧ Frame s s' ∧
      (num = min k cfg.rotationLimit → (∀ j, j < num → s.fs.entry (.own j) ≠ none) → ∀ j, j < n → s'.fs.entry (.own j) ≠ none) := by
  have stop : ∀ {s : State} {k num : Nat}, s.fs.entry (.own k) = none → s.pc = .scan k num →
    s.stream = none → ∃ s' n, Goes cfg s s' ∧ s'.pc = .rename n ∧ s'.stream = none ∧ Frame s s' ∧
      (num = min k cfg.rotationLimit → (∀ j, j < num → s.fs.entry (.own j) ≠ none) → ∀ j, j < n → s'.fs.entry (.own j) ≠ none) := by
    intro s k num hk hpc hst
    refine ⟨{ s with pc := .rename num }, num, .one ?_, rfl, hst, ⟨rfl, rfl, rfl, rfl, rfl⟩, fun _ h => h⟩
    simp only [go, hpc, hst, hk, if_true]
  induction m with
  | zero => exact fun hK hpc hst => stop (hK _ (Nat.le_refl _)) hpc hst
  | succ m ih =>
    intro s k num hK hpc hst
    by_cases hk : s.fs.entry (.own k) = none
    · exact stop hk hpc hst
    · by_cases hl : k < cfg.rotationLimit
      · obtain ⟨s', n, h1, h2, h3, h4, h5⟩ := ih (s := { s with pc := .scan (k + 1) (num + 1) }) (k := k + 1) (num := num + 1)
          (fun j hj => hK j (by omega)) rfl hst
        refine ⟨s', n, .step ?_ h1, h2, h3, ⟨h4.there, h4.createDirs, h4.dirsCreated, h4.queue, h4.left⟩, fun hn hj => h5 (by omega) fun j hj' => ?_⟩
        · simp only [go, hpc, hst, hk, if_false, hl, if_true]
        · by_cases e : j = k
          · rw [e]; exact hk
          · exact hj j (by omega)
      · obtain ⟨s', n, h1, h2, h3, h4, h5⟩ := ih (s := { s with fs := link s.fs (.own k) none, pc := .scan (k + 1) num })
          (k := k + 1) (num := num) (fun j hj => by
            show (if _ then _ else _) = _
            split
            · rfl
            · exact hK j (by omega)) rfl hst
        refine ⟨s', n, .step ?_ h1, h2, h3, ⟨h4.there, h4.createDirs, h4.dirsCreated, h4.queue, h4.left⟩, fun hn hj => h5 (by omega) fun j hj' => ?_⟩
        · simp only [go, hpc, hst, hk, if_false, hl]
        · show (if _ then _ else _) ≠ _
          rw [if_neg (by intro h; cases h; omega)]
          exact hj j hj'

/-- The second loop of `rotate_file` ends, or throws. -/
theorem rename_goes (n : Nat) : ∀ {s : State}, s.pc = .rename n → s.stream = none →
    ∃ s', Goes cfg s s' ∧ s'.stream = none ∧ Frame s s' ∧ (s'.pc = .idle ∨ s'.pc = .reopen) ∧
      ((∀ j, j < n → s.fs.entry (.own j) ≠ none) → s'.pc = .reopen) := by
  induction n with
  | zero =>
    intro s hpc hst
    refine ⟨{ s with pc := .reopen }, .one ?_, hst, ⟨rfl, rfl, rfl, rfl, rfl⟩, .inr rfl, fun _ => rfl⟩
    simp only [go, hpc, hst]
  | succ n ih =>
    intro s hpc hst
    cases hd : s.fs.entry (.own n) with
    | none =>
      refine ⟨{ s with pc := .idle }, .one ?_, hst, ⟨rfl, rfl, rfl, rfl, rfl⟩, .inl rfl, fun h => (h n (by omega) hd).elim⟩
      simp only [go, hpc, hst, hd]
    | some d =>
      obtain ⟨s', h1, h2, h3, h4, h5⟩ :=
        ih (s := { s with fs := link (link s.fs (.own n) none) (.own (n + 1)) (some d), pc := .rename n }) rfl hst
      refine ⟨s', .step ?_ h1, h2, ⟨h3.there, h3.createDirs, h3.dirsCreated, h3.queue, h3.left⟩, h4, fun h => h5 fun j hj => ?_⟩
      · simp only [go, hpc, hst, hd]
      · simp only [link_entry]
        rw [if_neg (by intro h; cases h; omega), if_neg (by intro h; cases h; omega)]
        exact h j (by omega)

theorem openFile_there {fs : Fs} (h : fs.there = true) : ∃ x, openFile fs = some x := by
  unfold openFile
  split
  · exact ⟨_, rfl⟩
  · rw [if_pos h]; exact ⟨_, rfl⟩

theorem openFile_frame {fs fs' : Fs} {st : Stream} (h : openFile fs = some (fs', st)) : fs'.there = fs.there := by
  rcases openFile_cases h with ⟨d, h1, rfl, rfl⟩ | ⟨h1, h2, rfl, rfl⟩ <;> rfl

/-- A line is put into the stream. -/
theorem putLine_frame (st : Stream) (line : List Char) (rest : List (List Char)) :
    (putLine cfg s st line rest).fs = s.fs ∧ (putLine cfg s st line rest).createDirs = s.createDirs ∧
      (putLine cfg s st line rest).dirsCreated = s.dirsCreated := by
  unfold putLine
  split
  · split <;> simp
  · simp

/-- `s'` is `s` after one more entry. -/
structure Next (s s' : State) : Prop where
  pc : s'.pc = .turn
  stream : s'.stream ≠ none
  there : s'.fs.there = s.fs.there
  createDirs : s'.createDirs = s.createDirs
  dirsCreated : s'.dirsCreated = s.dirsCreated
  queue : s'.queue = s.queue.drop 1
  left : s'.left = s.left - 1

theorem next_put {st : Stream} {line : List Char} {rest : List (List Char)} (hq : s.queue = line :: rest) :
    Next s (putLine cfg s st line rest) := by
  obtain ⟨h1, h2, h3, h4⟩ := putLine_shape (cfg := cfg) (s := s) st line rest
  obtain ⟨h5, h6, h7⟩ := putLine_frame (cfg := cfg) (s := s) st line rest
  exact ⟨h1, h2, by rw [h5], h6, h7, by rw [h4, hq]; rfl, h3⟩

theorem Next.of_frame (h : Frame s s') (h' : Next s' s'') : Next s s'' :=
  ⟨h'.pc, h'.stream, h'.there.trans h.there, h'.createDirs.trans h.createDirs, h'.dirsCreated.trans h.dirsCreated,
    h'.queue.trans (by rw [h.queue]), h'.left.trans (by rw [h.left])⟩

theorem after_goes (I : Shape s) (hpc : s.pc = .after) : ∃ s', Goes cfg s s' ∧ Next s s' := by
  unfold Shape at I
  rw [hpc] at I
  obtain ⟨h1, h2, h3⟩ := I
  cases hst : s.stream with
  | none => exact (h1 hst).elim
  | some st =>
    cases hq : s.queue with
    | nil => rw [hq] at h3; simp at h3; exact (h2 h3).elim
    | cons line rest =>
      refine ⟨_, .one ?_, next_put (cfg := cfg) (st := st) hq⟩
      simp only [go, hpc, hst, hq]

/-- What becomes of a batch whose file has to be rotated. -/
def Result (s s' : State) : Prop := (s'.pc = .idle ∧ Frame s s') ∨ Next s s'

theorem reopen_goes (I : Shape s) (hpc : s.pc = .reopen) :
    ∃ s', Goes cfg s s' ∧ Result s s' ∧ (s.fs.there = true → Next s s') := by
  have I' := I
  unfold Shape at I'
  rw [hpc] at I'
  cases ho : openFile s.fs with
  | none =>
    refine ⟨{ s with pc := .idle }, .one ?_, .inl ⟨rfl, ⟨rfl, rfl, rfl, rfl, rfl⟩⟩, fun h => ?_⟩
    · simp only [go, hpc, I'.1, ho]
    · obtain ⟨x, hx⟩ := openFile_there h
      rw [ho] at hx
      cases hx
  | some x =>
    obtain ⟨fs, st⟩ := x
    have hg : go cfg s = some { s with fs := fs, pc := .after, stream := some st } := by simp only [go, hpc, I'.1, ho]
    obtain ⟨s', h1, h2⟩ := after_goes (cfg := cfg) (shape_go I hg) rfl
    have : Next s s' := ⟨h2.pc, h2.stream, h2.there.trans (openFile_frame ho), h2.createDirs, h2.dirsCreated, h2.queue, h2.left⟩
    exact ⟨s', .step hg h1, .inr this, fun _ => this⟩

theorem Result.of_frame (h : Frame s s') (h' : Result s' s'') : Result s s'' := by
  rcases h' with ⟨h1, h2⟩ | h1
  · exact .inl ⟨h1, h.trans h2⟩
  · exact .inr (Next.of_frame h h1)

theorem renames_goes (I : Shape s) {n : Nat} (hpc : s.pc = .rename n) :
    ∃ s', Goes cfg s s' ∧ Result s s' ∧ (s.fs.there = true → (∀ j, j < n → s.fs.entry (.own j) ≠ none) → Next s s') := by
  have hst : s.stream = none := by unfold Shape at I; rw [hpc] at I; exact I.1
  obtain ⟨s₁, h1, h2, h3, h4, h5⟩ := rename_goes (cfg := cfg) n hpc hst
  rcases h4 with h4 | h4
  · refine ⟨s₁, h1, .inl ⟨h4, h3⟩, fun _ h => ?_⟩
    rw [h5 h] at h4
    cases h4
  · obtain ⟨s₂, h6, h7, h8⟩ := reopen_goes (cfg := cfg) (h1.shape I) h4
    exact ⟨s₂, h1.trans h6, .of_frame h3 h7, fun ht _ => .of_frame h3 (h8 (by rw [h3.there]; exact ht))⟩

theorem rotate_goes (I : Shape s) (N : Names s) {k num : Nat} (hpc : s.pc = .scan k num) :
    ∃ s', Goes cfg s s' ∧ Result s s' ∧ (s.fs.there = true → k = 0 → num = 0 → Next s s') := by
  have hst : s.stream = none := by unfold Shape at I; rw [hpc] at I; exact I.1
  obtain ⟨K, hK⟩ := N.finite
  obtain ⟨s₁, n, h1, h2, h3, h4, h5⟩ := scan_goes (cfg := cfg) K (fun j hj => hK j (by omega)) hpc hst
  obtain ⟨s₂, h6, h7, h8⟩ := renames_goes (cfg := cfg) (h1.shape I) h2
  refine ⟨s₂, h1.trans h6, .of_frame h4 h7, fun ht hk hn => .of_frame h4 (h8 (by rw [h4.there]; exact ht) (h5 ?_ ?_))⟩
  · omega
  · intro j hj; omega

/-- One iteration of the loop in line 841. -/
theorem iteration_goes (I : Shape s) (N : Names s) (hpc : s.pc = .turn) (hl : s.left ≠ 0) :
    ∃ s', Goes cfg s s' ∧ Result s s' ∧ (s.fs.there = true → Next s s') := by
  have I' := I
  unfold Shape at I'
  rw [hpc] at I'
  cases hst : s.stream with
  | none => exact (I'.1 hst).elim
  | some st =>
    obtain ⟨m, hm⟩ := Nat.exists_eq_succ_of_ne_zero hl
    cases hq : s.queue with
    | nil => rw [hq, hm] at I'; simp at I'
    | cons line rest =>
      by_cases hc : cfg.rotationSize ≠ 0 ∧ cfg.rotationSize ≤ tell st
      · have hg : go cfg s = some { s with fs := (flush s.fs st.pend.length st).1, pc := .scan 0 0, stream := none } := by
          simp only [go, hpc, hst, hm, hq, if_pos hc]
        obtain ⟨s', h1, h2, h3⟩ := rotate_goes (cfg := cfg) (shape_go I hg) (names_go N hg) rfl
        have hf : Frame s { s with fs := (flush s.fs st.pend.length st).1, pc := .scan 0 0, stream := none } := ⟨rfl, rfl, rfl, rfl, rfl⟩
        exact ⟨s', .step hg h1, .of_frame hf h2, fun h => .of_frame hf (h3 h rfl rfl)⟩
      · have hg : go cfg s = some (putLine cfg s st line rest) := by simp only [go, hpc, hst, hm, hq, if_neg hc]
        exact ⟨_, .one hg, .inr (next_put hq), fun _ => next_put hq⟩

/-- A batch is written, or opening the file again fails. -/
theorem batch_goes (n : Nat) : ∀ {s : State}, Shape s → Names s → s.pc = .turn → s.left = n →
    ∃ s', Goes cfg s s' ∧ s'.pc = .idle ∧ (Usable s → Usable s') ∧ (s.fs.there = true → s'.queue = s.queue.drop n) := by
  induction n with
  | zero =>
    intro s I N hpc hl
    have I' := I
    unfold Shape at I'
    rw [hpc] at I'
    cases hst : s.stream with
    | none => exact (I'.1 hst).elim
    | some st =>
      refine ⟨{ s with fs := (flush s.fs st.pend.length st).1, pc := .idle, stream := none }, .one ?_, rfl, fun h => h, fun _ => rfl⟩
      simp only [go, hpc, hst, hl]
  | succ n ih =>
    intro s I N hpc hl
    obtain ⟨s₁, h1, h2, h3⟩ := iteration_goes (cfg := cfg) I N hpc (by omega)
    by_cases hn : Next s s₁
    · obtain ⟨s₂, h4, h5, h6, h7⟩ := ih (h1.shape I) (h1.names N) hn.pc (by rw [hn.left]; omega)
      refine ⟨s₂, h1.trans h4, h5, fun h => h6 ?_, fun h => ?_⟩
      · unfold Usable
        rw [hn.there, hn.createDirs, hn.dirsCreated]
        exact h
      · rw [h7 (by rw [hn.there]; exact h), hn.queue, List.drop_drop, Nat.add_comm]
    · rcases h2 with ⟨h2, hf⟩ | h2
      · refine ⟨s₁, h1, h2, fun h => ?_, fun h => (hn (h3 h)).elim⟩
        unfold Usable
        rw [hf.there, hf.createDirs, hf.dirsCreated]
        exact h
      · exact (hn h2).elim

theorem turn_or_idle (I : Shape s) (N : Names s) : ∃ s', Goes cfg s s' ∧ (s'.pc = .idle ∨ s'.pc = .turn) ∧ (Usable s → Usable s') := by
  have key : ∀ {s'}, Goes cfg s s' → Result s s' → ∃ s', Goes cfg s s' ∧ (s'.pc = .idle ∨ s'.pc = .turn) ∧ (Usable s → Usable s') := by
    intro s' h1 h2
    refine ⟨s', h1, h2.imp (·.1) (·.pc), fun h => ?_⟩
    unfold Usable
    rcases h2 with ⟨-, hf⟩ | hf <;> rw [hf.there, hf.createDirs, hf.dirsCreated] <;> exact h
  cases hpc : s.pc with
  | idle => exact ⟨s, .refl s, .inl hpc, id⟩
  | turn => exact ⟨s, .refl s, .inr hpc, id⟩
  | scan k num => obtain ⟨s', h1, h2, -⟩ := rotate_goes (cfg := cfg) I N hpc; exact key h1 h2
  | rename n => obtain ⟨s', h1, h2, -⟩ := renames_goes (cfg := cfg) I hpc; exact key h1 h2
  | reopen => obtain ⟨s', h1, h2, -⟩ := reopen_goes (cfg := cfg) I hpc; exact key h1 h2
  | after => obtain ⟨s', h1, h2⟩ := after_goes (cfg := cfg) I hpc; exact key h1 (.inr h2)

theorem idle_goes (I : Shape s) (N : Names s) (hpc : s.pc = .idle) (hu : Usable s) :
    ∃ s', Goes cfg s s' ∧ s'.pc = .idle ∧ s'.queue = [] := by
  have hst : s.stream = none := by unfold Shape at I; rw [hpc] at I; exact I
  cases hq : s.queue with
  | nil => exact ⟨s, .refl s, hpc, hq⟩
  | cons line rest =>
    have ht : (makeDirs s).fs.there = true := by
      unfold makeDirs
      split
      · rfl
      · rename_i hc
        exact hu.resolve_right hc
    obtain ⟨⟨fs, st⟩, ho⟩ := openFile_there ht
    have hg : go cfg s = some { makeDirs s with fs := fs, pc := .turn, stream := some st, left := (line :: rest).length } := by
      simp only [go, hpc, hst, hq, ho]
    obtain ⟨s', h1, h2, -, h3⟩ := batch_goes (cfg := cfg) _ (shape_go I hg) (names_go N hg) rfl rfl
    refine ⟨s', .step hg h1, h2, ?_⟩
    rw [h3 (by rw [← ht]; exact openFile_frame ho)]
    obtain ⟨-, -, -, -, -, m6, -⟩ := makeDirs_same s
    show List.drop _ (makeDirs s).queue = []
    rw [m6, hq]
    exact List.drop_length

theorem all_goes (I : Shape s) (N : Names s) (hu : Usable s) : ∃ s', Goes cfg s s' ∧ s'.stream = none ∧ s'.queue = [] := by
  have last : ∀ {s₁}, Goes cfg s s₁ → s₁.pc = .idle → Usable s₁ → ∃ s', Goes cfg s s' ∧ s'.stream = none ∧ s'.queue = [] := by
    intro s₁ h1 h2 h3
    obtain ⟨s₂, h4, h5, h6⟩ := idle_goes (cfg := cfg) (h1.shape I) (h1.names N) h2 h3
    refine ⟨s₂, h1.trans h4, ?_, h6⟩
    have := (h1.trans h4).shape I
    unfold Shape at this
    rw [h5] at this
    exact this
  obtain ⟨s₁, h1, h2 | h2, h3⟩ := turn_or_idle (cfg := cfg) I N
  · exact last h1 h2 (h3 hu)
  · obtain ⟨s₂, h4, h5, h6, -⟩ := batch_goes (cfg := cfg) _ (h1.shape I) (h1.names N) h2 rfl
    exact last (h1.trans h4) h5 (h6 (h3 hu))

/-! ## Where the entries are -/

theorem batch_put (h0 : cfg.rotationSize = 0) (n : Nat) : ∀ {s : State} {st : Stream}, s.pc = .turn → s.stream = some st → s.left = n →
    n ≤ s.queue.length → ∃ s' x, Goes cfg s s' ∧ s'.pc = .idle ∧ s'.stream = none ∧ s'.queue = s.queue.drop n ∧
      s'.fs.entry = s.fs.entry ∧ s'.put = s.put ++ x ∧ (∀ y ∈ x, y.1 = st.file) ∧
      (x.filter fun y => !y.2.1) = (s.queue.take n).map fun line => (st.file, false, line) := by
  induction n with
  | zero =>
    intro s st hpc hst hl hn
    refine ⟨{ s with fs := (flush s.fs st.pend.length st).1, pc := .idle, stream := none }, [], .one ?_, rfl, rfl, rfl, rfl,
      (List.append_nil _).symm, by simp, rfl⟩
    simp only [go, hpc, hst, hl]
  | succ n ih =>
    intro s st hpc hst hl hn
    cases hq : s.queue with
    | nil => rw [hq] at hn; simp at hn
    | cons line rest =>
      have hg : go cfg s = some (putLine cfg s st line rest) := by
        simp only [go, hpc, hst, hl, hq, h0, ne_eq, not_true, false_and, if_false]
      obtain ⟨h1, h2, h3, h4⟩ := putLine_shape (cfg := cfg) (s := s) st line rest
      obtain ⟨st', x, h5, h6, h7, h8, h9⟩ := putLine_put (cfg := cfg) (s := s) st line rest
      obtain ⟨s', y, k1, k2, k3, k4, k5, k6, k7, k8⟩ := ih h1 h5 (by rw [h3]; omega) (by rw [h4]; rw [hq] at hn; simp at hn; exact hn)
      refine ⟨s', x ++ y, .step hg k1, k2, k3, by rw [k4, h4]; rfl, by rw [k5, putLine_fs], by rw [k6, h7, List.append_assoc], ?_, ?_⟩
      · intro z hz
        rcases List.mem_append.1 hz with hz | hz
        · exact h8 z hz
        · rw [← h6]; exact k7 z hz
      · rw [List.filter_append, h9, k8, h4, h6]
        rfl

theorem idle_put (h0 : cfg.rotationSize = 0) (hpc : s.pc = .idle) (hst : s.stream = none) (hu : Usable s) (hq : s.queue ≠ []) :
    ∃ s' x d, Goes cfg s s' ∧ s'.stream = none ∧ s'.queue = [] ∧ s'.fs.entry (.own 0) = some d ∧ s'.put = s.put ++ x ∧
      (∀ y ∈ x, y.1 = d) ∧ (x.filter fun y => !y.2.1) = s.queue.map fun line => (d, false, line) := by
  cases hq' : s.queue with
  | nil => exact (hq hq').elim
  | cons line rest =>
    have ht : (makeDirs s).fs.there = true := by
      unfold makeDirs
      split
      · rfl
      · rename_i hc
        exact hu.resolve_right hc
    obtain ⟨-, -, -, -, m5, m6, -⟩ := makeDirs_same s
    obtain ⟨⟨fs, st⟩, ho⟩ := openFile_there ht
    have hg : go cfg s = some { makeDirs s with fs := fs, pc := .turn, stream := some st, left := (line :: rest).length } := by
      simp only [go, hpc, hst, hq', ho]
    obtain ⟨s', x, h1, -, h2, h3, h4, h5, h6, h7⟩ := batch_put h0 _ (s := { makeDirs s with fs := fs, pc := .turn, stream := some st, left := (line :: rest).length })
      rfl rfl rfl (by show _ ≤ (makeDirs s).queue.length; rw [m6, hq']; exact Nat.le_refl _)
    refine ⟨s', x, st.file, .step hg h1, h2, ?_, ?_, ?_, h6, ?_⟩
    · rw [h3]
      show List.drop _ (makeDirs s).queue = []
      rw [m6, hq']
      exact List.drop_length
    · rw [h4]
      show fs.entry _ = _
      rcases openFile_cases ho with ⟨d, h8, rfl, rfl⟩ | ⟨h8, h9, rfl, rfl⟩
      · exact h8
      · simp [create, link]
    · rw [h5]
      show (makeDirs s).put ++ x = _
      rw [m5]
    · rw [h7]
      show (List.take _ (makeDirs s).queue).map _ = _
      rw [m6, hq', List.take_length]

end

end Pluto.LogOutside
