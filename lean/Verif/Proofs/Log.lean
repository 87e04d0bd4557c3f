import Verif.Spec.Log
import Verif.Proofs.LogStep
import Mathlib.Tactic.ByContra

/-! # The logger: the table of log files, the mutex, and what becomes of entries -/

namespace Pluto.Log
open Pluto.Spec.Log

/-! ## The table of log files -/

/-- The names are in order. -/
abbrev Sorted (files : List (Nat × LogFile)) : Prop := files.Pairwise (fun a b => a.1 < b.1)

theorem find_eq_none {files : List (Nat × LogFile)} {n : Nat} :
    find files n = none ↔ ∀ x ∈ files, x.1 ≠ n := by
  unfold find
  simp

theorem find_cons (x : Nat × LogFile) (xs : List (Nat × LogFile)) (n : Nat) :
    find (x :: xs) n = if x.1 = n then some x.2 else find xs n := by
  unfold find
  by_cases h : x.1 = n <;> simp [h]

theorem find_emplace {files : List (Nat × LogFile)} {n : Nat} {f : LogFile} (hn : find files n = none)
    (m : Nat) : find (emplace n f files) m = if m = n then some f else find files m := by
  induction files with
  | nil =>
    simp only [emplace, find_cons]
    by_cases h : m = n
    · simp [h]
    · simp [h, Ne.symm h]
  | cons x xs ih =>
    rw [find_cons] at hn
    split at hn
    · cases hn
    rename_i hx
    unfold emplace
    split
    · rw [find_cons]
      by_cases h : m = n
      · simp [h]
      · simp [h, Ne.symm h]
    · rw [find_cons, ih hn, find_cons]
      by_cases h : m = n
      · subst h; simp [hx]
      · simp [h]

theorem mem_emplace {n : Nat} {f : LogFile} {files : List (Nat × LogFile)} {x : Nat × LogFile} :
    x ∈ emplace n f files ↔ x = (n, f) ∨ x ∈ files := by
  induction files with
  | nil => simp [emplace]
  | cons y ys ih =>
    unfold emplace
    split
    · simp
    · simp only [List.mem_cons, ih]
      constructor <;> rintro (h | h | h) <;> simp [h]

theorem sorted_emplace {files : List (Nat × LogFile)} {n : Nat} {f : LogFile} (h : Sorted files)
    (hn : find files n = none) : Sorted (emplace n f files) := by
  induction files with
  | nil => simp [emplace]
  | cons x xs ih =>
    have hx := (find_eq_none.1 hn) x (List.mem_cons_self ..)
    replace h := List.pairwise_cons.1 h
    unfold emplace
    split
    · rename_i hlt
      refine List.pairwise_cons.2 ⟨?_, List.pairwise_cons.2 h⟩
      intro y hy
      rcases List.mem_cons.1 hy with rfl | hy
      · exact hlt
      · have := h.1 y hy; simp only; omega
    · rename_i hlt
      refine List.pairwise_cons.2 ⟨?_, ih h.2 ?_⟩
      · intro y hy
        rcases mem_emplace.1 hy with rfl | hy
        · simp only; omega
        · exact h.1 y hy
      · rw [find_eq_none]
        intro y hy
        exact (find_eq_none.1 hn) y (List.mem_cons_of_mem _ hy)

theorem find_update (files : List (Nat × LogFile)) (n : Nat) (g : LogFile → LogFile) (m : Nat) :
    find (update files n g) m = if m = n then (find files m).map g else find files m := by
  unfold update
  induction files with
  | nil => simp [find]
  | cons x xs ih =>
    rw [List.map_cons, find_cons, find_cons, ih]
    by_cases h : x.1 = n
    · rw [if_pos h]
      simp only
      by_cases hm : x.1 = m
      · rw [if_pos hm, if_pos hm, if_pos (hm.symm.trans h)]; rfl
      · rw [if_neg hm, if_neg hm]
    · rw [if_neg h]
      by_cases hm : x.1 = m
      · rw [if_pos hm, if_neg (fun e => h (hm.trans e)), if_pos hm]
      · rw [if_neg hm, if_neg hm]

theorem map_fst_update (files : List (Nat × LogFile)) (n : Nat) (g : LogFile → LogFile) :
    (update files n g).map (·.1) = files.map (·.1) := by
  unfold update
  rw [List.map_map]
  apply List.map_congr_left
  intro x _
  simp only [Function.comp]
  split <;> rfl

theorem sorted_iff (files : List (Nat × LogFile)) : Sorted files ↔ (files.map (·.1)).Pairwise (· < ·) := by
  rw [List.pairwise_map]

theorem sorted_update {files : List (Nat × LogFile)} {n : Nat} {g : LogFile → LogFile}
    (h : Sorted files) : Sorted (update files n g) := by
  rw [sorted_iff, map_fst_update, ← sorted_iff]
  exact h

theorem find_of_mem {files : List (Nat × LogFile)} (h : Sorted files) {x : Nat × LogFile}
    (hx : x ∈ files) : find files x.1 = some x.2 := by
  induction files with
  | nil => cases hx
  | cons y ys ih =>
    replace h := List.pairwise_cons.1 h
    rw [find_cons]
    rcases List.mem_cons.1 hx with rfl | hx
    · rw [if_pos rfl]
    · have := h.1 x hx
      rw [if_neg (by omega)]
      exact ih h.2 hx

theorem mem_of_find {files : List (Nat × LogFile)} {n : Nat} {f : LogFile}
    (h : find files n = some f) : (n, f) ∈ files := by
  unfold find at h
  rw [Option.map_eq_some_iff] at h
  obtain ⟨x, hx, rfl⟩ := h
  have h1 := List.find?_some hx
  simp only [decide_eq_true_eq] at h1
  subst h1
  exact List.mem_of_find?_eq_some hx

/-- `n` comes after `last`. -/
def Beyond : Option Nat → Nat → Prop
  | none, _ => True
  | some k, n => k < n

theorem next_some {files : List (Nat × LogFile)} (h : Sorted files) {last : Option Nat} {n : Nat}
    {f : LogFile} (hn : next files last = some (n, f)) :
    find files n = some f ∧ Beyond last n ∧ ∀ m g, find files m = some g → Beyond last m → n ≤ m := by
  unfold next at hn
  have h1 := List.find?_some hn
  have h2 := List.mem_of_find?_eq_some hn
  refine ⟨find_of_mem h h2, ?_, ?_⟩
  · cases last with
    | none => trivial
    | some k => simpa [Beyond] using h1
  · intro m g hm hb
    have hmem := mem_of_find hm
    obtain ⟨as, bs, hsplit, has⟩ := (List.find?_eq_some_iff_append.1 hn).2
    rw [hsplit] at hmem h
    rw [List.mem_append] at hmem
    rcases hmem with hmem | hmem
    · have := has _ hmem
      cases last with
      | none => simp at this
      | some k => simp only [Beyond] at hb; simp at this; omega
    · rcases List.mem_cons.1 hmem with hmem | hmem
      · cases hmem; exact Nat.le_refl _
      · have := (List.pairwise_cons.1 (List.pairwise_append.1 h).2.1).1 _ hmem
        simp only at this
        omega

theorem next_none {files : List (Nat × LogFile)} {last : Option Nat} (hn : next files last = none)
    {m : Nat} {g : LogFile} (hm : find files m = some g) : ¬ Beyond last m := by
  unfold next at hn
  have := List.find?_eq_none.1 hn _ (mem_of_find hm)
  cases last with
  | none => simp at this
  | some k => simpa [Beyond] using this

/-! ## Basic invariant -/

/-- The phases in which the logging thread owns the mutex. -/
def holds : Phase → Bool
  | .checking _ => true
  | .drowsy => true
  | .scanning _ _ => true
  | _ => false

/-- The part of the buffer the logging thread is working on. -/
def Range (s : State) : Phase → Prop
  | .opening name todo => (find s.files name).isSome ∧ todo <+: buffered s name
  | .writing name _ _ todo done =>
    (find s.files name).isSome ∧ done ≤ (buffered s name).length ∧
      todo <+: (buffered s name).drop done
  | .returning name done => (find s.files name).isSome ∧ done ≤ (buffered s name).length
  | _ => True

structure Base (s : State) : Prop where
  sorted : Sorted s.files
  owner : s.owner = .logging ↔ holds s.thread = true
  range : Range s s.thread
  /-- what has been accepted for a log file has been erased from its buffer, or is there -/
  kept : ∀ n, ∃ erased, accepted s n = erased ++ buffered s n ∧
    passed s n = erased ++ (buffered s n).take (finished s n)
  ended : (∀ last, s.stage ≠ .flushing last) ∧ s.stage ≠ .destroyed ∨ s.thread = .exited

theorem wake_holds (p : Phase) : holds (wake p) = holds p := by cases p <;> rfl

theorem wake_eq_exited (p : Phase) : wake p = .exited ↔ p = .exited := by cases p <;> simp [wake]

theorem buffered_eq {s s' : State} {n : Nat}
    (h : ((find s'.files n).getD {}).buffer = ((find s.files n).getD {}).buffer) :
    buffered s' n = buffered s n := by unfold buffered; rw [h]

/-- The table and the record of entries do not change. -/
theorem base_frame {s s' : State} (hb : Base s) (hf : s'.files = s.files)
    (ha : s'.accepted = s.accepted) (hp : s'.passed = s.passed)
    (ho : s'.owner = .logging ↔ holds s'.thread = true) (hr : Range s' s'.thread)
    (hfin : ∀ n, finished s' n = finished s n)
    (he : (∀ last, s'.stage ≠ .flushing last) ∧ s'.stage ≠ .destroyed ∨ s'.thread = .exited) :
    Base s' := by
  have hbuf : ∀ n, buffered s' n = buffered s n := fun n => buffered_eq (by rw [hf])
  refine ⟨hf ▸ hb.sorted, ho, hr, ?_, he⟩
  intro n
  obtain ⟨er, h1, h2⟩ := hb.kept n
  refine ⟨er, ?_, ?_⟩
  · rw [hbuf]; unfold accepted at h1 ⊢; rw [ha]; exact h1
  · rw [hbuf, hfin]; unfold passed at h2 ⊢; rw [hp]; exact h2

/-- The range of the logging thread depends on the buffers only. -/
theorem range_congr {s s' : State} {p : Phase}
    (hf : ∀ n, (find s.files n).isSome → (find s'.files n).isSome)
    (hb : ∀ n, buffered s n <+: buffered s' n) (h : Range s p) : Range s' p := by
  cases p with
  | opening name todo => exact ⟨hf _ h.1, h.2.trans (hb name)⟩
  | writing name p l todo done =>
    obtain ⟨h1, h2, h3⟩ := h
    obtain ⟨x, hx⟩ := hb name
    refine ⟨hf _ h1, by rw [← hx, List.length_append]; omega, ?_⟩
    rw [← hx, List.drop_append_of_le_length h2]
    exact h3.trans (List.prefix_append ..)
  | returning name done =>
    obtain ⟨h1, h2⟩ := h
    obtain ⟨x, hx⟩ := hb name
    exact ⟨hf _ h1, by rw [← hx, List.length_append]; omega⟩
  | _ => trivial

theorem range_wake {s : State} {p : Phase} (h : Range s p) : Range s (wake p) := by
  cases p <;> exact h

theorem finished_wake {s s' : State} (h : s'.thread = wake s.thread) (n : Nat) :
    finished s' n = finished s n := by
  unfold finished
  rw [h]
  cases s.thread <;> rfl

/-! ## Putting entries into the buffer -/

/-- The table of line 731-737. -/
theorem addLog_files (files : List (Nat × LogFile)) (n m : Nat) :
    find (if (find files n).isNone then emplace n {} files else files) m =
      if m = n then some ((find files n).getD {}) else find files m := by
  cases hn : find files n with
  | none =>
    rw [Option.isNone_none, if_pos rfl, find_emplace hn]
    rfl
  | some f =>
    rw [Option.isNone_some, if_neg (by simp)]
    by_cases h : m = n
    · rw [if_pos h, h, hn]; rfl
    · rw [if_neg h]

theorem addLog_sorted {files : List (Nat × LogFile)} (h : Sorted files) (n : Nat) :
    Sorted (if (find files n).isNone then emplace n {} files else files) := by
  split
  · rename_i hn
    exact sorted_emplace h (by simpa using hn)
  · exact h

/-- The two cases of `addLog`. -/
theorem addLog_cases (s : State) (r : Request) :
    (addLog s r =
      { s with
        files := update (if (find s.files r.name).isNone then emplace r.name {} s.files else s.files)
          r.name fun f => { f with buffer := r.entry :: f.buffer }
        owner := .producer r.entry.tid r.name
        accepted := s.accepted ++ [(r.name, r.entry)] } ∧
      (s.settings.bufferMaxSize = 0 ∨ (buffered s r.name).length < s.settings.bufferMaxSize)) ∨
    (addLog s r =
      { s with
        files := if (find s.files r.name).isNone then emplace r.name {} s.files else s.files
        discarded := s.discarded + 1
        dropped := s.dropped ++ [(r.name, r.entry)] } ∧
      0 < s.settings.bufferMaxSize ∧ s.settings.bufferMaxSize ≤ (buffered s r.name).length) := by
  have hl : ((find (if (find s.files r.name).isNone then emplace r.name {} s.files else s.files)
      r.name).getD {}).buffer.length = (buffered s r.name).length := by
    rw [addLog_files, if_pos rfl]
    unfold buffered
    simp
  unfold addLog
  simp only
  rw [hl]
  split
  · rename_i h; exact .inl ⟨rfl, h⟩
  · rename_i h; exact .inr ⟨rfl, by omega, by omega⟩

theorem accepted_append {s s' : State} {n : Nat} {e : Entry} (h : s'.accepted = s.accepted ++ [(n, e)])
    (m : Nat) : accepted s' m = accepted s m ++ if n = m then [e] else [] := by
  unfold accepted
  rw [h, List.filterMap_append]
  congr 1
  by_cases hm : n = m <;> simp [hm]

theorem passed_append {s s' : State} {n : Nat} {e : Entry} {w : Bool}
    (h : s'.passed = s.passed ++ [(n, e, w)]) (m : Nat) :
    passed s' m = passed s m ++ if n = m then [e] else [] := by
  unfold passed
  rw [h, List.filterMap_append]
  congr 1
  by_cases hm : n = m <;> simp [hm]

/-! ## Writing -/

theorem prepare_buffer {σ : Settings} {io : Io} {p : Path} {f f' : LogFile} {fs fs' : Fs}
    {l : Option Locals} (h : prepare σ io p f fs = (f', fs', l)) : f'.buffer = f.buffer := by
  unfold prepare at h
  split at h
  · cases h; rfl
  · simp only at h
    split at h
    · cases h; rfl
    · split at h
      · split at h <;> cases h <;> rfl
      · split at h <;> cases h <;> rfl

/-- The loop passes a beginning of the entries. -/
theorem writeLoop_passed {σ : Settings} {p : Path} {name : Nat} :
    ∀ {todo : List Entry} {l : Locals} {ios : List Io} {fs fs' : Fs} {ps : List (Nat × Entry × Bool)},
      writeLoop σ p name l todo ios fs = some (fs', ps) →
      ps.length ≤ todo.length ∧ ps.map (·.2.1) = todo.take ps.length ∧ ∀ x ∈ ps, x.1 = name := by
  intro todo
  induction todo with
  | nil =>
    intro l ios fs fs' ps h
    unfold writeLoop at h
    cases h
    simp
  | cons e todo ih =>
    intro l ios fs fs' ps h
    unfold writeLoop at h
    rcases hw : turn σ (ios.headD {}) p l name e fs with ⟨fs₁, l', whole⟩ | fs₁ | fs₁ | _
    · rw [hw] at h
      simp only at h
      rcases hr : writeLoop σ p name l' todo ios.tail fs₁ with _ | ⟨fs₂, ps'⟩
      · rw [hr] at h; cases h
      · rw [hr] at h
        cases h
        obtain ⟨h1, h2, h3⟩ := ih hr
        refine ⟨by simp only [List.length_cons]; omega, ?_, ?_⟩
        · simp only [List.map_cons, List.length_cons, List.take_succ_cons, h2]
        · intro x hx
          rcases List.mem_cons.1 hx with rfl | hx
          · rfl
          · exact h3 x hx
    · rw [hw] at h; cases h; simp
    · rw [hw] at h; cases h; simp
    · rw [hw] at h; cases h

theorem passed_appendAll {s s' : State} {n : Nat} {ps : List (Nat × Entry × Bool)}
    (h : s'.passed = s.passed ++ ps) (hps : ∀ x ∈ ps, x.1 = n) (m : Nat) :
    passed s' m = passed s m ++ if n = m then ps.map (·.2.1) else [] := by
  unfold passed
  rw [h, List.filterMap_append]
  congr 1
  clear h
  induction ps with
  | nil => simp
  | cons x xs ih =>
    have hx := hps x (List.mem_cons_self ..)
    have := ih (fun y hy => hps y (List.mem_cons_of_mem _ hy))
    rw [List.filterMap_cons, this, hx]
    by_cases hm : n = m <;> simp [hm]

/-! ## The invariant holds -/

theorem base_init (σ : Settings) (fs : Fs) : Base (init σ fs) := by
  refine ⟨List.Pairwise.nil, by simp [init, holds], trivial, ?_, .inl ⟨by simp [init], by simp [init]⟩⟩
  intro n
  exact ⟨[], rfl, rfl⟩

theorem base_enter {s : State} {r : Request} {i : Nat} (hb : Base s) (ho : s.owner = .free)
    (hst : (∀ last, s.stage ≠ .flushing last) ∧ s.stage ≠ .destroyed ∨ s.thread = .exited) :
    Base { addLog s r with calls := s.calls.eraseIdx i } := by
  have hh : holds s.thread = false := by
    have := hb.owner
    rw [ho] at this
    simpa using this
  rcases addLog_cases s r with ⟨h, -⟩ | ⟨h, -⟩
  · rw [h]
    have hfind : ∀ m, find (update (if (find s.files r.name).isNone then emplace r.name {} s.files else s.files)
        r.name fun f => { f with buffer := r.entry :: f.buffer }) m =
        if m = r.name then some { ((find s.files r.name).getD {}) with
          buffer := r.entry :: ((find s.files r.name).getD {}).buffer } else find s.files m := by
      intro m
      rw [find_update, addLog_files]
      by_cases hm : m = r.name
      · simp [hm]
      · simp [hm]
    have hbuf : ∀ m (s' : State), s'.files = update (if (find s.files r.name).isNone then emplace r.name {} s.files else s.files)
        r.name (fun f => { f with buffer := r.entry :: f.buffer }) →
        buffered s' m = buffered s m ++ if r.name = m then [r.entry] else [] := by
      intro m s' hs'
      unfold buffered
      rw [hs', hfind]
      by_cases hm : m = r.name
      · subst hm; simp
      · simp [hm, Ne.symm hm]
    refine ⟨by dsimp only; exact sorted_update (addLog_sorted hb.sorted _), ?_, ?_, ?_, hst⟩
    · simp [hh]
    · refine range_congr ?_ ?_ hb.range
      · intro n hn
        simp only
        rw [hfind]
        split
        · rfl
        · exact hn
      · intro n
        refine (congrArg (buffered s n <+: ·) (hbuf n _ ?_)).mpr ?_
        · rfl
        · exact List.prefix_append ..
    · intro n
      obtain ⟨er, h1, h2⟩ := hb.kept n
      refine ⟨er, ?_, ?_⟩
      · rw [accepted_append rfl, hbuf n _ rfl, h1, List.append_assoc]
      · rw [hbuf n _ rfl]
        have hle : finished s n ≤ (buffered s n).length := by
          have hr := hb.range
          unfold finished
          cases ht : s.thread with
          | writing m p l todo done =>
            rw [ht] at hr
            simp only
            split
            · rename_i he; subst he; exact hr.2.1
            · omega
          | returning m done =>
            rw [ht] at hr
            simp only
            split
            · rename_i he; subst he; exact hr.2
            · omega
          | _ => exact Nat.zero_le _
        refine Eq.trans ?_ (congrArg (er ++ ·) (List.take_append_of_le_length hle).symm)
        exact h2
  · rw [h]
    have hfind := addLog_files s.files r.name
    have hbuf : ∀ m (s' : State), s'.files = (if (find s.files r.name).isNone then emplace r.name {} s.files else s.files) →
        buffered s' m = buffered s m := by
      intro m s' hs'
      unfold buffered
      rw [hs', hfind]
      by_cases hm : m = r.name
      · subst hm; simp
      · simp [hm]
    refine ⟨addLog_sorted hb.sorted _, ?_, ?_, ?_, hst⟩
    · exact hb.owner
    · refine range_congr ?_ ?_ hb.range
      · intro n hn
        simp only
        rw [hfind]
        split
        · rfl
        · exact hn
      · intro n
        refine (congrArg (buffered s n <+: ·) (hbuf n _ ?_)).mpr ?_
        · rfl
        · exact List.prefix_refl _
    · intro n
      obtain ⟨er, h1, h2⟩ := hb.kept n
      refine ⟨er, ?_, ?_⟩
      · rw [hbuf n _ rfl]; exact h1
      · rw [hbuf n _ rfl]; exact h2

/-- Steps of the logging thread that change only its phase, from one without a range to
another one. -/
theorem finished_zero {s : State} {n : Nat} (h : ∀ m p l todo done, s.thread ≠ .writing m p l todo done)
    (h' : ∀ m done, s.thread ≠ .returning m done) : finished s n = 0 := by
  unfold finished
  split
  · rename_i h1; exact (h _ _ _ _ _ h1).elim
  · rename_i h1; exact (h' _ _ h1).elim
  · rfl

theorem update_isSome {files : List (Nat × LogFile)} {n m : Nat} {g : LogFile → LogFile} :
    (find (update files n g) m).isSome = (find files m).isSome := by
  rw [find_update]
  split
  · simp
  · rfl

theorem base_step {paths : Nat → Path} {s s' : State} {ev : Event} (hb : Base s)
    (h : step paths s ev = some s') : Base s' := by
  obtain ⟨-, h⟩ := step_cases h
  cases h with
  | call tid name time level message hs hc hn ho hl =>
    exact base_frame hb rfl rfl rfl hb.owner hb.range (fun _ => rfl) hb.ended
  | callFiltered => exact hb
  | enter i r hi ho => exact base_enter hb ho hb.ended
  | leaveNotify tid name ho hf =>
    refine base_frame hb rfl rfl rfl ?_ hb.range (fun _ => rfl) hb.ended
    have := hb.owner; rw [ho] at this; simpa using this
  | leave tid name ho hf =>
    refine base_frame hb rfl rfl rfl ?_ hb.range (fun _ => rfl) hb.ended
    have := hb.owner; rw [ho] at this; simpa using this
  | notify i hi =>
    refine base_frame hb rfl rfl rfl ?_ (range_wake hb.range) (finished_wake rfl) ?_
    · simp only [wake_holds]; exact hb.owner
    · simp only [wake_eq_exited]; exact hb.ended
  | setFlush x hs => exact base_frame hb rfl rfl rfl hb.owner hb.range (fun _ => rfl) hb.ended
  | set x hs hx => exact base_frame hb rfl rfl rfl hb.owner hb.range (fun _ => rfl) hb.ended
  | setNotify hs =>
    refine base_frame hb rfl rfl rfl ?_ (range_wake hb.range) (finished_wake rfl) ?_
    · simp only [wake_holds]; exact hb.owner
    · simp only [wake_eq_exited]; exact hb.ended
  | reset hs => exact base_frame hb rfl rfl rfl hb.owner hb.range (fun _ => rfl) hb.ended
  | starting io ht ho =>
    have := hb.ended; rw [ht] at this
    refine base_frame hb rfl rfl rfl (by simp [holds]) trivial ?_ (by simpa using this)
    intro n; simp [finished, ht]
  | checkWait io ht hl =>
    have := hb.ended; rw [ht] at this
    refine base_frame hb rfl rfl rfl ?_ trivial ?_ (by simpa using this)
    · have := hb.owner; rw [ht] at this; simpa [holds] using this
    · intro n; simp [finished, ht]
  | checkScan io ht hl =>
    have := hb.ended; rw [ht] at this
    refine base_frame hb rfl rfl rfl ?_ trivial ?_ (by simpa using this)
    · have := hb.owner; rw [ht] at this; simpa [holds] using this
    · intro n; simp [finished, ht]
  | checkExit io w ht hl =>
    refine base_frame hb rfl rfl rfl ?_ trivial ?_ (.inr rfl)
    · simp [holds]
    · intro n; simp [finished, ht]
  | drowse io ht =>
    have := hb.ended; rw [ht] at this
    refine base_frame hb rfl rfl rfl ?_ trivial ?_ (by simpa using this)
    · simp [holds]
    · intro n; simp [finished, ht]
  | woken io ht ho =>
    have := hb.ended; rw [ht] at this
    refine base_frame hb rfl rfl rfl (by simp [holds]) trivial ?_ (by simpa using this)
    intro n; simp [finished, ht]
  | scanEnd io last w ht hn =>
    have := hb.ended; rw [ht] at this
    refine base_frame hb rfl rfl rfl ?_ trivial ?_ (by simpa using this)
    · have := hb.owner; rw [ht] at this; simpa [holds] using this
    · intro n; simp [finished, ht]
  | scanFull io last w name f ht hn hbuf hf =>
    have := hb.ended; rw [ht] at this
    refine base_frame hb rfl rfl rfl ?_ ?_ ?_ (by simpa using this)
    · simp [holds]
    · have := (next_some hb.sorted hn).1
      refine ⟨by simp [this], ?_⟩
      unfold buffered
      simp [this]
    · intro n; simp [finished, ht]
  | scanSkip io last w name f ht hn hf =>
    have := hb.ended; rw [ht] at this
    refine base_frame hb rfl rfl rfl ?_ trivial ?_ (by simpa using this)
    · have := hb.owner; rw [ht] at this; simpa [holds] using this
    · intro n; simp [finished, ht]
  | openOk io name todo f fs l ht hp =>
    have he := hb.ended; rw [ht] at he
    have hr := hb.range; rw [ht] at hr
    have hbuf : ∀ m (s' : State), s'.files = update s.files name (fun g =>
          { g with filePath := f.filePath, dirsCreated := f.dirsCreated }) →
        buffered s' m = buffered s m := by
      intro m s' hs'
      unfold buffered
      rw [hs', find_update]
      by_cases hm : m = name
      · rw [if_pos hm]; cases find s.files m <;> rfl
      · rw [if_neg hm]
    refine ⟨by dsimp only; exact sorted_update hb.sorted, ?_, ?_, ?_, by simpa using he⟩
    · have := hb.owner; rw [ht] at this; simpa [holds] using this
    · refine ⟨?_, Nat.zero_le _, ?_⟩
      · rw [update_isSome]; exact hr.1
      · rw [hbuf name _ rfl]; exact hr.2
    · intro n
      obtain ⟨er, h1, h2⟩ := hb.kept n
      rw [hbuf n _ rfl]
      refine ⟨er, h1, h2.trans ?_⟩
      congr 2
      simp [finished, ht]
  | openFail io name todo f fs ht hp =>
    have he := hb.ended; rw [ht] at he
    have hr := hb.range; rw [ht] at hr
    have hbuf : ∀ m (s' : State), s'.files = update s.files name (fun g =>
          { g with filePath := f.filePath, dirsCreated := f.dirsCreated }) →
        buffered s' m = buffered s m := by
      intro m s' hs'
      unfold buffered
      rw [hs', find_update]
      by_cases hm : m = name
      · rw [if_pos hm]; cases find s.files m <;> rfl
      · rw [if_neg hm]
    refine ⟨by dsimp only; exact sorted_update hb.sorted, ?_, ?_, ?_, by simpa using he⟩
    · have := hb.owner; rw [ht] at this; simpa [holds] using this
    · refine ⟨?_, Nat.zero_le _⟩
      rw [update_isSome]; exact hr.1
    · intro n
      obtain ⟨er, h1, h2⟩ := hb.kept n
      rw [hbuf n _ rfl]
      refine ⟨er, h1, h2.trans ?_⟩
      congr 2
      simp [finished, ht]
  | writeDone io name p l done ht =>
    have he := hb.ended; rw [ht] at he
    have hr := hb.range; rw [ht] at hr
    refine base_frame hb rfl rfl rfl ?_ ?_ ?_ (by simpa using he)
    · have := hb.owner; rw [ht] at this; simpa [holds] using this
    · exact ⟨hr.1, hr.2.1⟩
    · intro n; simp [finished, ht]
  | writeNext io name p l e todo done fs l' whole ht hw =>
    have he := hb.ended; rw [ht] at he
    have hr := hb.range; rw [ht] at hr
    obtain ⟨x, hx⟩ := hr.2.2
    have hlt : done < (buffered s name).length := by
      have := congrArg List.length hx
      simp only [List.length_append, List.length_cons, List.length_drop] at this
      omega
    have hd := List.drop_eq_getElem_cons hlt
    rw [hd] at hx
    simp only [List.cons_append, List.cons.injEq] at hx
    refine ⟨hb.sorted, ?_, ?_, ?_, by simpa using he⟩
    · have := hb.owner; rw [ht] at this; simpa [holds] using this
    · exact ⟨hr.1, hlt, hx.2 ▸ List.prefix_append ..⟩
    · intro n
      obtain ⟨er, h1, h2⟩ := hb.kept n
      refine ⟨er, h1, ?_⟩
      rw [passed_append rfl, h2]
      unfold finished
      rw [ht]
      simp only
      by_cases hn : name = n
      · subst hn
        simp only [if_true]
        show _ = er ++ List.take (done + 1) (buffered s name)
        rw [List.take_succ_eq_append_getElem hlt,
          ← hx.1, List.append_assoc]
      · simp [hn]
  | writeBefore io name p l e todo done fs ht hw =>
    have he := hb.ended; rw [ht] at he
    have hr := hb.range; rw [ht] at hr
    refine base_frame hb rfl rfl rfl ?_ ?_ ?_ (by simpa using he)
    · have := hb.owner; rw [ht] at this; simpa [holds] using this
    · exact ⟨hr.1, hr.2.1⟩
    · intro n; simp [finished, ht]
  | writeAfter io name p l e todo done fs ht hw =>
    have he := hb.ended; rw [ht] at he
    have hr := hb.range; rw [ht] at hr
    obtain ⟨x, hx⟩ := hr.2.2
    have hlt : done < (buffered s name).length := by
      have := congrArg List.length hx
      simp only [List.length_append, List.length_cons, List.length_drop] at this
      omega
    have hd := List.drop_eq_getElem_cons hlt
    rw [hd] at hx
    simp only [List.cons_append, List.cons.injEq] at hx
    refine ⟨hb.sorted, ?_, ?_, ?_, by simpa using he⟩
    · have := hb.owner; rw [ht] at this; simpa [holds] using this
    · exact ⟨hr.1, hlt⟩
    · intro n
      obtain ⟨er, h1, h2⟩ := hb.kept n
      refine ⟨er, h1, ?_⟩
      rw [passed_append rfl, h2]
      unfold finished
      rw [ht]
      simp only
      by_cases hn : name = n
      · subst hn
        simp only [if_true]
        show _ = er ++ List.take (done + 1) (buffered s name)
        rw [List.take_succ_eq_append_getElem hlt,
          ← hx.1, List.append_assoc]
      · simp [hn]
  | writeCrash io name p l e todo done ht hw =>
    exact base_frame hb rfl rfl rfl hb.owner hb.range (fun _ => rfl) hb.ended
  | erase io name done ht ho =>
    have he := hb.ended; rw [ht] at he
    have hr := hb.range; rw [ht] at hr
    have hbuf : ∀ m (s' : State), s'.files = update s.files name (fun f =>
          { f with buffer := f.buffer.take (f.buffer.length - done) }) →
        buffered s' m = (buffered s m).drop (if m = name then done else 0) := by
      intro m s' hs'
      unfold buffered
      rw [hs', find_update]
      by_cases hm : m = name
      · rw [if_pos hm, if_pos hm]
        cases find s.files m with
        | none => simp
        | some f => simp [List.drop_reverse]
      · rw [if_neg hm, if_neg hm, List.drop_zero]
    refine ⟨by dsimp only; exact sorted_update hb.sorted, by simp [holds], trivial, ?_, by simpa using he⟩
    intro n
    obtain ⟨er, h1, h2⟩ := hb.kept n
    rw [hbuf n _ rfl]
    refine ⟨er ++ (buffered s n).take (if n = name then done else 0), ?_, ?_⟩
    · rw [List.append_assoc, List.take_append_drop]; exact h1
    · have hf : finished s n = if n = name then done else 0 := by
        simp [finished, ht, eq_comm]
      rw [hf] at h2
      refine Eq.trans h2 ?_
      simp [finished]
  | spurious ht =>
    have he := hb.ended; rw [ht] at he
    refine base_frame hb rfl rfl rfl ?_ trivial ?_ (by simpa using he)
    · have := hb.owner; rw [ht] at this; simpa [holds] using this
    · intro n; simp [finished, ht]
  | stop hs hc hn hset ho =>
    exact base_frame hb rfl rfl rfl hb.owner hb.range (fun _ => rfl) (.inl ⟨by simp, by simp⟩)
  | stopNotify hs =>
    refine base_frame hb rfl rfl rfl ?_ (range_wake hb.range) (finished_wake rfl)
      (.inl ⟨by simp, by simp⟩)
    simp only [wake_holds]; exact hb.owner
  | join hs ht =>
    exact base_frame hb rfl rfl rfl hb.owner hb.range (fun _ => rfl) (.inr ht)
  | flush io ios last name f hs hn =>
    have ht : s.thread = .exited := by
      rcases hb.ended with h | h
      · exact absurd hs (h.1 last)
      · exact h
    have hfin : ∀ (s' : State) n, s'.thread = .exited → finished s' n = 0 := by
      intro s' n h; simp [finished, h]
    have hf := (next_some hb.sorted hn).1
    unfold flushFile
    split
    · rcases hp : prepare s.settings io (paths name) f s.fs with ⟨f', fs, l⟩
      have hfb := prepare_buffer hp
      cases l with
      | none =>
        simp only
        have hbuf : ∀ m (s' : State), s'.files = update s.files name (fun _ => f') →
            buffered s' m = buffered s m := by
          intro m s' hs'
          unfold buffered
          rw [hs', find_update]
          by_cases hm : m = name
          · subst hm; simp [hf, hfb]
          · rw [if_neg hm]
        refine ⟨by dsimp only; exact sorted_update hb.sorted, hb.owner, by rw [ht]; trivial, ?_, .inr ht⟩
        intro n
        obtain ⟨er, h1, h2⟩ := hb.kept n
        rw [hbuf n _ rfl]
        exact ⟨er, h1, h2⟩
      | some l =>
        simp only
        rcases hw : writeLoop s.settings (f'.filePath.getD (paths name)) name l f'.buffer.reverse ios fs
          with _ | ⟨fs₂, ps⟩
        · exact base_frame hb rfl rfl rfl hb.owner hb.range (fun _ => rfl) hb.ended
        · simp only
          obtain ⟨w1, w2, w3⟩ := writeLoop_passed hw
          have hbuf : ∀ m (s' : State), s'.files = update s.files name (fun _ =>
                { f' with buffer := f'.buffer.take (f'.buffer.length - ps.length) }) →
              buffered s' m = (buffered s m).drop (if m = name then ps.length else 0) := by
            intro m s' hs'
            unfold buffered
            rw [hs', find_update]
            by_cases hm : m = name
            · subst hm; simp [hf, hfb, List.drop_reverse]
            · rw [if_neg hm, if_neg hm, List.drop_zero]
          refine ⟨by dsimp only; exact sorted_update hb.sorted, hb.owner, by rw [ht]; trivial, ?_, .inr ht⟩
          intro n
          obtain ⟨er, h1, h2⟩ := hb.kept n
          rw [hbuf n _ rfl, passed_appendAll (s := s) rfl w3]
          refine ⟨er ++ (buffered s n).take (if n = name then ps.length else 0), ?_, ?_⟩
          · rw [List.append_assoc, List.take_append_drop]; exact h1
          · rw [hfin _ n ht] at h2
            have h3 : ∀ a b c d, finished { s with files := a, fs := b, passed := c, stage := d } n = 0 :=
              fun a b c d => hfin _ n ht
            rw [h2, h3]
            by_cases hm : n = name
            · subst hm
              have : buffered s n = f'.buffer.reverse := by
                unfold buffered; rw [hf, hfb]; rfl
              rw [this]
              simp [w2]
            · simp [hm, Ne.symm hm]
    · exact base_frame hb rfl rfl rfl hb.owner hb.range (fun _ => rfl) (.inr ht)
  | finish last hs hn =>
    refine base_frame hb rfl rfl rfl hb.owner hb.range (fun _ => rfl) (.inr ?_)
    rcases hb.ended with h | h
    · exact absurd hs (h.1 last)
    · exact h

theorem base {paths : Nat → Path} {σ : Settings} {fs : Fs} {s : State} (h : Reachable paths σ fs s) :
    Base s := by
  induction h with
  | init => exact base_init σ fs
  | step ev _ hs ih => exact base_step ih hs

end Pluto.Log
