import Verif.Proofs.LogDisk

/-! # The logger: the destructor -/

namespace Pluto.Log
open Pluto.Spec.Log

theorem reachableBy_mono {paths : Nat → Path} {ok ok' : State → Event → Prop} {σ : Settings} {fs : Fs}
    {s : State} (h : ReachableBy paths ok σ fs s) (hm : ∀ s ev, ok s ev → ok' s ev) :
    ReachableBy paths ok' σ fs s := by
  induction h with
  | init => exact .init
  | step ev _ hok hs ih => exact .step ev ih (hm _ _ hok) hs

/-! ## Writing succeeds if nothing fails -/

theorem turn_ok {σ : Settings} {p : Path} {l : Locals} {name : Nat} {e : Entry} {fs : Fs}
    (hσ : GoodWriter σ ∧ ∃ text, σ.headerWriter = .ok text) (hl : l.good = true) (hd : p.dir ∈ fs.dirs) :
    ∃ fs' l', turn σ {} p l name e fs = .next fs' l' true ∧ l'.good = true ∧ p.dir ∈ fs'.dirs := by
  have hentry : ∀ (l : Locals) fs, l.good = true → p.dir ∈ fs.dirs →
      ∃ fs' l', turnEntry σ {} p l name e fs = .next fs' l' true ∧ l'.good = true ∧ p.dir ∈ fs'.dirs := by
    intro l fs hl hd
    obtain ⟨text, ht⟩ := hσ.1 e
    unfold turnEntry
    rw [ht]
    simp only [hl, put_writable]
    exact ⟨_, _, rfl, rfl, hd⟩
  have hheader : ∀ (l : Locals) k fs, l.good = true → p.dir ∈ fs.dirs →
      ∃ fs' l', turnHeader σ {} p l k name e fs = .next fs' l' true ∧ l'.good = true ∧ p.dir ∈ fs'.dirs := by
    intro l k fs hl hd
    obtain ⟨text, ht⟩ := hσ.2
    unfold turnHeader
    split
    · rw [ht]
      simp only [hl, put_writable]
      exact hentry _ _ rfl hd
    · exact hentry _ _ hl hd
  rcases turn_cases σ {} p l name e fs with ⟨-, ht⟩ | ⟨-, -, fs₁, b, hr, hcase⟩
  · rw [ht]; exact hheader _ _ _ hl hd
  · obtain ⟨k, hk1, hk2⟩ := exists_first fs p
    obtain ⟨fs', h1, h2, -, -⟩ := rotate_spec (f := {}) (limit := σ.fileRotationLimit) rfl rfl hk1 hk2
    rw [h1] at hr
    cases hr
    have hd1 : p.dir ∈ fs₁.dirs := by rw [h2]; exact hd
    rcases hcase with ⟨h, -⟩ | ⟨-, fs₂, r, ho, hcase⟩
    · cases h
    · obtain ⟨fs₃, h3⟩ := openFile_ok hd1
      rw [h3] at ho
      cases ho
      rcases hcase with ⟨h, -⟩ | ⟨-, ht⟩
      · cases h
      · rw [ht]
        exact hheader _ _ _ rfl ((openFile_opened h3).1.1 hd1)

theorem writeLoop_ok {σ : Settings} {p : Path} {name : Nat}
    (hσ : GoodWriter σ ∧ ∃ text, σ.headerWriter = .ok text) :
    ∀ {todo : List Entry} {l : Locals} {ios : List Io} {fs : Fs}, (∀ io ∈ ios, NoFault io) →
      l.good = true → p.dir ∈ fs.dirs →
      ∃ fs' ps, writeLoop σ p name l todo ios fs = some (fs', ps) ∧ ps.length = todo.length := by
  intro todo
  induction todo with
  | nil => intro l ios fs _ _ _; exact ⟨fs, [], rfl, rfl⟩
  | cons e todo ih =>
    intro l ios fs hio hl hd
    have h0 : ios.headD {} = {} := by
      cases ios with
      | nil => rfl
      | cons a as => exact hio a (List.mem_cons_self ..)
    obtain ⟨fs', l', h1, h2, h3⟩ := turn_ok (name := name) (e := e) hσ hl hd
    obtain ⟨fs'', ps, h4, h5⟩ := ih (ios := ios.tail) (fun io hm => hio io (List.mem_of_mem_tail hm)) h2 h3
    unfold writeLoop
    rw [h0, h1]
    simp only [h4]
    exact ⟨_, _, rfl, by simp [h5]⟩

theorem prepare_ok {σ : Settings} {p : Path} {f : LogFile} {fs : Fs} (hk : Known p f)
    (hc : σ.createDirs = true) (hd : f.dirsCreated = true → p.dir ∈ fs.dirs) :
    ∃ f' fs', prepare σ {} p f fs = (f', fs', some ⟨σ.writeHeader, σ.fileRotationSize, true⟩) ∧
      f'.filePath = some p ∧ f'.buffer = f.buffer ∧ p.dir ∈ fs'.dirs := by
  rcases hp : prepare σ {} p f fs with ⟨f', fs', l⟩
  have hb := prepare_buffer hp
  obtain ⟨h1, h2, h3, h4⟩ := prepare_cases hk hp
  cases l with
  | some l =>
    obtain ⟨h5, h6, -, h7⟩ := h4 l rfl
    exact ⟨f', fs', by rw [h6], h5, hb, h7⟩
  | none =>
    exfalso
    have hget : f.filePath.getD p = p := by rcases hk with h | h <;> rw [h] <;> rfl
    unfold prepare at hp
    rw [if_neg (by simp)] at hp
    simp only [hget, Option.getD_some] at hp
    rw [if_neg (by simp)] at hp
    by_cases hcd : σ.createDirs = true ∧ f.dirsCreated = false
    · rw [if_pos hcd] at hp
      simp only at hp
      obtain ⟨fs₂, h5⟩ := openFile_ok (p := p) (fs := { fs with dirs := p.dir :: fs.dirs }) (by simp)
      rw [h5] at hp
      cases hp
    · rw [if_neg hcd] at hp
      simp only at hp
      have : f.dirsCreated = true := by simpa [hc] using hcd
      obtain ⟨fs₂, h5⟩ := openFile_ok (p := p) (fs := fs) (hd this)
      rw [h5] at hp
      cases hp

/-- The destructor writes all of a buffer. -/
theorem flushFile_ok {paths : Nat → Path} {s : State} {io : Io} {ios : List Io} {name : Nat} {f : LogFile}
    {last : Option Nat}
    (hb : Base s) (hp : PathsOk paths s) (hσ : Usable s.settings) (hio : NoFault io)
    (hios : ∀ io ∈ ios, NoFault io) (hn : next s.files last = some (name, f)) :
    buffered (flushFile paths s io ios name f) name = [] ∧
    (flushFile paths s io ios name f).stage = .flushing (some name) ∧
    (flushFile paths s io ios name f).crashed = s.crashed ∧
    (∀ n, n ≠ name → buffered (flushFile paths s io ios name f) n = buffered s n) := by
  have hf := (next_some hb.sorted hn).1
  cases hio
  unfold flushFile
  split
  · obtain ⟨f', fs', h1, h2, h3, h4⟩ := prepare_ok (hp.known name f hf) hσ.2.2 (hp.dirs name f hf)
    rw [h1]
    simp only [h2, Option.getD_some]
    obtain ⟨fs'', ps, h5, h6⟩ := writeLoop_ok (σ := s.settings) (p := paths name) (name := name) ⟨hσ.1, hσ.2.1⟩
      (todo := f'.buffer.reverse) (l := ⟨s.settings.writeHeader, s.settings.fileRotationSize, true⟩) hios rfl h4
    rw [h5]
    refine ⟨?_, rfl, rfl, ?_⟩
    · rw [buffered_update (s := s) (name := name) (by dsimp only) name]
      rw [if_pos ⟨rfl, by simp [hf]⟩]
      simp [h6]
    · intro n hne
      rw [buffered_update (s := s) (name := name) (by dsimp only) n, if_neg (by simp [hne])]
  · rename_i he
    refine ⟨?_, rfl, rfl, fun _ _ => rfl⟩
    simp only [ne_eq, not_not] at he
    unfold buffered
    simp [hf, he]

/-! ## What the destructor has written -/

/-- The buffers the destructor has been at are empty. -/
def Flushed (s : State) : Stage → Prop
  | .flushing last => ∀ n, ¬ Beyond last n → buffered s n = []
  | .destroyed => ∀ n, buffered s n = []
  | _ => True

theorem flushed {paths : Nat → Path} {σ : Settings} {fs : Fs} {s : State} (hσ : Usable σ)
    (h : ReachableBy paths Orderly σ fs s) : Flushed s s.stage ∧ Usable s.settings := by
  induction h with
  | init => exact ⟨trivial, hσ⟩
  | @step s s' ev hr hok hs ih =>
    obtain ⟨hF, hU⟩ := ih
    have hb := base (reachable_of_by hr)
    have hp := pathsOk (reachable_of_by hr)
    have hset : Usable s'.settings := by
      rw [settings_step hs]
      cases ev with
      | set x => exact hok
      | _ => exact hU
    refine ⟨?_, hset⟩
    have same : s'.files = s.files → s'.stage = s.stage → Flushed s' s'.stage := by
      intro hf hst
      have : ∀ n, buffered s' n = buffered s n := fun n => by unfold buffered; rw [hf]
      rw [hst]
      unfold Flushed at hF ⊢
      split <;> simp_all
    have nothread : s.thread ≠ .exited → s'.stage = s.stage → Flushed s' s'.stage := by
      intro ht hst
      rcases hb.ended with ⟨h1, h2⟩ | h1
      · rw [hst]
        cases hstage : s.stage with
        | flushing last => exact absurd hstage (h1 last)
        | destroyed => exact absurd hstage h2
        | _ => trivial
      · exact absurd h1 ht
    have hclosed : ∀ {i : Nat} {r : Request}, s.calls[i]? = some r → s'.stage = s.stage → Flushed s' s'.stage := by
      intro i r hi hst
      rw [hst]
      have : s.calls = [] ∨ s.stage = .alive := by
        have := reachable_of_by hr
        clear * - this
        induction this with
        | init => exact .inr rfl
        | @step s s' ev hr hs ih =>
          replace hs := (step_cases hs).2
          cases hs with
          | call tid name time level message hs hc hn ho hl => exact .inr hs
          | enter i r hi ho =>
            rcases ih with h | h
            · rw [h] at hi; simp at hi
            · rcases addLog_cases s r with ⟨heq, -⟩ | ⟨heq, -⟩ <;> rw [heq] <;> exact .inr h
          | stop hs hc hn hset ho => exact .inl hc
          | stopNotify hs =>
            rcases ih with h | h
            · exact .inl h
            · rw [hs] at h; cases h
          | join hs ht =>
            rcases ih with h | h
            · exact .inl h
            · rw [hs] at h; cases h
          | flush io ios last name f hs hn =>
            rcases ih with h | h
            · exact .inl ((flushFile_same paths s io ios name f).1.trans h)
            · rw [hs] at h; cases h
          | finish last hs hn =>
            rcases ih with h | h
            · exact .inl h
            · rw [hs] at h; cases h
          | _ => exact ih
      rcases this with h | h
      · rw [h] at hi; simp at hi
      · rw [h]; trivial
    replace hs := (step_cases hs).2
    cases hs with
    | enter i r hi ho =>
      refine hclosed hi ?_
      rcases addLog_cases s r with ⟨heq, -⟩ | ⟨heq, -⟩ <;> rw [heq]
    | openOk io name todo f fs l ht hp => exact nothread (by rw [ht]; simp) rfl
    | openFail io name todo f fs ht hp => exact nothread (by rw [ht]; simp) rfl
    | erase io name done ht ho => exact nothread (by rw [ht]; simp) rfl
    | stop hs hc hn hset ho => trivial
    | stopNotify hs => trivial
    | join hs ht => intro n hn; exact absurd trivial hn
    | flush io ios last name f hs hn =>
      obtain ⟨h1, h2, h3, h4⟩ := flushFile_ok hb hp hU hok.1 hok.2 hn
      rw [h2]
      intro n hle
      by_cases hne : n = name
      · rw [hne]; exact h1
      · rw [h4 n hne]
        rw [hs] at hF
        cases hfn : find s.files n with
        | none => unfold buffered; rw [hfn]; rfl
        | some g =>
          refine hF n ?_
          intro hbey
          have := (next_some hb.sorted hn).2.2 n g hfn hbey
          simp only [Beyond, Nat.not_lt] at hle
          omega
    | finish last hs hn =>
      intro n
      show buffered s n = []
      rw [hs] at hF
      cases hfn : find s.files n with
      | none => unfold buffered; rw [hfn]; rfl
      | some g => exact hF n (next_none hn hfn)
    | _ => exact same rfl rfl

/-! ## The destructor ends -/

/-- What is known while the destructor runs. -/
structure Closing (s : State) : Prop where
  calls : s.calls = []
  notifying : s.notifying = []
  setters : s.setters = 0
  owner : s.owner = .free ∨ s.owner = .logging
  logging : s.isLogging = false

theorem closing {paths : Nat → Path} {σ : Settings} {fs : Fs} {s : State} (h : Reachable paths σ fs s) :
    (s.stage = .alive ∧ s.isLogging = true) ∨ (s.stage ≠ .alive ∧ Closing s) := by
  induction h with
  | init => exact .inl ⟨rfl, rfl⟩
  | @step s s' ev hr hs ih =>
    have keep : s'.stage = s.stage → s'.isLogging = s.isLogging → (s.stage ≠ .alive → Closing s → Closing s') →
        (s'.stage = .alive ∧ s'.isLogging = true) ∨ (s'.stage ≠ .alive ∧ Closing s') := by
      intro h1 h2 h3
      rcases ih with ⟨h4, h5⟩ | ⟨h4, h5⟩
      · exact .inl ⟨h1.trans h4, h2.trans h5⟩
      · exact .inr ⟨by rw [h1]; exact h4, h3 h4 h5⟩
    have hclosing : s.stage ≠ .alive → Closing s := by
      intro h
      rcases ih with ⟨h4, -⟩ | ⟨-, h5⟩
      · exact absurd h4 h
      · exact h5
    replace hs := (step_cases hs).2
    cases hs with
    | call tid name time level message hs hc hn ho hl => exact keep rfl rfl (fun h => absurd hs h)
    | callFiltered => exact ih
    | enter i r hi ho =>
      refine keep ?_ ?_ ?_
      · rcases addLog_cases s r with ⟨heq, -⟩ | ⟨heq, -⟩ <;> rw [heq]
      · rcases addLog_cases s r with ⟨heq, -⟩ | ⟨heq, -⟩ <;> rw [heq]
      · intro _ hc
        rw [hc.calls] at hi
        simp at hi
    | leaveNotify tid name ho hf =>
      refine keep rfl rfl ?_
      intro _ hc
      rcases hc.owner with h | h <;> rw [h] at ho <;> cases ho
    | leave tid name ho hf =>
      refine keep rfl rfl ?_
      intro _ hc
      rcases hc.owner with h | h <;> rw [h] at ho <;> cases ho
    | notify i hi =>
      refine keep rfl rfl ?_
      intro _ hc
      rw [hc.notifying] at hi
      simp at hi
    | setFlush x hs => exact keep rfl rfl (fun h => absurd hs h)
    | set x hs hx => exact keep rfl rfl (fun h => absurd hs h)
    | setNotify hs =>
      refine keep rfl rfl ?_
      intro _ hc
      rw [hc.setters] at hs
      omega
    | reset hs => exact keep rfl rfl (fun h => absurd hs h)
    | starting io ht ho => exact keep rfl rfl fun _ hc => ⟨hc.calls, hc.notifying, hc.setters, .inr rfl, hc.logging⟩
    | woken io ht ho => exact keep rfl rfl fun _ hc => ⟨hc.calls, hc.notifying, hc.setters, .inr rfl, hc.logging⟩
    | erase io name done ht ho => exact keep rfl rfl fun _ hc => ⟨hc.calls, hc.notifying, hc.setters, .inr rfl, hc.logging⟩
    | checkExit io w ht hl => exact keep rfl rfl fun _ hc => ⟨hc.calls, hc.notifying, hc.setters, .inl rfl, hc.logging⟩
    | drowse io ht => exact keep rfl rfl fun _ hc => ⟨hc.calls, hc.notifying, hc.setters, .inl rfl, hc.logging⟩
    | scanFull io last w name f ht hn hb hf =>
      exact keep rfl rfl fun _ hc => ⟨hc.calls, hc.notifying, hc.setters, .inl rfl, hc.logging⟩
    | stop hs hc hn hset ho => exact .inr ⟨by simp, hc, hn, hset, ho, rfl⟩
    | stopNotify hs =>
      have hc := hclosing (by rw [hs]; simp)
      exact .inr ⟨by simp, hc.calls, hc.notifying, hc.setters, hc.owner, hc.logging⟩
    | join hs ht =>
      have hc := hclosing (by rw [hs]; simp)
      exact .inr ⟨by simp, hc.calls, hc.notifying, hc.setters, hc.owner, hc.logging⟩
    | flush io ios last name f hs hn =>
      have hc := hclosing (by rw [hs]; simp)
      obtain ⟨h1, -, -, -, -, -, -, h2, h3, h4, h5, h6⟩ := flushFile_same paths s io ios name f
      refine .inr ⟨?_, by rw [h1]; exact hc.calls, by rw [h5]; exact hc.notifying,
        by rw [h6]; exact hc.setters, by rw [h4]; exact hc.owner, by rw [h2]; exact hc.logging⟩
      unfold flushFile
      split
      · split
        · split
          · simp
          · simp [hs]
        · simp
      · simp
    | finish last hs hn =>
      have hc := hclosing (by rw [hs]; simp)
      exact .inr ⟨by simp, hc.calls, hc.notifying, hc.setters, hc.owner, hc.logging⟩
    | _ => exact keep rfl rfl fun _ hc => ⟨hc.calls, hc.notifying, hc.setters, hc.owner, hc.logging⟩

/-- Whether a log file is after `last`. -/
def past (last : Option Nat) (x : Nat × LogFile) : Bool :=
  match last with
  | none => true
  | some k => decide (k < x.1)

theorem next_past (files : List (Nat × LogFile)) (last : Option Nat) :
    next files last = files.find? (past last) := rfl

/-- Sum over the log files after `last`. -/
def after (w : LogFile → Nat) (files : List (Nat × LogFile)) (last : Option Nat) : Nat :=
  ((files.filter (past last)).map fun x => w x.2).sum

theorem after_next {w : LogFile → Nat} {files : List (Nat × LogFile)} (h : Sorted files) {last : Option Nat}
    {n : Nat} {f : LogFile} (hn : next files last = some (n, f)) :
    after w files last = w f + after w files (some n) := by
  induction files with
  | nil => simp [next] at hn
  | cons x xs ih =>
    replace h := List.pairwise_cons.1 h
    have hskip : ∀ (m : Nat), x.1 ≤ m → after w (x :: xs) (some m) = after w xs (some m) := by
      intro m hm
      unfold after
      rw [List.filter_cons, if_neg (by simpa [past] using hm)]
    by_cases hx : past last x = true
    · have hxn : x = (n, f) := by
        rw [next_past, List.find?_cons_of_pos hx] at hn
        exact Option.some.inj hn
      subst hxn
      rw [hskip _ (Nat.le_refl _)]
      unfold after
      rw [List.filter_cons, if_pos hx, List.map_cons, List.sum_cons]
      congr 3
      apply List.filter_congr
      intro y hy
      have := h.1 y hy
      simp only at this
      cases last with
      | none => simp [past, this]
      | some k =>
        simp only [past, decide_eq_true_eq] at hx
        simp [past, this, show k < y.1 by omega]
    · have hn' : next xs last = some (n, f) := by
        rw [next_past] at hn ⊢
        rw [List.find?_cons_of_neg hx] at hn
        exact hn
      have hle : x.1 ≤ n := by
        have hm := List.mem_of_find?_eq_some hn'
        have := h.1 _ hm
        simp only at this
        omega
      rw [hskip n hle, ← ih h.2 hn']
      unfold after
      rw [List.filter_cons, if_neg hx]

/-- Changing a log file does not change the sum after it. -/
theorem after_update {w : LogFile → Nat} {files : List (Nat × LogFile)} {n : Nat} {g : LogFile → LogFile} :
    after w (update files n g) (some n) = after w files (some n) := by
  unfold after update
  rw [List.filter_map, List.map_map]
  have hf : List.filter (past (some n) ∘ fun x => if x.1 = n then (x.1, g x.2) else x) files =
      List.filter (past (some n)) files := by
    apply List.filter_congr
    intro x _
    simp only [Function.comp]
    split <;> rfl
  rw [hf]
  congr 1
  apply List.map_congr_left
  intro x hx
  rw [List.mem_filter] at hx
  have : n < x.1 := by simpa [past] using hx.2
  simp only [Function.comp]
  rw [if_neg (by omega)]

/-- Bound on the steps of the logging thread while the destructor waits for it. -/
def threadWork (s : State) : Nat :=
  let scan := fun last => 2 + after (fun f => f.buffer.length + 5) s.files last
  match s.thread with
  | .exited => 0
  | .checking _ => 1
  | .starting => 2
  | .woken => 2
  | .drowsy => 0
  | .asleep => 0
  | .scanning last _ => scan last
  | .opening name todo => scan (some name) + 3 + todo.length
  | .writing name _ _ todo _ => scan (some name) + 2 + todo.length
  | .returning name _ => scan (some name) + 1

/-- Bound on the steps until the destructor returns. -/
def endWork (s : State) : Nat :=
  if s.crashed then 0
  else match s.stage with
  | .joining => threadWork s + s.files.length + 2
  | .flushing last => after (fun _ => 1) s.files last + 1
  | _ => 0

/-- The logging thread does not wait and will not wait. -/
def Ending (s : State) : Prop :=
  s.stage = .joining ∧ s.thread ≠ .drowsy ∧ s.thread ≠ .asleep ∨
  (∃ last, s.stage = .flushing last) ∨ s.stage = .destroyed

theorem update_length (files : List (Nat × LogFile)) (n : Nat) (g : LogFile → LogFile) :
    (update files n g).length = files.length := by simp [update]

theorem after_one (files : List (Nat × LogFile)) : after (fun _ => 1) files none = files.length := by
  unfold after
  rw [List.filter_eq_self.2 (by simp [past])]
  simp

theorem flushFile_stage {paths : Nat → Path} {s : State} {io : Io} {ios : List Io} {name : Nat} {f : LogFile} :
    (flushFile paths s io ios name f).crashed = true ∧ (flushFile paths s io ios name f).stage = s.stage ∨
    (flushFile paths s io ios name f).stage = .flushing (some name) ∧
      ∃ g, (flushFile paths s io ios name f).files = update s.files name g := by
  have hid : s.files = update s.files name id := by
    unfold update
    rw [List.map_congr_left (g := id) (fun x _ => by simp)]
    simp
  unfold flushFile
  split
  · split
    · split
      · exact .inr ⟨rfl, _, by dsimp only⟩
      · exact .inl ⟨rfl, rfl⟩
    · exact .inr ⟨rfl, _, by dsimp only⟩
  · exact .inr ⟨rfl, id, hid⟩

/-- Every step brings the destructor closer to its end. -/
theorem ending_step {paths : Nat → Path} {σ : Settings} {fs : Fs} {s s' : State} {ev : Event}
    (h : Reachable paths σ fs s) (he : Ending s) (hs : step paths s ev = some s') :
    Ending s' ∧ endWork s' < endWork s := by
  have hb := base h
  have hna : s.stage ≠ .alive := by
    rcases he with ⟨h1, -⟩ | ⟨last, h1⟩ | h1 <;> rw [h1] <;> simp
  have hc : Closing s := by
    rcases closing h with ⟨h1, -⟩ | ⟨-, h1⟩
    · exact absurd h1 hna
    · exact h1
  have hcr := (step_cases hs).1
  replace hs := (step_cases hs).2
  -- steps of the logging thread
  have thr : s.thread ≠ .exited → s'.stage = s.stage → s'.thread ≠ .drowsy → s'.thread ≠ .asleep →
      s'.files.length = s.files.length → (s.stage = .joining → s'.crashed = true ∨ threadWork s' < threadWork s) →
      Ending s' ∧ endWork s' < endWork s := by
    intro ht hst h1 h2 hl hw
    have hj : s.stage = .joining := by
      rcases he with ⟨h1, -⟩ | ⟨last, h1⟩ | h1
      · exact h1
      · rcases hb.ended with ⟨h, -⟩ | h
        · exact absurd h1 (h last)
        · exact absurd h ht
      · rcases hb.ended with ⟨-, h⟩ | h
        · exact absurd h1 h
        · exact absurd h ht
    refine ⟨.inl ⟨hst.trans hj, h1, h2⟩, ?_⟩
    unfold endWork
    rw [hst, hj, hcr, hl]
    simp only [Bool.false_eq_true, if_false]
    rcases hw hj with h | h
    · rw [if_pos h]; omega
    · split <;> omega
  have hnj : s.stage = .joining → s.thread ≠ .drowsy ∧ s.thread ≠ .asleep := by
    intro hj
    rcases he with ⟨-, h1⟩ | ⟨last, h1⟩ | h1
    · exact h1
    · rw [hj] at h1; cases h1
    · rw [hj] at h1; cases h1
  have hex : s.thread = .drowsy ∨ s.thread = .asleep → False := by
    intro h1
    have hx : s.thread ≠ .exited := by rcases h1 with h1 | h1 <;> rw [h1] <;> simp
    rcases he with ⟨hj, -⟩ | ⟨last, hl⟩ | hl
    · rcases h1 with h1 | h1
      · exact (hnj hj).1 h1
      · exact (hnj hj).2 h1
    · rcases hb.ended with ⟨h, -⟩ | h
      · exact h last hl
      · exact hx h
    · rcases hb.ended with ⟨-, h⟩ | h
      · exact h hl
      · exact hx h
  cases hs with
  | call tid name time level message hs hc' hn ho hl => exact absurd hs hna
  | callFiltered tid name time level message hs hl => exact absurd hs hna
  | enter i r hi ho => rw [hc.calls] at hi; simp at hi
  | leaveNotify tid name ho hf => rcases hc.owner with h | h <;> rw [h] at ho <;> cases ho
  | leave tid name ho hf => rcases hc.owner with h | h <;> rw [h] at ho <;> cases ho
  | notify i hi => rw [hc.notifying] at hi; simp at hi
  | setFlush x hs => exact absurd hs hna
  | set x hs hx => exact absurd hs hna
  | setNotify hs => rw [hc.setters] at hs; omega
  | reset hs => exact absurd hs hna
  | starting io ht ho =>
    exact thr (by rw [ht]; simp) rfl (by simp) (by simp) rfl fun _ => .inr (by simp [threadWork, ht])
  | checkWait io ht hl => rw [hc.logging] at hl; cases hl
  | checkScan io ht hl => rw [hc.logging] at hl; cases hl
  | checkExit io w ht hl =>
    exact thr (by rw [ht]; simp) rfl (by simp) (by simp) rfl fun _ => .inr (by simp [threadWork, ht])
  | drowse io ht => exact (hex (.inl ht)).elim
  | woken io ht ho =>
    exact thr (by rw [ht]; simp) rfl (by simp) (by simp) rfl fun _ => .inr (by simp [threadWork, ht])
  | scanEnd io last w ht hn =>
    exact thr (by rw [ht]; simp) rfl (by simp) (by simp) rfl fun _ => .inr (by simp [threadWork, ht]; omega)
  | scanFull io last w name f ht hn hbuf hf =>
    refine thr (by rw [ht]; simp) rfl (by simp) (by simp) rfl fun _ => .inr ?_
    have := after_next (w := fun f => f.buffer.length + 5) hb.sorted hn
    simp only [threadWork, ht, this, List.length_reverse]
    omega
  | scanSkip io last w name f ht hn hf =>
    refine thr (by rw [ht]; simp) rfl (by simp) (by simp) rfl fun _ => .inr ?_
    have := after_next (w := fun f => f.buffer.length + 5) hb.sorted hn
    simp only [threadWork, ht, this]
    omega
  | openOk io name todo f fs l ht hp =>
    refine thr (by rw [ht]; simp) rfl (by simp) (by simp) (by simp [update_length]) fun _ => .inr ?_
    simp only [threadWork, ht, after_update]
    omega
  | openFail io name todo f fs ht hp =>
    refine thr (by rw [ht]; simp) rfl (by simp) (by simp) (by simp [update_length]) fun _ => .inr ?_
    simp only [threadWork, ht, after_update]
    omega
  | writeDone io name p l done ht =>
    refine thr (by rw [ht]; simp) rfl (by simp) (by simp) rfl fun _ => .inr ?_
    simp only [threadWork, ht, List.length_nil]
    omega
  | writeNext io name p l e todo done fs l' whole ht hw =>
    refine thr (by rw [ht]; simp) rfl (by simp) (by simp) rfl fun _ => .inr ?_
    simp only [threadWork, ht, List.length_cons]
    omega
  | writeBefore io name p l e todo done fs ht hw =>
    refine thr (by rw [ht]; simp) rfl (by simp) (by simp) rfl fun _ => .inr ?_
    simp only [threadWork, ht, List.length_cons]
    omega
  | writeAfter io name p l e todo done fs ht hw =>
    refine thr (by rw [ht]; simp) rfl (by simp) (by simp) rfl fun _ => .inr ?_
    simp only [threadWork, ht, List.length_cons]
    omega
  | writeCrash io name p l e todo done ht hw =>
    exact thr (by rw [ht]; simp) rfl (by rw [ht]; simp) (by rw [ht]; simp) rfl fun _ => .inl rfl
  | erase io name done ht ho =>
    refine thr (by rw [ht]; simp) rfl (by simp) (by simp) (by simp [update_length]) fun _ => .inr ?_
    simp only [threadWork, ht, after_update]
    omega
  | spurious ht => exact (hex (.inr ht)).elim
  | stop hs hc' hn hset ho => exact absurd hs hna
  | stopNotify hs =>
    rcases he with ⟨h1, -⟩ | ⟨last, h1⟩ | h1 <;> rw [hs] at h1 <;> cases h1
  | join hs ht =>
    refine ⟨.inr (.inl ⟨none, rfl⟩), ?_⟩
    unfold endWork
    rw [hcr, hs]
    simp only [Bool.false_eq_true, if_false, after_one]
    omega
  | flush io ios last name f hs hn =>
    have hlt : endWork s = after (fun _ => 1) s.files (some name) + 2 := by
      unfold endWork
      rw [hcr, hs]
      simp only [Bool.false_eq_true, if_false]
      rw [after_next hb.sorted hn]
      omega
    rcases flushFile_stage (paths := paths) (s := s) (io := io) (ios := ios) (name := name) (f := f)
      with ⟨h1, h2⟩ | ⟨h1, g, h2⟩
    · refine ⟨.inr (.inl ⟨last, h2.trans hs⟩), ?_⟩
      rw [hlt]
      unfold endWork
      rw [if_pos h1]
      omega
    · refine ⟨.inr (.inl ⟨_, h1⟩), ?_⟩
      rw [hlt]
      unfold endWork
      rw [h1, h2]
      split
      · omega
      · simp only [after_update]; omega
  | finish last hs hn =>
    refine ⟨.inr (.inr rfl), ?_⟩
    unfold endWork
    rw [hcr, hs]
    simp

/-- The destructor is never stuck. -/
theorem ending_enabled {paths : Nat → Path} {σ : Settings} {fs : Fs} {s : State}
    (h : Reachable paths σ fs s) (he : Ending s) (hcr : s.crashed = false) (hnd : s.stage ≠ .destroyed) :
    ∃ ev, (step paths s ev).isSome := by
  have hb := base h
  rcases he with ⟨hj, h1, h2⟩ | ⟨last, hl⟩ | hd
  · have hc : Closing s := by
      rcases closing h with ⟨h1, -⟩ | ⟨-, h1⟩
      · rw [hj] at h1; cases h1
      · exact h1
    have hfree : holds s.thread = false → s.owner = .free := by
      intro hh
      rcases hc.owner with ho | ho
      · exact ho
      · have := hb.owner.1 ho
        rw [hh] at this; cases this
    by_cases hx : s.thread = .exited
    · refine ⟨.join, ?_⟩
      unfold step
      rw [hcr]
      simp [hj, hx]
    · refine ⟨.thread {}, ?_⟩
      unfold step
      rw [hcr]
      simp only [Bool.false_eq_true, if_false]
      unfold threadStep
      cases ht : s.thread with
      | starting => simp [hfree (by rw [ht]; rfl)]
      | checking w => simp [hc.logging]
      | drowsy => exact absurd ht h1
      | asleep => exact absurd ht h2
      | woken => simp [hfree (by rw [ht]; rfl)]
      | scanning last w =>
        simp only
        split
        · rfl
        · split <;> rfl
      | opening name todo =>
        simp only
        split <;> rfl
      | writing name p l todo done =>
        cases todo with
        | nil => rfl
        | cons e todo =>
          simp only
          split <;> rfl
      | returning name done => simp [hfree (by rw [ht]; rfl)]
      | exited => exact absurd ht hx
  · cases hn : next s.files last with
    | none =>
      refine ⟨.finish, ?_⟩
      unfold step
      rw [hcr]
      simp [hl, hn]
    | some x =>
      refine ⟨.flush {} [], ?_⟩
      unfold step
      rw [hcr]
      simp [hl, hn]
  · exact absurd hd hnd

theorem reachable_run {paths : Nat → Path} {σ : Settings} {fs : Fs} {s s' : State} {evs : List Event}
    (h : Reachable paths σ fs s) (hr : run paths s evs = some s') : Reachable paths σ fs s' := by
  induction evs generalizing s with
  | nil => cases hr; exact h
  | cons ev evs ih =>
    simp only [run] at hr
    cases hs : step paths s ev with
    | none => rw [hs] at hr; cases hr
    | some s₁ => rw [hs] at hr; exact ih (.step ev h hs) hr

theorem ending_run {paths : Nat → Path} {σ : Settings} {fs : Fs} {s s' : State} {evs : List Event}
    (h : Reachable paths σ fs s) (he : Ending s) (hr : run paths s evs = some s') :
    Ending s' ∧ evs.length + endWork s' ≤ endWork s := by
  induction evs generalizing s with
  | nil => cases hr; exact ⟨he, by simp⟩
  | cons ev evs ih =>
    simp only [run] at hr
    cases hs : step paths s ev with
    | none => rw [hs] at hr; cases hr
    | some s₁ =>
      rw [hs] at hr
      obtain ⟨h1, h2⟩ := ending_step h he hs
      obtain ⟨h3, h4⟩ := ih (.step ev h hs) h1 hr
      refine ⟨h3, ?_⟩
      rw [List.length_cons]
      omega

end Pluto.Log
