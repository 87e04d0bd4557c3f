import Verif.Proofs.LogDir
import Verif.Spec.LogDir
import Verif.Props.Log

/-! # The directories of log files (C132) and the working directory (C133) -/

namespace Pluto.Props
open Pluto.Log Pluto.Spec.Log

/-! ## C132: directories -/

/-- C132. While `create_dirs` is off, no directory is created. -/
theorem C132_off {paths : Nat → Path} {okIo : Io → Prop} {fs : Fs} {s : State}
    (h : Reaches paths (·.createDirs = false) okIo fs s) : s.fs.dirs = fs.dirs := by
  obtain ⟨σ, hσ, h⟩ := h
  suffices s.fs.dirs = fs.dirs ∧ Busy s from this.1
  induction h with
  | init => exact ⟨rfl, by simp [init, Busy]⟩
  | @step s s' ev hr hok hs ih =>
    refine ⟨?_, busy_step ih.2 hs⟩
    rcases step_dirs (base (reachable_of_by hr)) (pathsOk (reachable_of_by hr)) ih.2 hs with h | ⟨h, -⟩
    · rw [h, ih.1]
    · rw [within_settings (okσ := (·.createDirs = false)) hσ hr] at h
      cases h

/-- C132. No directory is created but those of log files to which something has been logged, and none is removed. -/
theorem C132_only {paths : Nat → Path} {σ : Settings} {fs : Fs} {s : State} (h : Reachable paths σ fs s) (d : List Char) :
    (d ∈ fs.dirs → d ∈ s.fs.dirs) ∧
      (d ∈ s.fs.dirs → d ∈ fs.dirs ∨ ∃ name, accepted s name ≠ [] ∧ d = (paths name).dir) := by
  suffices ((d ∈ fs.dirs → d ∈ s.fs.dirs) ∧
      (d ∈ s.fs.dirs → d ∈ fs.dirs ∨ ∃ name, accepted s name ≠ [] ∧ d = (paths name).dir)) ∧ Busy s from this.1
  induction h with
  | init => exact ⟨⟨id, .inl⟩, by simp [init, Busy]⟩
  | @step s s' ev hr hs ih =>
    have hb := base hr
    have hacc : ∀ name, accepted s name ≠ [] → accepted s' name ≠ [] := by
      intro name hne h0
      obtain ⟨new, hn⟩ := accepted_step hs
      unfold accepted at hne h0
      rw [hn, List.filterMap_append] at h0
      exact hne (List.append_eq_nil_iff.1 h0).1
    refine ⟨?_, busy_step ih.2 hs⟩
    rcases step_dirs hb (pathsOk hr) ih.2 hs with h | ⟨-, n, hn, h⟩
    · rw [h]
      exact ⟨ih.1.1, fun hd => (ih.1.2 hd).imp_right fun ⟨n, h1, h2⟩ => ⟨n, hacc n h1, h2⟩⟩
    · rw [h]
      refine ⟨fun hd => List.mem_cons_of_mem _ (ih.1.1 hd), fun hd => ?_⟩
      rcases List.mem_cons.1 hd with rfl | hd
      · refine .inr ⟨n, hacc n fun h0 => ?_, rfl⟩
        obtain ⟨erased, h1, -⟩ := hb.kept n
        rw [h0] at h1
        exact hn (List.append_eq_nil_iff.1 h1.symm).2
      · exact (ih.1.2 hd).imp_right fun ⟨n, h1, h2⟩ => ⟨n, hacc n h1, h2⟩

/-- C132. While `create_dirs` is on, a file can be opened although its directory does not exist: if nothing fails, the
logging thread, which is about to open the file, has it open one step later. -/
theorem C132_on {paths : Nat → Path} {okIo : Io → Prop} {fs : Fs} {s s' : State} {name : Nat} {todo : List Entry} {io : Io}
    (h : Reaches paths (·.createDirs = true) okIo fs s) (ht : s.thread = .opening name todo) (hio : io.prepare = false)
    (hopen : io.opening = false) (hs : step paths s (.thread io) = some s') :
    (∃ p l, s'.thread = .writing name p l todo 0) ∧ read s'.fs (paths name) ≠ none ∧ (paths name).dir ∈ s'.fs.dirs := by
  obtain ⟨σ, hσ, hr⟩ := h
  have hset := within_settings (okσ := (·.createDirs = true)) hσ hr
  have hp' := pathsOk (reachable_of_by hr)
  have hr' := (base (reachable_of_by hr)).range
  rw [ht] at hr'
  obtain ⟨f₀, hf₀⟩ := Option.isSome_iff_exists.1 hr'.1
  obtain ⟨-, hS⟩ := step_cases hs
  have hprep : ∀ f, prepare s.settings io (paths name) f s.fs = prepare s.settings {} (paths name) f s.fs := by
    intro f
    unfold prepare
    rw [hio, hopen]
  obtain ⟨f', fs', h1, h2, -, h3⟩ := prepare_ok (hp'.known name f₀ hf₀) hset (hp'.dirs name f₀ hf₀)
  have h4 := (prepare_cases (hp'.known name f₀ hf₀) h1).2.2.2 _ rfl
  unfold step at hs
  split at hs
  · cases hs
  · simp only [threadStep, ht, hf₀, Option.getD_some, hprep, h1] at hs
    cases hs
    exact ⟨⟨_, _, rfl⟩, h4.2.2.1, h3⟩

/-- C132. Directories are created once: when an entry has been written to a log file, with `create_dirs` on all the
time or off now, it does not matter any more whether directories can be created or what the name stands for. -/
theorem C132_once {paths : Nat → Path} {on : Bool} {okIo : Io → Prop} {fs : Fs} {s : State} {name : Nat} {todo : List Entry}
    (h : Reaches paths (fun σ => on = true → σ.createDirs = true) okIo fs s) (hon : on = true ∨ s.settings.createDirs = false)
    (ht : s.thread = .opening name todo) (hw : written s name ≠ []) (io : Io) (paths' : Nat → Path) (b : Bool) :
    step paths' s (.thread { io with prepare := b }) = step paths s (.thread { io with prepare := false }) := by
  have ho := opened' (on := on) (fun _ h => h) h
  obtain ⟨x, hx, rfl⟩ : ∃ x ∈ s.passed, x.1 = name := by
    obtain ⟨e, he⟩ := List.exists_mem_of_ne_nil _ hw
    obtain ⟨x, hx, hx'⟩ := List.mem_filterMap.1 he
    refine ⟨x, hx, ?_⟩
    split at hx'
    · rename_i hc; exact hc.1
    · cases hx'
  obtain ⟨f, hf, hr⟩ := ho.passed x hx
  obtain ⟨q, hq⟩ := Option.isSome_iff_exists.1 hr.1
  have hdirs : ¬ (s.settings.createDirs = true ∧ f.dirsCreated = false) := by
    rintro ⟨h1, h2⟩
    rcases hon with h3 | h3
    · rw [hr.2 h3] at h2; cases h2
    · rw [h3] at h1; cases h1
  have hp : ∀ p b, prepare s.settings { io with prepare := b } p f s.fs =
      prepare s.settings { io with prepare := false } (paths x.1) f s.fs := by
    intro p b
    unfold prepare
    simp only [hq, Option.isNone_some, Bool.false_eq_true, false_and, if_false, Option.getD_some]
    rw [if_neg (c := _ ∧ _ ∧ _ = true) (fun h => hdirs ⟨h.1, h.2.1⟩)]
    simp only [and_false, if_false]
  unfold step
  split
  · rfl
  · rcases heq : prepare s.settings { io with prepare := false } (paths x.1) f s.fs with ⟨f', fs', l⟩
    simp only [threadStep, ht, hf, Option.getD_some, hp (paths' x.1) b, heq]
    have := (prepare_keeps heq).1 hr.1
    obtain ⟨q', hq'⟩ := Option.isSome_iff_exists.1 this
    simp only [hq', Option.getD_some]

/-- An entry is written, and another one is about to be. -/
def exampleTwice : List Event := exampleWrite 1 0 "one" ++ exampleThread 5 ++ exampleWrite 2 0 "two" ++ exampleThread 5

example : (run examplePaths (init exampleSettings {}) exampleTwice).map (fun s =>
      (s.thread, written s 0, (run examplePaths s [.thread { prepare := true }, .thread {}]).map (fun s => written s 0))) =
    some (.opening 0 [⟨0, 2, 3, "two".toList, 1⟩], [⟨0, 1, 3, "one".toList, 0⟩],
      some [⟨0, 1, 3, "one".toList, 0⟩, ⟨0, 2, 3, "two".toList, 1⟩]) := by
  decide

/-- With `create_dirs` off, nothing is written to a directory that does not exist. -/
example : (run examplePaths (init { exampleSettings with createDirs := false } {}) (exampleWrite 1 0 "one" ++ exampleThread 9)).map
      (fun s => (s.fs, buffered s 0)) =
    some ({}, [⟨0, 1, 3, "one".toList, 0⟩]) := by
  decide

/-! ## C133: the working directory -/

theorem pathOf_init (σ : Settings) (fs : Fs) (n : Nat) : pathOf (init σ fs) n = none := rfl

/-- C133, the part that holds: whatever becomes of the working directory, the logger does what it does when each name
stands for the same file all the time, for one that it stood for at some time. (So all other properties hold.) -/
theorem C133_fixed_partial {σ : Settings} {fs : Fs} {s : State} {evs : List ((Nat → Path) × Event)} (hne : evs ≠ [])
    (h : runIn (init σ fs) evs = some s) :
    ∃ paths : Nat → Path, (∀ n, ∃ x ∈ evs, paths n = x.1 n) ∧ run paths (init σ fs) (evs.map (·.2)) = some s := by
  obtain ⟨x₀, hx₀⟩ := List.exists_mem_of_ne_nil _ hne
  obtain ⟨-, -, -, chosen, -, h2, h3⟩ := runIn_paths (base_init σ fs) h
  refine ⟨fun n => (chosen n).getD (x₀.1 n), fun n => ?_, h3 _ fun n p hn => by simp [hn]⟩
  cases hc : chosen n with
  | none => exact ⟨x₀, hx₀, by simp [hc]⟩
  | some p =>
    rcases h2 n p hc with h4 | ⟨x, hx, h4⟩
    · rw [pathOf_init] at h4; cases h4
    · exact ⟨x, hx, by simp [hc, h4]⟩

/-- C133, the part that holds: once an entry has been written, the name stands for the same file for the life of the
logger, one that it stood for until then: all entries that are written under this name are in this file and the rotated
ones. -/
theorem C133_stays_partial {σ : Settings} {fs : Fs} {s₁ s₂ : State} {evs evs' : List ((Nat → Path) × Event)}
    (hfs : Fresh fs) (hapart : Apart (evs ++ evs')) (h₁ : runIn (init σ fs) evs = some s₁) (h₂ : runIn s₁ evs' = some s₂)
    (name : Nat) (hw : written s₁ name ≠ []) :
    ∃ x ∈ evs, ∀ q, own name (read s₁.fs q) ≠ [] ∨ own name (read s₂.fs q) ≠ [] → ∃ i, q = pathAt (x.1 name) i := by
  have hne : evs ≠ [] := by
    rintro rfl
    cases h₁
    exact hw rfl
  obtain ⟨paths₁, hp₁, hr₁⟩ := C133_fixed_partial hne h₁
  have reaches : ∀ {paths : Nat → Path} {evs : List Event} {s : State}, run paths (init σ fs) evs = some s →
      Reaches paths (fun _ => True) (fun _ => True) fs s := by
    intro paths evs s h
    refine log_reaches trivial (fun ev _ s => ?_) h
    cases ev with
    | flush io ios => exact ⟨trivial, fun _ _ => trivial⟩
    | _ => trivial
  have ho := opened' (on := false) (fun _ _ h => by cases h) (reaches hr₁)
  obtain ⟨p, hp⟩ : ∃ p, pathOf s₁ name = some p := by
    obtain ⟨e, he⟩ := List.exists_mem_of_ne_nil _ hw
    obtain ⟨x, hx, hx'⟩ := List.mem_filterMap.1 he
    split at hx'
    · rename_i hc
      obtain ⟨f, hf, hr⟩ := ho.passed x hx
      rw [hc.1] at hf
      rw [pathOf_find hf]
      exact Option.isSome_iff_exists.1 hr.1
    · cases hx'
  obtain ⟨hb, -, h3, -⟩ := runIn_paths (base_init σ fs) h₁
  obtain ⟨x, hx, rfl⟩ : ∃ x ∈ evs, p = x.1 name := by
    rcases h3 name p hp with h4 | h4
    · rw [pathOf_init] at h4; cases h4
    · exact h4
  refine ⟨x, hx, ?_⟩
  have placed : ∀ {evs : List ((Nat → Path) × Event)} {s : State}, x ∈ evs → Apart evs → runIn (init σ fs) evs = some s →
      pathOf s name = some (x.1 name) → ∀ q, own name (read s.fs q) ≠ [] → ∃ i, q = pathAt (x.1 name) i := by
    intro evs s hx ha h hp q hq
    obtain ⟨-, -, -, chosen, h5, h6, h7⟩ := runIn_paths (base_init σ fs) h
    let paths : Nat → Path := fun n => (chosen n).getD (x.1 n)
    have hr := h7 paths fun n p hn => by simp [paths, hn]
    have hsep : Separate paths := by
      have : ∀ n, ∃ y ∈ evs, paths n = y.1 n := by
        intro n
        cases hc : chosen n with
        | none => exact ⟨x, hx, by simp [paths, hc]⟩
        | some p =>
          rcases h6 n p hc with h8 | ⟨y, hy, h8⟩
          · rw [pathOf_init] at h8; cases h8
          · exact ⟨y, hy, by simp [paths, hc, h8]⟩
      intro m n i j he
      obtain ⟨y, hy, h8⟩ := this m
      obtain ⟨z, hz, h9⟩ := this n
      rw [h8, h9] at he
      exact ha y hy z hz m n i j he
    obtain ⟨i, hi⟩ := disk_placed (okIo := fun _ => True) trivial (Separate.distinct hsep) hfs (reaches hr) q name hq
    refine ⟨i, ?_⟩
    rw [hi, show paths name = x.1 name by simp [paths, h5 name _ hp]]
  have hrun : runIn (init σ fs) (evs ++ evs') = some s₂ := by
    have key : ∀ (evs : List ((Nat → Path) × Event)) (s : State), runIn s evs = some s₁ → runIn s (evs ++ evs') = some s₂ := by
      intro evs
      induction evs with
      | nil => intro s h; cases h; exact h₂
      | cons y ys ih =>
        intro s h
        obtain ⟨paths, ev⟩ := y
        simp only [runIn, List.cons_append] at h ⊢
        split at h
        · exact ih _ h
        · cases h
    exact key evs _ h₁
  rintro q (hq | hq)
  · exact placed hx (fun a ha b hb => hapart a (List.mem_append_left _ ha) b (List.mem_append_left _ hb)) h₁ hp q hq
  · exact placed (List.mem_append_left _ hx) hapart hrun ((runIn_paths hb h₂).2.1 name _ hp) q hq

/-- What the names stand for in another directory. -/
def exampleElsewhere (n : Nat) : Path := ⟨'/' :: 'e' :: List.replicate n 'd', "log.txt".toList⟩

/-- The working directory is changed after the first entry has been written. -/
def exampleHere : List ((Nat → Path) × Event) := (exampleWrite 1 0 "one" ++ exampleThread 5).map (examplePaths, ·)

/-- A second entry is logged then. -/
def exampleThere : List ((Nat → Path) × Event) := (exampleWrite 2 0 "two" ++ exampleThread 7).map (exampleElsewhere, ·)

example : ((runIn (init exampleSettings {}) exampleHere).map fun s => (written s 0).map (·.message)) = some ["one".toList] ∧
    ((runIn (init exampleSettings {}) (exampleHere ++ exampleThere)).map fun s =>
      (s.fs.dirs, s.fs.files.map fun f => (f.1, (own 0 (some f.2)).map (·.message)))) =
    some ([['/']], [(examplePaths 0, ["one".toList, "two".toList])]) ∧ Apart (exampleHere ++ exampleThere) := by
  refine ⟨by decide, by decide, ?_⟩
  have key : ∀ x ∈ exampleHere ++ exampleThere, x.1 = examplePaths ∨ x.1 = exampleElsewhere := by
    intro x hx
    simp only [exampleHere, exampleThere, List.mem_append, List.mem_map] at hx
    rcases hx with ⟨_, -, rfl⟩ | ⟨_, -, rfl⟩ <;> simp
  intro x hx y hy m n i j h
  have hd := congrArg Path.dir h
  simp only [pathAt] at hd
  have hlen : ∀ a b : Nat, List.replicate a 'd' = 'e' :: List.replicate b 'd' → False := by
    intro a b h
    cases a with
    | zero => cases h
    | succ a => exact absurd (List.cons.inj h).1 (by decide)
  rcases key x hx with hx | hx <;> rcases key y hy with hy | hy <;> rw [hx, hy] at hd <;>
    simp only [examplePaths, exampleElsewhere, List.cons.injEq, true_and] at hd
  · simpa using congrArg List.length hd
  · exact (hlen _ _ hd).elim
  · exact (hlen _ _ hd.symm).elim
  · simpa using congrArg List.length hd

/-- C133. What counts is not the working directory at the time of the call, and not even the one when the entry is put
into the buffer, but the one when the logging thread gets to it: an entry that is logged before the working directory is
changed is in a file in the new one. (The property is false.) -/
theorem C133_fails : ∃ s, runIn (init exampleSettings {})
      ((exampleWrite 1 0 "one").map (examplePaths, ·) ++ (exampleThread 7).map (exampleElsewhere, ·)) = some s ∧
    own 0 (read s.fs (exampleElsewhere 0)) = [⟨0, 1, 3, "one".toList, 0⟩] ∧ read s.fs (examplePaths 0) = none :=
  ⟨_, rfl, by decide, by decide⟩

end Pluto.Props
