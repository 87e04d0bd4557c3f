import Verif.Proofs.LogOutsideGo

/-! # Properties of a logger whose files and directory are changed by others (C134) -/

namespace Pluto.Props
open Pluto.LogOutside
open Pluto.LogShare (Config)

theorem outside_inv {cfg : Config} {w : Prop} {ok : State → Event → Prop} {s₀ s : State} (h : Start s₀)
    (hok : w → ∀ s ev, ok s ev → NoAppend s ev) (hr : Reachable cfg ok s₀ s) :
    Inv w cfg s₀ s ∧ Names s ∧ Shape s ∧ lines s ++ s.queue = s.logged := by
  induction hr with
  | init =>
    obtain ⟨-, h2, -, -, -, h6, h7⟩ := h.logger
    exact ⟨inv_start h, names_start h, shape_start h, by unfold lines; rw [h2, h6, h7]; rfl⟩
  | step ev _ ho hs ih =>
    obtain ⟨I, N, S, L⟩ := ih
    exact ⟨inv_step I N (fun hw => hok hw _ ev ho) hs, names_step N hs, shape_step S hs, step_lines hs L⟩

/-- C134, the part that holds: whatever others do, each entry is put into one file, in order, or is still to be written;
and a file gets exactly what was put into it, in order, what the stream still has in its buffer excepted. -/
theorem C134_order_partial {cfg : Config} {s₀ s : State} (h : Start s₀) (hr : Reachable cfg anything s₀ s) :
    lines s ++ s.queue = s.logged ∧
      ∀ file, mine (s.fs.data file) ++ pending s file = (pieces s file).flatMap (·.2) := by
  obtain ⟨I, -, -, L⟩ := outside_inv (w := False) h (fun h => h.elim) hr
  exact ⟨L, I.chars⟩

/-- C134, the part that holds: if others write nothing to files, then each file holds what was in it at first, the header
if that was nothing, and lines; also when it is renamed while the logger writes to it, or rotated. -/
theorem C134_files_partial {cfg : Config} (hh : cfg.header ≠ some []) {s₀ s : State} (h : Start s₀) (hr : Reachable cfg NoAppend s₀ s)
    (file : Nat) :
    (s.fs.data file).map (·.2) ++ pending s file = (s₀.fs.data file).map (·.2) ++ (pieces s file).flatMap (·.2) ∧
      (pieces s file = [] ∨ ∃ ls : List (List Char),
        pieces s file = (if s₀.fs.data file = [] then cfg.header.toList.map (true, ·) else []) ++ ls.map (false, ·)) := by
  obtain ⟨I, -⟩ := outside_inv (w := True) h (fun _ _ _ h => h) hr
  exact ⟨I.files trivial file, I.heads trivial hh file⟩

/-- C134, the part that holds: if others remove and replace no files and the directory stays, then without rotation by the
logger all files that it wrote to still have a name, whatever they are renamed to and whenever. -/
theorem C134_kept_partial {cfg : Config} (h0 : cfg.rotationSize = 0) {s₀ s : State} (h : Start s₀) (hr : Reachable cfg NoRemove s₀ s)
    (file : Nat) (hf : pieces s file ≠ []) : ∃ n, s.fs.entry n = some file := by
  suffices Named s from this.wrote file hf
  clear hf
  induction hr with
  | init => exact named_start h
  | step ev _ ho hs ih => exact named_step h0 ih ho hs

/-- C134, the part that holds: in whatever state others leave the files, also in the middle of a rotation, the logging
thread writes all entries if they do nothing more, provided that the directory exists or the logger has not yet created
it. -/
theorem C134_resumes_partial {cfg : Config} {s₀ s : State} (h : Start s₀) (hr : Reachable cfg anything s₀ s) (hu : Usable s) :
    ∃ n s', run cfg s (List.replicate n .go) = some s' ∧ s'.queue = [] ∧ s'.stream = none ∧ lines s' = s.logged := by
  obtain ⟨-, N, S, L⟩ := outside_inv (w := False) h (fun h => h.elim) hr
  obtain ⟨s', h1, h2, h3⟩ := all_goes (cfg := cfg) S N hu
  obtain ⟨n, hn⟩ := h1.run
  refine ⟨n, s', hn, h3, h2, ?_⟩
  have := h1.lines.1
  rw [h3, L] at this
  simpa using this

/-- C134, the part that holds: and without rotation, once the logger has no file open, these entries are in the file that
has the name of the log file then, with the provision above. -/
theorem C134_named_partial {cfg : Config} (h0 : cfg.rotationSize = 0) {s₀ s : State} (h : Start s₀) (hr : Reachable cfg anything s₀ s)
    (hst : s.stream = none) (hu : Usable s) (hq : s.queue ≠ []) :
    ∃ n s' new file, run cfg s (List.replicate n .go) = some s' ∧ s'.queue = [] ∧ s'.fs.entry (.own 0) = some file ∧
      s'.put = s.put ++ new ∧ (∀ y ∈ new, y.1 = file) ∧ (new.filter fun y => !y.2.1) = s.queue.map fun line => (file, false, line) := by
  obtain ⟨-, -, S, -⟩ := outside_inv (w := False) h (fun h => h.elim) hr
  have hpc : s.pc = .idle := by
    have : ∀ {s}, Reachable cfg anything s₀ s → s.pc = .idle ∨ s.pc = .turn := by
      intro s hr
      induction hr with
      | init => exact .inl h.logger.2.2.2.1
      | step ev _ _ hs ih => exact outside_pc h0 ih hs
    rcases this hr with h1 | h1
    · exact h1
    · unfold Shape at S
      rw [h1] at S
      exact (S.1 hst).elim
  obtain ⟨s', x, d, h1, h2, h3, h4, h5, h6, h7⟩ := idle_put h0 hpc hst hu hq
  obtain ⟨n, hn⟩ := h1.run
  exact ⟨n, s', x, d, hn, h3, h4, h5, h6, h7⟩

/-! ## Cases -/

theorem outside_run {cfg : Config} {ok : State → Event → Prop} {s₀ s s' : State} (h : Reachable cfg ok s₀ s) (evs : List Event)
    (hok : ∀ ev ∈ evs, ∀ s, ok s ev) (hs : run cfg s evs = some s') : Reachable cfg ok s₀ s' := by
  induction evs generalizing s with
  | nil => cases hs; exact h
  | cons ev evs ih =>
    simp only [run] at hs
    split at hs
    · rename_i t ht
      exact ih (.step ev h (hok ev (by simp) s) ht) (fun e he => hok e (by simp [he])) hs
    · cases hs

theorem outside_start : Start {} :=
  ⟨fun _ _ h => (by cases h), fun _ _ => rfl, fun _ _ h => (by cases h), fun _ h => (h rfl).elim, ⟨0, fun _ _ => rfl⟩,
    rfl, rfl, rfl, rfl, rfl, rfl, rfl⟩

/-- A log file is renamed while the logger writes to it, as programs that rotate logs do: the rest of the batch is in the
renamed file, what comes later is in a new one, which has a header of its own. -/
def exampleRenamed : List Event :=
  [.log "a\n".toList, .log "b\n".toList, .go, .go, .flush 1, .move (.own 0) (.other 7), .go, .go, .log "c\n".toList, .go, .go, .go]

example : (run { header := some "H\n".toList } {} exampleRenamed).map (fun s => (text s (.own 0), text s (.other 7))) =
    some (some "H\nc\n", some "H\na\nb\n") := by
  decide

/-- The same by hypotheses: others neither write to files nor remove any. -/
example : ∃ s, Reachable { header := some "H\n".toList } (fun s ev => NoAppend s ev ∧ NoRemove s ev) {} s ∧
    pieces s 0 = [(true, "H\n".toList), (false, "a\n".toList), (false, "b\n".toList)] ∧
    pieces s 1 = [(true, "H\n".toList), (false, "c\n".toList)] ∧ Usable s ∧ s.stream = none := by
  have h1 := outside_run (cfg := { header := some "H\n".toList }) (ok := fun s ev => NoAppend s ev ∧ NoRemove s ev) (s₀ := {}) .init
    (exampleRenamed.take 5) (by
      intro ev hev s
      simp only [exampleRenamed, List.take, List.mem_cons, List.not_mem_nil, or_false] at hev
      rcases hev with rfl | rfl | rfl | rfl | rfl <;> exact ⟨fun _ _ h => (by cases h), trivial⟩) rfl
  have h2 := Reachable.step (.move (.own 0) (.other 7)) h1 ⟨fun _ _ h => (by cases h), rfl⟩ rfl
  have h3 := outside_run h2 (exampleRenamed.drop 6) (by
      intro ev hev s
      simp only [exampleRenamed, List.drop, List.mem_cons, List.not_mem_nil, or_false] at hev
      rcases hev with rfl | rfl | rfl | rfl | rfl | rfl <;> exact ⟨fun _ _ h => (by cases h), trivial⟩) rfl
  exact ⟨_, h3, by decide, by decide, .inl rfl, rfl⟩

/-- C134. While there is no directory and the logger has created it once, nothing is written if no
file is open. -/
theorem C134_stuck {cfg : Config} {s₀ s s' : State} (h : Start s₀) (hr : Reachable cfg anything s₀ s) (hc : s.dirsCreated = true)
    (hd : s.fs.there = false) (hst : s.stream = none) (hr' : Reachable cfg NoMakeDir s s') : s'.put = s.put ∧ ∀ k, s'.fs.entry (.own k) = none := by
  suffices Stuck s' ∧ s'.put = s.put from ⟨this.2, this.1.none_⟩
  obtain ⟨-, N, -, -⟩ := outside_inv (w := False) h (fun h => h.elim) hr
  have hs : Stuck s := ⟨hc, hd, fun k => Classical.byContradiction fun h => (by rw [N.dir k h] at hd; cases hd), hst⟩
  induction hr' with
  | init => exact ⟨hs, rfl⟩
  | step ev _ ho hs' ih =>
    obtain ⟨h1, h2⟩ := stuck_step ih.1 ho hs'
    exact ⟨h1, h2.trans ih.2⟩

/-- C134. The directory is removed: the logger, which has created it, does not create it again, although `create_dirs` is on
all the time. What is logged from then on is never written, whatever happens, unless somebody else creates the directory.
(The property is false.) -/
theorem C134_fails : ∃ s, Reachable {} anything {} s ∧ s.createDirs = true ∧ s.logged = ["a\n".toList, "b\n".toList] ∧
    lines s = ["a\n".toList] ∧ ∀ s', Reachable {} NoMakeDir s s' → lines s' = ["a\n".toList] ∧ ∀ k, s'.fs.entry (.own k) = none := by
  have h := outside_run (cfg := {}) (ok := anything) (s₀ := {}) .init
    [.log "a\n".toList, .go, .go, .go, .removeDir, .log "b\n".toList] (fun _ _ _ => trivial) rfl
  refine ⟨_, h, rfl, rfl, rfl, fun s' hs' => ?_⟩
  obtain ⟨h1, h2⟩ := C134_stuck outside_start h rfl rfl rfl hs'
  refine ⟨?_, h2⟩
  unfold lines
  rw [h1]
  rfl

/-- C134. Entries that are written after others removed the file in the middle of a batch are lost. (The property is
false.) -/
theorem C134_removed : ∃ s, Reachable {} anything {} s ∧ s.queue = [] ∧ s.stream = none ∧ lines s = ["a\n".toList, "b\n".toList] ∧
    ∀ n, s.fs.entry n = none := by
  have h := outside_run (cfg := {}) (ok := anything) (s₀ := {}) .init
    [.log "a\n".toList, .log "b\n".toList, .go, .go, .remove (.own 0), .go, .go] (fun _ _ _ => trivial) rfl
  refine ⟨_, h, rfl, rfl, by decide, fun n => ?_⟩
  by_cases e : n = .own 0
  · exact if_pos e
  · exact (if_neg e).trans (if_neg e)

/-- C134. Others create a file that has the name of a rotated one in the middle of a rotation, when that name is free: the
logger replaces it, although it may keep five files and there is only one. (The property is false.) -/
theorem C134_replaced : ∃ s, Reachable { rotationSize := 1, rotationLimit := 5 } NoRemove {} s ∧
    text s (.own 0) = some "b\n" ∧ text s (.own 1) = some "a\n" ∧ s.fs.data 1 = [(false, 'x')] ∧ ∀ n, s.fs.entry n ≠ some 1 := by
  have h := outside_run (cfg := { rotationSize := 1, rotationLimit := 5 }) (ok := NoRemove) (s₀ := {}) .init
    [.log "a\n".toList, .log "b\n".toList, .go, .go, .go, .go, .go, .create (.own 1), .append (.own 1) ['x'], .go, .go, .go, .go, .go]
    (by
      intro ev hev s
      simp only [List.mem_cons, List.not_mem_nil, or_false] at hev
      rcases hev with rfl | rfl | rfl | rfl | rfl | rfl | rfl | rfl | rfl | rfl | rfl | rfl | rfl | rfl <;> trivial) rfl
  refine ⟨_, h, by decide, by decide, by decide, fun n => ?_⟩
  by_cases e : n = .own 0
  · subst e; decide
  · by_cases e' : n = .own 1
    · subst e'; decide
    · refine fun hn => absurd (Eq.trans (Eq.symm ?_) hn : (none : Option Nat) = some 1) (by decide)
      exact (if_neg e).trans ((if_neg e').trans ((if_neg e).trans ((if_neg e').trans (if_neg e))))

end Pluto.Props
