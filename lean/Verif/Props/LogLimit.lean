import Verif.Proofs.LogLimit
import Verif.Props.Log

/-! # A property of the settings for the rotation of files (C161) -/

namespace Pluto.Props
open Pluto.Log Pluto.Spec.Log

/-- C161, first part. Two loggers that are used in the same way and differ only in the rotation limit: the one with the
larger limit does the same, has the same in the files that the other one may have, and keeps all the entries that the
other one keeps, and possibly older ones. (The files may exist before; any operation but a rotation may fail.) -/
theorem C161_limit_partial {paths : Nat → Path} (hsep : Distinct paths) {σ : Settings} {fs : Fs} {a b : Nat} (hab : a ≤ b)
    {evs : List Event} {s : State} (hev : ∀ ev ∈ evs, Steady ev)
    (h : run paths (init { σ with fileRotationLimit := a } fs) evs = some s) :
    ∃ s', run paths (init { σ with fileRotationLimit := b } fs) evs = some s' ∧
      (s'.accepted = s.accepted ∧ s'.passed = s.passed ∧ s'.dropped = s.dropped ∧ s'.stage = s.stage ∧
        s'.crashed = s.crashed) ∧
      (∀ name i, i ≤ a → read s'.fs (pathAt (paths name) i) = read s.fs (pathAt (paths name) i)) ∧
      ∀ name, chain s.fs (paths name) name a <:+ chain s'.fs (paths name) name b := by
  obtain ⟨fs₁, h1, h2⟩ := agree_run hsep hab (s := init { σ with fileRotationLimit := a } fs) (fs' := fs) Reachable.init rfl hev
    ⟨rfl, fun _ _ _ => rfl⟩ h
  exact ⟨s.limited b fs₁, h2, ⟨rfl, rfl, rfl, rfl, rfl⟩, h1.files, fun name => chain_suffix hab h1 name⟩

/-- A logger whose lines are the messages, and that has no header. -/
def exampleLimited (size limit : Nat) : Settings :=
  { level := 0, createDirs := true, writeHeader := false, bufferMaxSize := 0, bufferFlushSize := 0,
    fileRotationSize := size, fileRotationLimit := limit, logWriter := fun e => .ok e.message, headerWriter := .ok [] }

/-- Nine entries, which the logging thread writes. -/
def exampleNine : List Event :=
  ["1", "2", "3", "4", "5", "6", "7", "8", "9"].flatMap (fun m => exampleWrite 1 0 m ++ [.notify 0]) ++ exampleThread 13

theorem exampleNine_steady : ∀ ev ∈ exampleNine, Steady ev := by
  intro ev hev
  rcases List.mem_append.1 hev with hev | hev
  · obtain ⟨m, -, hev⟩ := List.mem_flatMap.1 hev
    simp only [exampleWrite, List.cons_append, List.nil_append, List.mem_cons, List.not_mem_nil, or_false] at hev
    rcases hev with rfl | rfl | rfl | rfl <;> exact trivial
  · rw [(List.mem_replicate.1 hev).2]; rfl

set_option maxRecDepth 16000 in
/-- With the limits 1 and 2. -/
example : Distinct examplePaths ∧ (∀ ev ∈ exampleNine, Steady ev) ∧
    (run examplePaths (init (exampleLimited 6 1) {}) exampleNine).map
      (fun s => (s.passed.length, (chain s.fs (examplePaths 0) 0 1).map (·.message))) =
      some (9, ["4".toList, "5".toList, "6".toList, "7".toList, "8".toList, "9".toList]) ∧
    (run examplePaths (init (exampleLimited 6 2) {}) exampleNine).map
      (fun s => (s.passed.length, (chain s.fs (examplePaths 0) 0 2).map (·.message))) =
      some (9, ["1".toList, "2".toList, "3".toList, "4".toList, "5".toList, "6".toList, "7".toList, "8".toList, "9".toList]) :=
  ⟨examplePaths_distinct, exampleNine_steady, by decide, by decide⟩

set_option maxRecDepth 16000 in
/-- C161, second part: a larger rotation size may keep less. Of the same nine entries of two bytes, a logger with a
rotation size of 6 bytes keeps six, and one with a rotation size of 8 bytes five. (This part of the property is false.) -/
theorem C161_fails_size : ∃ s s', run examplePaths (init (exampleLimited 6 1) {}) exampleNine = some s ∧
    run examplePaths (init (exampleLimited 8 1) {}) exampleNine = some s' ∧
    (chain s.fs (examplePaths 0) 0 1).map (·.message) =
      ["4".toList, "5".toList, "6".toList, "7".toList, "8".toList, "9".toList] ∧
    (chain s'.fs (examplePaths 0) 0 1).map (·.message) =
      ["5".toList, "6".toList, "7".toList, "8".toList, "9".toList] ∧
    s'.fs.files.length = 2 := by
  refine ⟨_, _, rfl, rfl, ?_, ?_, ?_⟩ <;> decide

/-- The same nine entries, if no file can be renamed to the one with the number 2 (because there is a directory of that
name, for example). -/
def exampleNineBlocked : List Event :=
  ["1", "2", "3", "4", "5", "6", "7", "8", "9"].flatMap (fun m => exampleWrite 1 0 m ++ [.notify 0]) ++
    List.replicate 13 (.thread { rotating := { rename := some 2 } })

set_option maxRecDepth 16000 in
/-- C161, first part, needs that no rotation fails: a larger limit can also be worse. If no file can be renamed to the
one with the number 2, a logger with limit 1 writes all entries and keeps the newest six, one with limit 2 only writes
the oldest six. -/
theorem C161_fails_rotation : ∃ s s', run examplePaths (init (exampleLimited 6 1) {}) exampleNineBlocked = some s ∧
    run examplePaths (init (exampleLimited 6 2) {}) exampleNineBlocked = some s' ∧
    (chain s.fs (examplePaths 0) 0 1).map (·.message) =
      ["4".toList, "5".toList, "6".toList, "7".toList, "8".toList, "9".toList] ∧
    (chain s'.fs (examplePaths 0) 0 2).map (·.message) =
      ["1".toList, "2".toList, "3".toList, "4".toList, "5".toList, "6".toList] ∧
    s'.fs.files.length = 2 := by
  refine ⟨_, _, rfl, rfl, ?_, ?_, ?_⟩ <;> decide

end Pluto.Props
