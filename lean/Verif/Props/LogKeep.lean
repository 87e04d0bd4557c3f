import Verif.Proofs.LogKeep
import Verif.Spec.LogKeep
import Verif.Props.Log

/-!
# What rotation keeps (C108)

A rotation size of `r` bytes and a rotation limit of `limit` files are meant to bound the space a log
takes, and so also to say how much of it is kept: at least the newest `limit * r` bytes.
-/

namespace Pluto.Props
open Pluto.Log Pluto.Spec.Log

private theorem in_chain {fs : Fs} {p : Path} {name n : Nat} {e : Entry} (h : e ∈ chain fs p name n) :
    ∃ i ≤ n, e ∈ own name (read fs (pathAt p i)) := by
  induction n with
  | zero => exact ⟨0, Nat.le_refl _, h⟩
  | succ n ih =>
    rcases List.mem_append.1 h with h | h
    · exact ⟨n + 1, Nat.le_refl _, h⟩
    · obtain ⟨i, hi, h⟩ := ih h
      exact ⟨i, by omega, h⟩

private theorem rotatedBytes_le {fs : Fs} {p : Path} {r n : Nat}
    (h : ∀ i, 1 ≤ i → i ≤ n → ∃ c, read fs (pathAt p i) = some c ∧ r ≤ size c) : n * r ≤ rotatedBytes fs p n := by
  induction n with
  | zero => simp [rotatedBytes]
  | succ n ih =>
    obtain ⟨c, hc, hs⟩ := h (n + 1) (by omega) (Nat.le_refl _)
    have := ih fun i h1 h2 => h i h1 (by omega)
    rw [rotatedBytes, hc, Option.getD_some, Nat.add_mul, Nat.one_mul]
    omega

/-- C108, the part that holds: with a fixed rotation size and limit, if what is put into an open file
gets there and rotating does not fail (opening files, creating directories and the writers may fail):
either all entries written to a log file are in its files, in the order in which they were written, or
the files with the numbers 1, ..., limit exist and each has at least `r` bytes (or it was there before
and has nothing of this logger). -/
theorem C108_full_partial {paths : Nat → Path} {r limit : Nat} {fs : Fs} {s : State} (hsep : Distinct paths)
    (hfs : Fresh fs) (h : Reaches paths (fun σ => σ.fileRotationSize = r ∧ σ.fileRotationLimit = limit)
      (fun io => Writable io ∧ io.rotating = {}) fs s) (name : Nat) :
    chain s.fs (paths name) name limit = written s name ∨
      ∀ i, 1 ≤ i → i ≤ limit → ∃ c, read s.fs (pathAt (paths name) i) = some c ∧
        (r ≤ size c ∨ ∀ x ∈ c, x.kind = .old) := by
  refine (disk_kept hsep hfs (reaches_mono h (fun _ h => h.2) (fun _ h => h.2)) name).imp_right ?_
  intro hk i h1 h2
  have hf := files_filled hsep hfs (reaches_mono h (fun _ h => h.1) (fun _ h => h.1))
  cases hc : read s.fs (pathAt (paths name) i) with
  | none => exact absurd hc (hk i h1 h2)
  | some c =>
    refine ⟨c, rfl, ?_⟩
    obtain ⟨j, rfl⟩ : ∃ j, i = j + 1 := ⟨i - 1, by omega⟩
    exact hf name j c hc

/-- C108, the part that holds, in bytes: under the same conditions and if there were no rotated files at
the beginning, an entry that was written and is in no file any more is missing only if the rotated
files of its log file have at least limit * size bytes. -/
theorem C108_amount_partial {paths : Nat → Path} {r limit : Nat} {fs : Fs} {s : State} (hsep : Distinct paths)
    (hfs : Fresh fs) (hnum : Unnumbered paths fs)
    (h : Reaches paths (fun σ => σ.fileRotationSize = r ∧ σ.fileRotationLimit = limit)
      (fun io => Writable io ∧ io.rotating = {}) fs s) {name : Nat} {e : Entry} (he : e ∈ written s name)
    (hgone : ¬ OnDisk s.fs name e) : limit * r ≤ rotatedBytes s.fs (paths name) limit := by
  rcases disk_kept hsep hfs (reaches_mono h (fun _ h => h.2) (fun _ h => h.2)) name with hk | hk
  · rw [← hk] at he
    obtain ⟨i, -, hi⟩ := in_chain he
    exact absurd ⟨_, hi⟩ hgone
  · refine rotatedBytes_le fun i h1 h2 => ?_
    have hf := files_numbered (Q := fun c => r ≤ size c) hsep (fun _ h => h)
      (fun n i c hc => by rw [hnum] at hc; cases hc) (reaches_mono h (fun _ h => h.1) (fun _ h => h.1))
    cases hc : read s.fs (pathAt (paths name) i) with
    | none => exact absurd hc (hk i h1 h2)
    | some c =>
      obtain ⟨j, rfl⟩ : ∃ j, i = j + 1 := ⟨i - 1, by omega⟩
      exact ⟨c, rfl, hf name j c hc⟩

/-- Rotation when a file has 4 bytes; a header has 2; one old file is kept. -/
def exampleKeeping : Settings := { exampleSettings with fileRotationSize := 4, fileRotationLimit := 1 }

/-- Five entries; those written first are removed. -/
def exampleRemoval : List Event :=
  exampleWrite 1 0 "one" ++ exampleWrite 2 0 "two" ++ exampleWrite 3 0 "three" ++ exampleThread 8

theorem not_onDisk {fs : Fs} {name : Nat} {e : Entry} (h : ∀ x ∈ fs.files, e ∉ own name (some x.2)) :
    ¬ OnDisk fs name e := by
  rintro ⟨q, hq⟩
  unfold Log.read at hq
  cases hf : fs.files.find? (·.1 = q) with
  | none => rw [hf] at hq; cases hq
  | some x =>
    rw [hf] at hq
    exact h x (List.mem_of_find?_eq_some hf) hq

example : ∃ s e, run examplePaths (init exampleKeeping {}) exampleRemoval = some s ∧
    Distinct examplePaths ∧ Fresh {} ∧ Unnumbered examplePaths {} ∧
    Reaches examplePaths (fun σ => σ.fileRotationSize = 4 ∧ σ.fileRotationLimit = 1)
      (fun io => Writable io ∧ io.rotating = {}) {} s ∧
    e ∈ written s 0 ∧ ¬ OnDisk s.fs 0 e ∧ rotatedBytes s.fs (examplePaths 0) 1 = 6 :=
  ⟨_, ⟨0, 1, 3, "one".toList, 0⟩, rfl, examplePaths_distinct, fresh_empty, fun _ _ => rfl,
    log_reaches (σ := exampleKeeping) (evs := exampleRemoval) ⟨rfl, rfl⟩ (by
      intro ev hev s
      simp only [exampleRemoval, exampleWrite, exampleThread, List.replicate, List.cons_append, List.nil_append,
        List.mem_cons, List.not_mem_nil, or_false] at hev
      rcases hev with rfl | rfl | rfl | rfl | rfl | rfl | rfl | rfl | rfl | rfl | rfl | rfl | rfl | rfl | rfl |
        rfl | rfl <;> trivial) rfl,
    by decide, not_onDisk (by decide), by decide⟩

/-- The disk is full: nothing more is written to the file. -/
def exampleFull : Event := .thread { header := some 0, entry := some 0 }

/-- C108. If the disk is full, the stream fails, and the position of a failed stream counts as a very
large size: every further entry makes the logger rotate the files. Entries that were written are
removed, here with a rotation size of 1000 bytes, although the files have no more than a few bytes and
no file is left with an entry in it. (The property is false.) -/
theorem C108_fails_disk_full : ∃ s e, run examplePaths
      (init { exampleSettings with fileRotationSize := 1000, fileRotationLimit := 1 } {})
      (exampleWrite 1 0 "1" ++ exampleWrite 2 0 "2" ++ exampleWrite 3 0 "3" ++ exampleWrite 4 0 "4" ++
        exampleThread 5 ++ [exampleFull, exampleFull, exampleFull]) = some s ∧
    written s 0 = [e] ∧ ¬ OnDisk s.fs 0 e ∧ ∀ x ∈ s.fs.files, size x.2 = 0 :=
  ⟨_, ⟨0, 1, 3, "1".toList, 0⟩, rfl, by decide, not_onDisk (by decide), by decide⟩

/-- C108. If a renaming fails, the oldest file has been removed already, and the number it had is not
taken: fewer files are kept than the limit. (The property is false.) -/
theorem C108_fails_rename : ∃ s e, run examplePaths (init exampleKeeping {})
      (exampleWrite 1 0 "one" ++ exampleWrite 2 0 "two" ++ exampleWrite 3 0 "three" ++ exampleThread 6 ++
        [.thread { rotating := { rename := some 1 } }]) = some s ∧
    e ∈ written s 0 ∧ ¬ OnDisk s.fs 0 e ∧ rotatedBytes s.fs (examplePaths 0) 1 = 0 :=
  ⟨_, ⟨0, 1, 3, "one".toList, 0⟩, rfl, by decide, not_onDisk (by decide), by decide⟩

end Pluto.Props
