import Verif.Proofs.LogNames
import Verif.Props.LogWhole

/-! # Several names for one log file (C140)

A logger keeps a buffer for each name it is given; several names may stand for the same file (`a.log`, `./a.log`, its
absolute path, a path through a link). -/

namespace Pluto.Props
open Pluto.Log Pluto.Spec.Log

/-- C140, the part that holds: without rotation and without a bound on the buffers, if no setting is changed, whatever
names stand for whatever files: when the destructor has returned, a file consists of what was there before, the header
line once if the file was empty and there is an entry, and one line for each call of a sufficient level with a name of
this file, for each name those of each thread in the order of its calls. -/
theorem C140_whole_partial {paths : Nat → Path} {σ : Settings} {w : Entry → List Char} {header : List Char} {fs : Fs}
    {s : State} {evs : List Event} (hfs : Fresh fs) (hw : Writers w header σ) (hdirs : σ.createDirs = true)
    (hsize : σ.fileRotationSize = 0) (hmax : σ.bufferMaxSize = 0) (hc : ∀ ev ∈ evs, Calm ev)
    (hr : run paths (init σ fs) evs = some s) (hd : s.stage = .destroyed) (p : Path) :
    ∃ es : List (Nat × Entry), (∀ x ∈ es, paths x.1 = p) ∧
      (∀ name, paths name = p → ∀ tid, saidBy tid (ofName name es) = said σ.level name tid evs) ∧
      bytesOf s.fs p = bytesOf fs p ++
        (if σ.writeHeader = true ∧ bytesOf fs p = [] ∧ es ≠ [] then header ++ ['\n'] else []) ++
        es.flatMap fun x => w x.2 ++ ['\n'] := by
  have hU : Usable σ := ⟨fun e => ⟨w e, hw.1 e⟩, ⟨header, hw.2⟩, hdirs⟩
  have h0 := (calm_reaches hr hc (okσ := (·.fileRotationSize = 0)) hsize).1
  have h1 := (calm_reaches hr hc (okσ := fun σ' => Writers w header σ' ∧ σ'.writeHeader = σ.writeHeader) ⟨hw, rfl⟩).1
  have h2 := (calm_reaches hr hc (okσ := fun _ => True) trivial).2
  have hf := former_kept (okIo := Writable) ⟨rfl, rfl⟩ hfs h0
  have hcalls : s.calls = [] := by
    rcases closing (log_reachable hr) with ⟨h3, -⟩ | ⟨-, h3⟩
    · rw [hd] at h3; cases h3
    · exact h3.calls
  have hown : ∀ name, own name (read s.fs p) = ofName name (((read s.fs p).getD []).filterMap namedEntry) := by
    intro name
    cases read s.fs p with
    | none => rfl
    | some c => exact own_named name c
  refine ⟨((read s.fs p).getD []).filterMap namedEntry, ?_, fun name hp tid => ?_, ?_⟩
  · intro x hx
    refine (disk_placed_flat (okIo := Writable) (n := x.1) ⟨rfl, rfl⟩ hfs h0 (q := p) ?_).symm
    rw [hown]
    refine List.ne_nil_of_mem (a := x.2) ?_
    unfold ofName
    rw [List.mem_filterMap]
    exact ⟨x, hx, by simp⟩
  · rw [← hown, ← hp, disk_exact (okIo := Writable) ⟨rfl, rfl⟩ hfs h0 name, C28_flushed hU h2 hd name]
    have := taken_run .init hr hc hmax name tid
    rw [taken, hcalls, List.filterMap_nil, List.append_nil] at this
    rw [this]
    rfl
  · unfold bytesOf
    rw [← hf.1 p]
    cases hread : read s.fs p with
    | none => simp [bytes, former]
    | some c =>
      have := files_bytes_all hfs h1 hread
      rw [entries_named] at this
      simpa [List.flatMap_map, line] using this

/-- C140. Also with rotation, and while the logger is in use, the bytes of every file are what was there before, the
header line at most once, and one line for each entry in it, whatever the name. (Which entries are in the files is said
for each name by C32, C81, C85 and C108, which also allow several names for one file.) -/
theorem C140_bytes {paths : Nat → Path} {w : Entry → List Char} {header : List Char} {b : Bool} {fs : Fs} {s : State}
    (hfs : Fresh fs) (h : Reaches paths (fun σ => Writers w header σ ∧ σ.writeHeader = b) Writable fs s) {p : Path}
    {c : List Chunk} (hc : read s.fs p = some c) :
    bytes c = bytes (former c) ++
        (if b = true ∧ bytes (former c) = [] ∧ entries c ≠ [] then header ++ ['\n'] else []) ++
        (entries c).flatMap (fun e => w e ++ ['\n']) := files_bytes_all hfs h hc

/-- Every name stands for the same file. -/
def exampleSame (_ : Nat) : Path := ⟨['/'], "a.log".toList⟩

theorem exampleSame_distinct : Distinct exampleSame := fun _ _ _ _ _ => rfl

/-- A thread logs "a" as 0, "b" as 1 and "c" as 0. -/
def exampleNames : List Event :=
  exampleWrite 1 0 "a" ++ [.notify 0] ++ exampleWrite 1 1 "b" ++ [.notify 0] ++ exampleWrite 1 0 "c" ++ [.notify 0] ++
    [.stop, .stopNotify] ++ exampleThread 2 ++ [.join, .flush {} [], .flush {} [], .finish]

theorem exampleNames_calm : ∀ ev ∈ exampleNames, Calm ev := by
  intro ev hev
  simp only [exampleNames, exampleWrite, exampleThread, List.replicate, List.cons_append, List.nil_append,
    List.mem_cons, List.not_mem_nil, or_false] at hev
  rcases hev with rfl | rfl | rfl | rfl | rfl | rfl | rfl | rfl | rfl | rfl | rfl | rfl | rfl | rfl | rfl | rfl |
    rfl | rfl | rfl | rfl <;> simp [Calm, Writable, NoFault]

set_option maxRecDepth 16000 in
/-- C140. The entries of one thread are not always in the order of its calls if they were logged under different names of
the same file, although nothing fails: it logs "a", "b" and "c", and the file has "a", "c" and "b". -/
theorem C140_fails : ∃ s, run exampleSame (init exampleSettings {}) exampleNames = some s ∧ s.stage = .destroyed ∧
    (∀ ev ∈ exampleNames, Calm ev) ∧
    exampleNames.filterMap (fun | .call tid name _ _ message => some (tid, exampleSame name, message) | _ => none) =
      ["a", "b", "c"].map (fun m => (1, exampleSame 0, m.toList)) ∧
    bytesOf s.fs (exampleSame 0) = "H\na\nc\nb\n".toList :=
  ⟨_, rfl, rfl, exampleNames_calm, by decide, by decide⟩

example : Fresh {} ∧ Writers (·.message) ['H'] exampleSettings ∧ exampleSettings.createDirs = true ∧
    exampleSettings.fileRotationSize = 0 ∧ exampleSettings.bufferMaxSize = 0 ∧ exampleSame 0 = exampleSame 1 ∧
    said exampleSettings.level 0 1 exampleNames = [(0, 3, ['a']), (0, 3, ['c'])] ∧
    said exampleSettings.level 1 1 exampleNames = [(0, 3, ['b'])] :=
  ⟨fresh_empty, ⟨fun _ => rfl, rfl⟩, rfl, rfl, rfl, rfl, by decide, by decide⟩

/-- Several names for one file and rotation: C32 and C108 apply. -/
example : ∃ s, run exampleSame (init exampleKeeping {}) exampleNames = some s ∧ Distinct exampleSame ∧
    Reaches exampleSame (fun σ => σ.fileRotationSize = 4 ∧ σ.fileRotationLimit = 1)
      (fun io => Writable io ∧ io.rotating = {}) {} s ∧
    bytesOf s.fs (exampleSame 0) = "H\nb\n".toList ∧ bytesOf s.fs (pathAt (exampleSame 0) 1) = "H\nc\n".toList ∧
    (written s 0).map (·.message) = [['a'], ['c']] ∧ (written s 1).map (·.message) = [['b']] :=
  ⟨_, rfl, exampleSame_distinct, log_reaches (σ := exampleKeeping) (evs := exampleNames) ⟨rfl, rfl⟩ (by
    intro ev hev s
    have h := exampleNames_calm ev hev
    simp only [exampleNames, exampleWrite, exampleThread, List.replicate, List.cons_append, List.nil_append,
      List.mem_cons, List.not_mem_nil, or_false] at hev
    rcases hev with rfl | rfl | rfl | rfl | rfl | rfl | rfl | rfl | rfl | rfl | rfl | rfl | rfl | rfl | rfl | rfl |
      rfl | rfl | rfl | rfl <;> first | trivial | exact ⟨⟨⟨rfl, rfl⟩, rfl⟩, fun _ h => by cases h⟩) rfl,
    by decide, by decide, by decide, by decide⟩

end Pluto.Props
