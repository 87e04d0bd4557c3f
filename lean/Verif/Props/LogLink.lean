import Verif.Proofs.LogLink
import Verif.Props.LogWhole

/-! # Properties of a logger on a file system with links (C144) -/

namespace Pluto.Props
open Pluto.Log Pluto.Spec.Log Pluto.Spec.LogLink
open Pluto.LogLink (Node Tree lookup target fileAt readTree rotateTree openTree)

/-- C144, the part that holds: if no link leads to a name the logger uses, none in a circle or to a directory that does
not exist, and no two of these names lead to the same file, then whatever happens to a logger on a file system with links
also happens on one without links that has the same files for one who reads them, and the other way round: the logger is
in the same state, and one who reads its files reads the same. The links stay harmless. -/
theorem C144_links_partial {paths : Nat → Path} {σ : Settings} {t : Tree} {fs : Fs} {evs : List Event}
    (ht : Tidy (Names paths) t) (hv : SameFiles t fs) :
    (∀ b, LogLink.run paths (LogLink.init σ t) evs = some b → ∃ s, run paths (init σ fs) evs = some s ∧
      s = { b.s with fs := s.fs } ∧ b.tree.dirs = s.fs.dirs ∧ Tidy (Names paths) b.tree ∧
      ∀ p, Names paths p → readTree b.tree p = read s.fs p) ∧
    ∀ s, run paths (init σ fs) evs = some s → ∃ b, LogLink.run paths (LogLink.init σ t) evs = some b := by
  refine ⟨fun b hb => ?_, fun s hs => LogLink.follows_run_back evs .init (LogLink.follows_init σ ht hv) hs⟩
  obtain ⟨s, h1, h2⟩ := LogLink.follows_run evs .init (LogLink.follows_init σ ht hv) hb
  exact ⟨s, h1, h2.same, h2.sees.dirs, h2.sees.tidy, h2.sees.files⟩

/-- There always is such a file system without links. -/
theorem C144_flat (t : Tree) : ∃ fs, SameFiles t fs := LogLink.flat t

/-- C144: with C130, the log files are whole also if they are links: without rotation and without a bound on the buffers,
when the destructor has returned, one who reads a log file reads what was there before, the header line if the file was
empty and there is an entry, and one line for each call of a sufficient level, those of each thread in order. -/
theorem C144_whole {paths : Nat → Path} {σ : Settings} {w : Entry → List Char} {header : List Char} {t : Tree}
    {b : LogLink.State} {evs : List Event} (ht : Tidy (Names paths) t) (hsep : Separate paths)
    (hold : ∀ p c, readTree t p = some c → ∀ x ∈ c, x.kind = .old) (hw : Writers w header σ)
    (hdirs : σ.createDirs = true) (hsize : σ.fileRotationSize = 0) (hmax : σ.bufferMaxSize = 0)
    (hc : ∀ ev ∈ evs, Calm ev) (hr : LogLink.run paths (LogLink.init σ t) evs = some b)
    (hd : b.s.stage = .destroyed) (name : Nat) :
    ∃ es : List Entry, (∀ tid, saidBy tid es = said σ.level name tid evs) ∧
      bytesOfTree b.tree (paths name) = bytesOfTree t (paths name) ++
        (if σ.writeHeader = true ∧ bytesOfTree t (paths name) = [] ∧ es ≠ [] then header ++ ['\n'] else []) ++
        es.flatMap fun e => w e ++ ['\n'] := by
  obtain ⟨fs, hv⟩ := LogLink.flat t
  obtain ⟨s, h1, h2, -, -, h5⟩ := (C144_links_partial ht hv).1 b hr
  have hfs : Fresh fs := fun q c hq => hold q c (by rw [hv.files]; exact hq)
  obtain ⟨es, h6, h7⟩ := (C130_whole hsep hfs hw hdirs hsize hmax hc h1 (by rw [h2]; exact hd)).1 name
  refine ⟨es, h6, ?_⟩
  unfold bytesOfTree
  rw [h5 _ (LogLink.name paths name), hv.files]
  exact h7

/-- C144: files that do not have names the logger uses are never removed, and nothing is removed from them, also if rotation
removes a link to them; and if no name the logger uses leads to a file, it is not changed at all. -/
theorem C144_behind {paths : Nat → Path} {σ : Settings} {t : Tree} {b : LogLink.State} {evs : List Event}
    (ht : Tidy (Names paths) t) (hr : LogLink.run paths (LogLink.init σ t) evs = some b) {q : Path}
    (hq : ¬ Names paths q) {c : List Chunk} (hc : readTree t q = some c) :
    (∃ c', readTree b.tree q = some (c ++ c')) ∧
      ((∀ p, Names paths p → fileAt t p ≠ fileAt t q) → readTree b.tree q = some c) := by
  obtain ⟨fs, hv⟩ := LogLink.flat t
  obtain ⟨s, -, h2⟩ := LogLink.follows_run evs .init (LogLink.follows_init σ ht hv) hr
  unfold readTree at hc
  rw [Option.map_eq_some_iff] at hc
  obtain ⟨i, hi, rfl⟩ := hc
  obtain ⟨h3, ⟨c', h4⟩, h5⟩ := h2.sees.keeps q i hq hi
  unfold readTree
  rw [h3]
  refine ⟨⟨c', by rw [← h4]; rfl⟩, fun hn => ?_⟩
  rw [← (h5 (fun p hp e => hn p hp (by rw [e, hi]))).2]
  rfl

/-- C144: rotating a log file that is a link moves the link: the first rotated file is what the link leads to, and the log
file is created anew, as a file, not where the link led. -/
theorem C144_moved {paths : Nat → Path} {t : Tree} {n limit : Nat} (ht : Tidy (Names paths) t) (hlim : 1 ≤ limit)
    (hf : fileAt t (paths n) ≠ none) {t' : Tree} (hr : rotateTree {} (paths n) limit t = (t', true))
    {u : Tree} (ho : openTree false (paths n) t' = (u, true)) :
    fileAt u (pathAt (paths n) 1) = fileAt t (paths n) ∧ (∃ i, lookup u (paths n) = some (.file i)) ∧
      readTree u (paths n) = some [] := by
  obtain ⟨fs, hv⟩ := LogLink.flat t
  have hs : LogLink.Sees (Names paths) t t fs := ⟨ht, hv.dirs, fun p _ => hv.files p, LogLink.keeps_refl _ _⟩
  obtain ⟨h1, h2⟩ := LogLink.rotate_moves (limit := limit) (f := {}) (LogLink.names paths n) hs hlim hf (by rw [hr])
  have h3 := (LogLink.rotate_sees (limit := limit) (f := {}) (LogLink.names paths n) hs).2
  rw [hr] at h1 h2 h3
  simp only at h1 h2 h3
  exact LogLink.open_moved h3 h1 hf h2 ho

/-! ## Examples -/

/-- The log file is a link to a file in another directory, with something in it. -/
def exampleTree : Tree :=
  { entries := [(examplePaths 0, .link ⟨"/data".toList, "app".toList⟩), (⟨"/data".toList, "app".toList⟩, .file 0)]
    text := fun i => if i = 0 then [⟨.old, "old\n".toList⟩] else []
    dirs := [['/'], "/data".toList]
    nextId := 1 }

theorem exampleTree_lookup (p : Path) : lookup exampleTree p = if p = examplePaths 0 then
    some (.link ⟨"/data".toList, "app".toList⟩) else if p = ⟨"/data".toList, "app".toList⟩ then some (.file 0) else none := by
  unfold exampleTree
  unfold lookup
  simp only
  rw [LogLink.find_cons, LogLink.find_cons]
  rfl

theorem example_names {q : Path} (h : Names examplePaths q) : ∃ n, q.dir = '/' :: List.replicate n 'd' := by
  obtain ⟨n, i, rfl⟩ := h
  exact ⟨n, rfl⟩

theorem example_outside : ¬ Names examplePaths ⟨"/data".toList, "app".toList⟩ := by
  intro h
  obtain ⟨n, hn⟩ := example_names h
  have : 5 = n + 1 := by simpa using congrArg List.length hn
  have hn5 : n = 4 := by omega
  subst hn5
  exact absurd hn (by decide)

theorem exampleTree_target {p : Path} (h : Names examplePaths p) : target exampleTree p =
    some (if p = examplePaths 0 then ⟨"/data".toList, "app".toList⟩ else p) := by
  split
  · rename_i e; rw [e]; decide
  · rename_i e
    have hp : p ≠ ⟨"/data".toList, "app".toList⟩ := fun e => example_outside (e ▸ h)
    refine LogLink.target_none ?_
    unfold LogLink.linkAt
    rw [exampleTree_lookup, if_neg e, if_neg hp]

theorem exampleTree_tidy : Tidy (Names examplePaths) exampleTree where
  links p q h := by
    rw [exampleTree_lookup] at h
    split at h
    · cases h; exact example_outside
    · split at h <;> cases h
  ends p h := by
    refine ⟨_, exampleTree_target h, ?_⟩
    split
    · exact .inr (by decide)
    · exact .inl rfl
  apart p p' h h' e := by
    rw [exampleTree_target h, exampleTree_target h'] at e
    simp only [Option.some.injEq] at e
    split at e
    · split at e
      · simp_all
      · exact absurd (e ▸ h') example_outside
    · split at e
      · exact absurd (e ▸ h) example_outside
      · exact e
  unshared p p' i h h' e e' := by
    have key : ∀ p, Names examplePaths p → ∀ i, fileAt exampleTree p = some i → p = examplePaths 0 := by
      intro p h i e
      by_contra hp
      rw [LogLink.fileAt_eq (exampleTree_target h), if_neg hp, exampleTree_lookup, if_neg hp,
        if_neg (show ¬ p = ⟨"/data".toList, "app".toList⟩ from fun e => example_outside (e ▸ h))] at e
      cases e
    rw [key p h i e, key p' h' i e']
  ids p i h := by
    rw [exampleTree_lookup] at h
    split at h
    · cases h
    · split at h
      · cases h; decide
      · cases h

/-- Rotation moves the link; the file behind it stays. -/
example : ∃ b, LogLink.run examplePaths (LogLink.init exampleRotating exampleTree)
      (exampleWrite 1 0 "one" ++ exampleThread 6) = some b ∧
    lookup b.tree (pathAt (examplePaths 0) 1) = some (.link ⟨"/data".toList, "app".toList⟩) ∧
    bytesOfTree b.tree (pathAt (examplePaths 0) 1) = "old\n".toList ∧
    bytesOfTree b.tree ⟨"/data".toList, "app".toList⟩ = "old\n".toList ∧
    bytesOfTree b.tree (examplePaths 0) = "H\none\n".toList :=
  ⟨_, rfl, by decide, by decide, by decide, by decide⟩

set_option maxRecDepth 16000 in
/-- Without rotation the logger writes through the link. -/
example : ∃ b, LogLink.run examplePaths (LogLink.init examplePairs exampleTree) exampleEnd = some b ∧
    b.s.stage = .destroyed ∧ (∀ ev ∈ exampleEnd, Calm ev) ∧
    lookup b.tree (examplePaths 0) = some (.link ⟨"/data".toList, "app".toList⟩) ∧
    bytesOfTree b.tree ⟨"/data".toList, "app".toList⟩ = "old\none\ntwo\n".toList ∧
    bytesOfTree b.tree (examplePaths 1) = "H\nthree\n".toList :=
  ⟨_, rfl, rfl, by
    intro ev hev
    simp only [exampleEnd, exampleWrite, exampleThread, List.replicate, List.cons_append, List.nil_append,
      List.mem_cons, List.not_mem_nil, or_false] at hev
    rcases hev with rfl | rfl | rfl | rfl | rfl | rfl | rfl | rfl | rfl | rfl | rfl | rfl | rfl | rfl | rfl |
      rfl | rfl | rfl | rfl | rfl | rfl | rfl | rfl | rfl | rfl | rfl | rfl <;> simp [Calm, Writable, NoFault],
    by decide, by decide, by decide⟩

/-! ## What goes wrong otherwise -/

/-- The log file is a link to the file that it will be renamed to. -/
def exampleCircle : Tree :=
  { entries := [(examplePaths 0, .link (pathAt (examplePaths 0) 1)), (pathAt (examplePaths 0) 1, .file 0)]
    text := fun i => if i = 0 then [⟨.old, "old\n".toList⟩] else []
    dirs := [['/']]
    nextId := 1 }

/-- Two entries are written and the logger is destroyed; nothing fails. -/
def exampleTwo : List Event :=
  exampleWrite 1 0 "one" ++ [.notify 0] ++ exampleThread 13 ++ exampleWrite 1 0 "two" ++ [.notify 0] ++ exampleThread 3 ++
    [.stop, .stopNotify] ++ exampleThread 5 ++ [.join, .flush {} [], .finish]

/-- C144, why no link may lead to a name the logger uses: if the log file is a link to its first rotated file, rotation
makes that one a link to itself; then rotation fails, and the second entry is in no file although nothing else failed. -/
theorem C144_fails_circle : ∃ b, LogLink.run examplePaths (LogLink.init exampleRotating exampleCircle) exampleTwo = some b ∧
    b.s.stage = .destroyed ∧ b.s.discarded = 0 ∧ (∀ ev ∈ exampleTwo, Smooth ev) ∧
    lookup b.tree (pathAt (examplePaths 0) 1) = some (.link (pathAt (examplePaths 0) 1)) ∧
    bytesOfTree b.tree (examplePaths 0) = "H\none\n".toList ∧
    bytesOfTree b.tree (pathAt (examplePaths 0) 2) = "old\n".toList ∧ b.tree.entries.length = 3 := by
  refine ⟨_, rfl, rfl, rfl, ?_, by decide, by decide, by decide, by decide⟩
  intro ev hev
  simp only [exampleTwo, exampleWrite, exampleThread, List.replicate, List.cons_append, List.nil_append,
    List.mem_cons, List.not_mem_nil, or_false] at hev
  rcases hev with rfl | rfl | rfl | rfl | rfl | rfl | rfl | rfl | rfl | rfl | rfl | rfl | rfl | rfl | rfl |
    rfl | rfl | rfl | rfl | rfl | rfl | rfl | rfl | rfl | rfl | rfl | rfl | rfl | rfl | rfl | rfl | rfl | rfl | rfl <;>
    simp [Smooth, Calm, Writable, NoFault]

/-- C144: in general, as long as the first rotated file is a link to itself, rotation changes nothing and fails. -/
theorem C144_stuck {t : Tree} {p : Path} {limit : Nat} (hlim : 1 ≤ limit) (hf : fileAt t p ≠ none)
    (hl : lookup t (pathAt p 1) = some (.link (pathAt p 1))) (f : RotateFaults) : rotateTree f p limit t = (t, false) :=
  LogLink.rotate_stuck hlim hf hl f

/-- The log file and its first rotated file are the same file. -/
def exampleShared : Tree :=
  { entries := [(examplePaths 0, .file 0), (pathAt (examplePaths 0) 1, .file 0)]
    text := fun i => if i = 0 then [⟨.old, "o\n".toList⟩] else []
    dirs := [['/']]
    nextId := 1 }

/-- C144, why no two names may lead to the same file: if the log file and its first rotated file are the same file, an entry
is in both. -/
theorem C144_fails_shared : ∃ b, LogLink.run examplePaths (LogLink.init exampleRotating exampleShared)
      (exampleWrite 1 0 "one" ++ exampleThread 6) = some b ∧
    bytesOfTree b.tree (examplePaths 0) = "o\none\n".toList ∧
    bytesOfTree b.tree (pathAt (examplePaths 0) 1) = "o\none\n".toList :=
  ⟨_, rfl, by decide, by decide⟩

/-- The log file is a link into a directory that does not exist. -/
def exampleDangling : Tree :=
  { entries := [(examplePaths 0, .link ⟨"/data".toList, "app".toList⟩)], dirs := [['/']] }

/-- An entry is written and the logger is destroyed; nothing fails. -/
def exampleNothing : List Event :=
  exampleWrite 1 0 "one" ++ [.stop, .stopNotify] ++ exampleThread 2 ++ [.join, .flush {} [], .finish]

set_option maxRecDepth 16000 in
/-- C144, why no link may lead to a directory that does not exist: the directory of the link is created, not the one it leads
to, and nothing is ever written. -/
theorem C144_fails_dangling : ∃ b, LogLink.run examplePaths (LogLink.init examplePairs exampleDangling) exampleNothing =
      some b ∧ b.s.stage = .destroyed ∧ b.s.discarded = 0 ∧ b.s.passed = [] ∧ b.tree.entries = exampleDangling.entries ∧
    bytesOfTree b.tree (examplePaths 0) = [] :=
  ⟨_, rfl, rfl, rfl, rfl, by decide, by decide⟩

/-- The log file is a link to itself. -/
def exampleLoop : Tree := { entries := [(examplePaths 0, .link (examplePaths 0))], dirs := [['/']] }

set_option maxRecDepth 16000 in
/-- C144, why no link may lead in a circle: nothing is ever written. -/
theorem C144_fails_loop : ∃ b, LogLink.run examplePaths (LogLink.init examplePairs exampleLoop) exampleNothing =
      some b ∧ b.s.stage = .destroyed ∧ b.s.discarded = 0 ∧ b.s.passed = [] ∧ b.tree.entries = exampleLoop.entries ∧
    bytesOfTree b.tree (examplePaths 0) = [] :=
  ⟨_, rfl, rfl, rfl, rfl, by decide, by decide⟩

end Pluto.Props
