import Verif.Proofs.LogWhole
import Verif.Proofs.LogKeep
import Verif.Props.Log
import Verif.Props.LogRead
import Verif.Props.LogKeep

/-! # Properties of a logger from its construction to its destruction (C130, C136), and of the documented limit (C131) -/

namespace Pluto.Props
open Pluto.Log Pluto.Spec.Log

/-- Such executions are among those of C23 and C28. -/
theorem calm_reaches {paths : Nat → Path} {σ : Settings} {fs : Fs} {s : State} {evs : List Event}
    (h : run paths (init σ fs) evs = some s) (hc : ∀ ev ∈ evs, Calm ev) {okσ : Settings → Prop} (hσ : okσ σ) :
    Reaches paths okσ Writable fs s ∧ ReachableBy paths Orderly σ fs s := by
  have hw : ∀ io, NoFault io → Writable io := by rintro io rfl; exact ⟨rfl, rfl⟩
  constructor
  · refine log_reaches hσ (fun ev hev s => ?_) h
    have := hc ev hev
    cases ev with
    | set x => exact this.elim
    | thread io => exact this
    | flush io ios => exact ⟨hw _ this.1, fun io h => hw _ (this.2 io h)⟩
    | _ => trivial
  · refine log_reachableBy (fun ev hev s => ?_) h
    have := hc ev hev
    cases ev with
    | set x => exact this.elim
    | thread io => exact this
    | flush io ios => exact this
    | _ => trivial

/-- C130. Without rotation and without a bound on the buffers, if no setting is changed: when the destructor has
returned, a log file consists of what was there before, the header line if the file was empty and there is an entry,
and one line for each call of a sufficient level, those of each thread in the order of its calls. Nothing is discarded,
and no other file is changed. -/
theorem C130_whole {paths : Nat → Path} {σ : Settings} {w : Entry → List Char} {header : List Char} {fs : Fs} {s : State}
    {evs : List Event} (hsep : Separate paths) (hfs : Fresh fs) (hw : Writers w header σ) (hdirs : σ.createDirs = true)
    (hsize : σ.fileRotationSize = 0) (hmax : σ.bufferMaxSize = 0) (hc : ∀ ev ∈ evs, Calm ev)
    (hr : run paths (init σ fs) evs = some s) (hd : s.stage = .destroyed) :
    (∀ name, ∃ es : List Entry, (∀ tid, saidBy tid es = said σ.level name tid evs) ∧
      bytesOf s.fs (paths name) = bytesOf fs (paths name) ++
        (if σ.writeHeader = true ∧ bytesOf fs (paths name) = [] ∧ es ≠ [] then header ++ ['\n'] else []) ++
        es.flatMap fun e => w e ++ ['\n']) ∧
    s.discarded = 0 ∧ ∀ q, (∀ n, q ≠ paths n) → read s.fs q = read fs q := by
  have hU : Usable σ := ⟨fun e => ⟨w e, hw.1 e⟩, ⟨header, hw.2⟩, hdirs⟩
  have h0 := (calm_reaches hr hc (okσ := (·.fileRotationSize = 0)) hsize).1
  have h1 := (calm_reaches hr hc (okσ := fun σ' => Writers w header σ' ∧ σ'.writeHeader = σ.writeHeader) ⟨hw, rfl⟩).1
  have h2 := (calm_reaches hr hc (okσ := fun _ => True) trivial).2
  have hf := former_kept (okIo := Writable) ⟨rfl, rfl⟩ hfs h0
  have hreach := log_reachable hr
  have hcalls : s.calls = [] := by
    rcases closing hreach with ⟨h3, -⟩ | ⟨-, h3⟩
    · rw [hd] at h3; cases h3
    · exact h3.calls
  refine ⟨fun name => ⟨accepted s name, fun tid => ?_, ?_⟩, ?_, hf.2⟩
  · have := taken_run .init hr hc hmax name tid
    rw [taken, hcalls, List.filterMap_nil, List.append_nil] at this
    rw [this]
    rfl
  · have he : own name (read s.fs (paths name)) = accepted s name := by
      rw [disk_exact (okIo := Writable) ⟨rfl, rfl⟩ hfs h0 name]
      exact C28_flushed hU h2 hd name
    unfold bytesOf
    rw [← hf.1 (paths name), ← he]
    cases hread : read s.fs (paths name) with
    | none => simp [own, bytes, former]
    | some c =>
      have := C23_bytes hsep hfs h1 (name := name) (i := 0) (by rw [pathAt_zero]; exact hread)
      simpa using this
  · have hdrop : s.dropped = [] := by
      clear hd hcalls hf h0 h1 h2
      have key : ∀ (evs : List Event) (s₀ : State), (∀ ev ∈ evs, Calm ev) → s₀.settings.bufferMaxSize = 0 →
          s₀.dropped = [] → run paths s₀ evs = some s → s.dropped = [] := by
        intro evs
        induction evs with
        | nil => intro s₀ _ _ h3 h4; cases h4; exact h3
        | cons ev evs ih =>
          intro s₀ hc hm h3 h4
          simp only [run] at h4
          cases hs : step paths s₀ ev with
          | none => rw [hs] at h4; cases h4
          | some s₁ =>
            rw [hs] at h4
            refine ih s₁ (fun e he => hc e (List.mem_cons_of_mem _ he)) ?_ ?_ h4
            · rw [settings_step hs]
              have := hc ev List.mem_cons_self
              cases ev with
              | set x => exact this.elim
              | _ => exact hm
            · by_contra hne
              obtain ⟨-, -, -, -, -, -, h5, -⟩ := C24_discard hs (by rw [h3]; exact hne)
              omega
      exact key evs _ hc hmax rfl hr
    have := (C24_counter hreach).1
    rw [hdrop] at this
    simpa using this

/-- What a reader makes of a file with the default header and lines. -/
theorem read_default {hide : Bool} {record : Entry → LogText.Record} {b : Bool} (hb : b = true) {q : Prop} [Decidable q] (hq : q) {es : List Entry}
    (hes : ∀ e ∈ es, LogReadSpec.Readable (record e)) :
    LogReadSpec.readLog hide true ((if b = true ∧ q ∧ es ≠ [] then
        LogRead.headLine hide ++ '\n' :: LogRead.ruleLine hide ++ ['\n'] else []) ++ es.flatMap fun e => textOf hide (record e) ++ ['\n']) =
      es.map fun e => LogReadSpec.shown hide (record e) := by
  have hmap : ∀ log ∈ [es.map record].flatten, LogReadSpec.Readable log := by
    intro log hl
    simp only [List.flatten_cons, List.flatten_nil, List.append_nil, List.mem_map] at hl
    obtain ⟨e, he, rfl⟩ := hl
    exact hes e he
  have hbody : es.flatMap (fun e => textOf hide (record e) ++ ['\n']) = LogRead.body hide (es.map record) := by
    rw [LogRead.body, List.flatMap_map, List.flatMap_def, List.flatMap_def]
    congr 1
    exact List.map_congr_left fun e he => by rw [textOf_eq hide (hes e he)]
  obtain ⟨text, h4, h5⟩ := C122_read_partial hide true [es.map record] hmap
  rw [LogRead.writeFile_eq hide true [] _
    fun log hl => ⟨(hmap log hl).time.micros, (hmap log hl).line, (hmap log hl).null⟩] at h4
  injection h4 with h4
  have h6 : text = (if b = true ∧ q ∧ es ≠ [] then LogRead.headLine hide ++ '\n' :: LogRead.ruleLine hide ++ ['\n'] else []) ++
      es.flatMap fun e => textOf hide (record e) ++ ['\n'] := by
    rw [hbody, ← h4, hb]
    cases es <;> simp [LogRead.head, hq]
  rw [← h6, h5]
  simp

/-- C130. The initial settings of a logger, with the default writers: what the threads write to a new log file can be
read from it when the logger is gone, if it can be read at all (C122): every call of a level from `verbose` (0) on, and
nothing else. -/
theorem C130_default {paths : Nat → Path} {hide : Bool} {record : Entry → LogText.Record} {fs : Fs} {s : State}
    {evs : List Event} (hsep : Separate paths) (hfs : Fresh fs) (hc : ∀ ev ∈ evs, Calm ev)
    (hr : run paths (init (initialSettings hide record) fs) evs = some s) (hd : s.stage = .destroyed) (name : Nat)
    (hrec : ∀ e, (e.time, e.level, e.message) ∈ said 0 name e.tid evs → LogReadSpec.Readable (record e))
    (hnew : bytesOf fs (paths name) = []) :
    ∃ es : List Entry, (∀ tid, saidBy tid es = said 0 name tid evs) ∧
      LogReadSpec.readLog hide true (bytesOf s.fs (paths name)) =
        es.map fun e => LogReadSpec.shown hide (record e) := by
  obtain ⟨hall, -, -⟩ := C130_whole hsep hfs (initial_writers hide record) rfl rfl rfl hc hr hd
  obtain ⟨es, h1, h2⟩ := hall name
  refine ⟨es, h1, ?_⟩
  have hes : ∀ e ∈ es, LogReadSpec.Readable (record e) := fun e he => hrec e (h1 e.tid ▸ mem_saidBy he)
  rw [h2, hnew, List.nil_append]
  exact read_default rfl rfl hes

/-- C136. With a rotation size and limit that do not change, and without a bound on the buffers: when the destructor has
returned, the files of a log file that had none before are made of a header line, if it is wanted and there is an entry,
and one line for each of the newest calls of a sufficient level, those of each thread in the order of its calls; there
are no entries in files beyond the limit. Whatever rotation does, no entry is missing that is newer than one that is
there. -/
theorem C136_files {paths : Nat → Path} {σ : Settings} {w : Entry → List Char} {header : List Char} {fs : Fs} {s : State}
    {evs : List Event} (hsep : Separate paths) (hfs : Fresh fs) (hw : Writers w header σ) (hdirs : σ.createDirs = true)
    (hmax : σ.bufferMaxSize = 0) (hc : ∀ ev ∈ evs, Calm ev) (hr : run paths (init σ fs) evs = some s)
    (hd : s.stage = .destroyed) (name : Nat) (hnew : ∀ i, bytesOf fs (pathAt (paths name) i) = []) :
    ∃ (es : List Entry) (part : Nat → List Entry), (∀ tid, saidBy tid es = said σ.level name tid evs) ∧
      (∀ i, bytesOf s.fs (pathAt (paths name) i) =
        (if σ.writeHeader = true ∧ part i ≠ [] then header ++ ['\n'] else []) ++
          (part i).flatMap fun e => w e ++ ['\n']) ∧
      (∀ i, σ.fileRotationLimit < i → part i = []) ∧ oldestFirst part σ.fileRotationLimit <:+ es ∧
      ((∀ ev ∈ evs, Smooth ev) → Unnumbered paths fs → oldestFirst part σ.fileRotationLimit = es ∨
        ∀ i, 1 ≤ i → i ≤ σ.fileRotationLimit →
          σ.fileRotationSize ≤ (bytesOf s.fs (pathAt (paths name) i)).length) := by
  have hU : Usable σ := ⟨fun e => ⟨w e, hw.1 e⟩, ⟨header, hw.2⟩, hdirs⟩
  have h1 := (calm_reaches hr hc (okσ := fun σ' => Writers w header σ' ∧ σ'.writeHeader = σ.writeHeader) ⟨hw, rfl⟩).1
  have h2 := (calm_reaches hr hc (okσ := fun _ => True) trivial).2
  have h3 := (calm_reaches hr hc (okσ := (·.fileRotationLimit = σ.fileRotationLimit)) rfl).1
  have hall := reaches_mono h3 (fun _ h => h) (okIo' := fun _ => True) (fun _ _ => trivial)
  have hreach := log_reachable hr
  have hold := former_none (okIo := Writable) ⟨rfl, rfl⟩ (Separate.distinct hsep) h3 (name := name) fun i => by
    have := hnew i
    unfold bytesOf at this
    rw [← List.length_eq_zero_iff] at this ⊢
    have hle : (bytes (former ((read fs (pathAt (paths name) i)).getD []))).length ≤
        (bytes ((read fs (pathAt (paths name) i)).getD [])).length := by
      unfold former bytes
      exact (List.filter_sublist.map _).flatten.length_le
    omega
  have hcalls : s.calls = [] := by
    rcases closing hreach with ⟨h4, -⟩ | ⟨-, h4⟩
    · rw [hd] at h4; cases h4
    · exact h4.calls
  have hwr : written s name = accepted s name := C28_flushed hU h2 hd name
  refine ⟨accepted s name, fun i => own name (read s.fs (pathAt (paths name) i)), fun tid => ?_, fun i => ?_,
    fun i hi => disk_limit trivial (Separate.distinct hsep) hfs hall name i hi, ?_, fun hsm hun => ?_⟩
  · have := taken_run .init hr hc hmax name tid
    rw [taken, hcalls, List.filterMap_nil, List.append_nil] at this
    rw [this]
    rfl
  · have ho := hold i
    unfold bytesOf
    beta_reduce
    cases hread : read s.fs (pathAt (paths name) i) with
    | none => simp [own, bytes]
    | some c =>
      have := C23_bytes hsep hfs h1 hread
      rw [hread, Option.getD_some] at ho
      simpa [ho] using this
  · rw [← chain_oldestFirst, ← hwr]
    exact C32_suffix_partial (Separate.distinct hsep) hfs hall name _
  · rw [← chain_oldestFirst, ← hwr]
    have h4 : Reaches paths (fun σ' => σ'.fileRotationSize = σ.fileRotationSize ∧
        σ'.fileRotationLimit = σ.fileRotationLimit) (fun io => Writable io ∧ io.rotating = {}) fs s := by
      refine log_reaches ⟨rfl, rfl⟩ (fun ev hev s => ?_) hr
      obtain ⟨h5, h6⟩ := hsm ev hev
      have hn : ∀ io, NoFault io → Writable io ∧ io.rotating = {} := by rintro io rfl; exact ⟨⟨rfl, rfl⟩, rfl⟩
      cases ev with
      | set x => exact h5.elim
      | thread io => exact ⟨h5, h6 io rfl⟩
      | flush io ios => exact ⟨hn _ h5.1, fun io h => hn _ (h5.2 io h)⟩
      | _ => trivial
    refine (C108_full_partial (Separate.distinct hsep) hfs h4 name).imp_right fun hk i h5 h6 => ?_
    obtain ⟨c, hc, -⟩ := hk i h5 h6
    obtain ⟨j, rfl⟩ : ∃ j, i = j + 1 := ⟨i - 1, by omega⟩
    have hf := files_numbered (Q := fun c => σ.fileRotationSize ≤ size c) (Separate.distinct hsep) (fun _ h => h)
      (fun n i c hc => by rw [hun] at hc; cases hc) (reaches_mono h4 (fun _ h => h.1) (fun _ h => h.1))
    unfold bytesOf
    rw [hc, Option.getD_some, ← bytes_size]
    exact hf name j c hc

/-- C136. With the default writers and header, whatever the level, the flush size and the rotation: somebody who reads the
files of a new log file from the oldest to the newest gets the newest calls of a sufficient level, and all of them
unless there are as many rotated files as there may be, each of at least the rotation size. -/
theorem C136_read {paths : Nat → Path} {σ : Settings} {hide : Bool} {record : Entry → LogText.Record} {fs : Fs}
    {s : State} {evs : List Event} (hsep : Separate paths) (hfs : Fresh fs)
    (hlog : σ.logWriter = defaultLogWriter hide record) (hhead : σ.headerWriter = defaultHeaderWriter hide)
    (hwh : σ.writeHeader = true) (hdirs : σ.createDirs = true) (hmax : σ.bufferMaxSize = 0)
    (hc : ∀ ev ∈ evs, Smooth ev) (hr : run paths (init σ fs) evs = some s) (hd : s.stage = .destroyed) (name : Nat)
    (hrec : ∀ e, (e.time, e.level, e.message) ∈ said σ.level name e.tid evs → LogReadSpec.Readable (record e))
    (hnew : bytesOf fs (paths name) = []) (hun : Unnumbered paths fs) :
    ∃ es kept : List Entry, (∀ tid, saidBy tid es = said σ.level name tid evs) ∧ kept <:+ es ∧
      oldestFirst (fun i => LogReadSpec.readLog hide true (bytesOf s.fs (pathAt (paths name) i))) σ.fileRotationLimit =
        kept.map (fun e => LogReadSpec.shown hide (record e)) ∧
      (kept = es ∨ ∀ i, 1 ≤ i → i ≤ σ.fileRotationLimit →
        σ.fileRotationSize ≤ (bytesOf s.fs (pathAt (paths name) i)).length) := by
  have hW : Writers (fun e => textOf hide (record e)) (LogRead.headLine hide ++ '\n' :: LogRead.ruleLine hide) σ := by
    obtain ⟨h1, h2⟩ := initial_writers hide record
    exact ⟨fun e => hlog ▸ h1 e, hhead ▸ h2⟩
  obtain ⟨es, part, h1, h2, -, h4, h5⟩ := C136_files hsep hfs hW hdirs hmax (fun ev h => (hc ev h).1) hr hd name (by
    intro i
    cases i with
    | zero => rw [pathAt_zero]; exact hnew
    | succ i => unfold bytesOf; rw [hun]; rfl)
  have hes : ∀ e ∈ es, LogReadSpec.Readable (record e) := fun e he => hrec e (h1 e.tid ▸ mem_saidBy he)
  refine ⟨es, _, h1, h4, ?_, h5 hc hun⟩
  rw [oldestFirst_map]
  refine oldestFirst_congr fun i hi => ?_
  have := read_default (hide := hide) (b := σ.writeHeader) hwh (q := True) trivial (es := part i)
    fun e he => hes e (h4.subset (mem_oldestFirst hi he))
  rw [h2 i]
  simpa using this

/-- C131, the part that holds: if the limit is set to 1, the documented initial limit, before anything is written, and
rotating does not fail, then what was written to a log file is in the file and the one before it, or there is a file
before it. -/
theorem C131_documented_partial {paths : Nat → Path} {hide : Bool} {record : Entry → LogText.Record} {fs : Fs} {s : State}
    (hsep : Distinct paths) (hfs : Fresh fs)
    (h : ReachableBy paths (Within (·.fileRotationLimit = 1) (·.rotating = {}))
      ((initialSettings hide record).set (.fileRotationLimit 1)) fs s) (name : Nat) :
    own name (read s.fs (pathAt (paths name) 1)) ++ own name (read s.fs (paths name)) = written s name ∨
      read s.fs (pathAt (paths name) 1) ≠ none := by
  refine (disk_kept (limit := 1) hsep hfs ⟨_, rfl, h⟩ name).imp (fun h => ?_) (fun h => h 1 (by decide) (by decide))
  rw [← h, chain, chain, pathAt_zero]

/-- C131, what is the case instead: if the rotation limit is not set, whatever else is, there are entries of a log file
only in the file itself: with a rotation size alone, rotation deletes the log. (The property is false.) -/
theorem C131_limit {paths : Nat → Path} {hide : Bool} {record : Entry → LogText.Record} {fs : Fs} {s : State}
    (hsep : Distinct paths) (hfs : Fresh fs)
    (h : ReachableBy paths (fun _ ev => ∀ n, ev ≠ .set (.fileRotationLimit n)) (initialSettings hide record) fs s)
    (name : Nat) (q : Path) (hq : own name (read s.fs q) ≠ []) : q = paths name := by
  have h0 : s.settings.fileRotationLimit = 0 ∧
      ReachableBy paths (Within (·.fileRotationLimit = 0) (fun _ => True)) (initialSettings hide record) fs s := by
    clear hq
    induction h with
    | init => exact ⟨rfl, .init⟩
    | @step s s' ev _ hok hs ih =>
      have hset : (settingsAfter s.settings ev).fileRotationLimit = 0 := by
        cases ev with
        | set x =>
          cases x with
          | fileRotationLimit n => exact absurd rfl (hok n)
          | _ => exact ih.1
        | _ => exact ih.1
      refine ⟨by rw [settings_step hs]; exact hset, .step ev ih.2 ?_ hs⟩
      cases ev with
      | set x => exact hset
      | thread io => trivial
      | flush io ios => exact ⟨trivial, fun _ _ => trivial⟩
      | _ => trivial
  obtain ⟨i, hi, rfl⟩ := C85_files (limit := 0) hsep hfs ⟨initialSettings hide record, rfl, h0.2⟩ name q hq
  rw [Nat.le_zero.1 hi, pathAt_zero]

/-- The source of every entry is the same. -/
def exampleWhole (e : Entry) : LogText.Record :=
  { exampleRecord with micros := e.time, threadId := e.tid, level := e.level, message := e.message }

/-- Two threads write to a log file, one of them also to another one; one call has a level that is not logged. -/
def exampleStory : List Event :=
  exampleWrite 1 0 "one" ++ exampleWrite 2 0 "two" ++ [.notify 0, .call 1 0 5 (-1) "nothing".toList] ++
    exampleWrite 1 1 "three" ++ [.notify 0, .notify 0] ++ exampleThread 4 ++ exampleWrite 1 0 "four" ++ [.notify 0] ++
    exampleThread 12 ++ [.stop, .stopNotify] ++ exampleThread 7 ++ [.join, .flush {} [], .flush {} [], .finish]

theorem exampleStory_calm : ∀ ev ∈ exampleStory, Calm ev := by
  intro ev hev
  simp only [exampleStory, exampleWrite, exampleThread, List.replicate, List.cons_append, List.nil_append,
    List.mem_cons, List.not_mem_nil, or_false] at hev
  rcases hev with rfl | rfl | rfl | rfl | rfl | rfl | rfl | rfl | rfl | rfl | rfl | rfl | rfl | rfl | rfl | rfl | rfl |
    rfl | rfl | rfl | rfl | rfl | rfl | rfl | rfl | rfl | rfl | rfl | rfl | rfl | rfl | rfl | rfl | rfl | rfl | rfl |
    rfl | rfl | rfl | rfl | rfl | rfl | rfl | rfl | rfl | rfl <;> simp [Calm, Writable, NoFault]

set_option maxRecDepth 16000 in
example : (run examplePaths (init (initialSettings false exampleWhole) {}) exampleStory).map (fun s =>
      (s.stage, (LogReadSpec.readLog false true (bytesOf s.fs (examplePaths 0))).map fun f =>
        (f.threadId, f.level, f.message))) =
    some (.destroyed, [(1, some 3, "one".toList), (2, some 3, "two".toList), (1, some 3, "four".toList)]) ∧
    said 0 0 1 exampleStory = [(0, 3, "one".toList), (0, 3, "four".toList)] ∧
    said 0 1 1 exampleStory = [(0, 3, "three".toList)] ∧
    bytesOf {} (examplePaths 0) = [] := by
  refine ⟨?_, ?_, ?_, ?_⟩ <;> decide

example : ∀ e : Entry, (e.time, e.level, e.message) ∈ said 0 0 e.tid exampleStory →
    LogReadSpec.Readable (exampleWhole e) := by
  intro e he
  have h : (e.time, e.level, e.message) ∈ [((0 : Int), (3 : Int), "one".toList), (0, 3, "two".toList), (0, 3, "four".toList)] := by
    by_cases h1 : e.tid = 1
    · rw [h1, show said 0 0 1 exampleStory = [(0, 3, "one".toList), (0, 3, "four".toList)] by decide] at he
      simp only [List.mem_cons, List.not_mem_nil, or_false] at he ⊢
      rcases he with he | he <;> simp [he]
    · by_cases h2 : e.tid = 2
      · rw [h2, show said 0 0 2 exampleStory = [(0, 3, "two".toList)] by decide] at he
        simp only [List.mem_cons, List.not_mem_nil, or_false] at he ⊢
        simp [he]
      · simp [exampleStory, exampleWrite, exampleThread, List.replicate, said, Ne.symm h1, Ne.symm h2] at he
  have h' : e.time = 0 ∧ e.level = 3 ∧ '\n' ∉ e.message := by
    simp only [List.mem_cons, Prod.mk.injEq, List.not_mem_nil, or_false] at h
    rcases h with ⟨h1, h2, h3⟩ | ⟨h1, h2, h3⟩ | ⟨h1, h2, h3⟩ <;> exact ⟨h1, h2, by rw [h3]; decide⟩
  refine ⟨⟨by simp [exampleWhole, exampleRecord], by simp [exampleWhole, exampleRecord],
    by simp [exampleWhole, exampleRecord], by simp [exampleWhole, exampleRecord],
    by simp [exampleWhole, exampleRecord], by simp [exampleWhole, exampleRecord], ?_⟩, ?_,
    by simp [exampleWhole, exampleRecord], by simp [exampleWhole, exampleRecord],
    by simp [exampleWhole, exampleRecord], by simp [exampleWhole, exampleRecord], ?_⟩
  · show 0 ≤ e.time
    omega
  · show 0 ≤ e.level ∧ e.level ≤ 8
    omega
  · exact h'.2.2

/-- Only the rotation size is set. -/
def exampleOnlySize : List Event :=
  [.set (.fileRotationSize 200)] ++ exampleWrite 1 0 "one" ++ exampleWrite 2 0 "two" ++ exampleWrite 3 0 "three" ++
    exampleThread 8

set_option maxRecDepth 16000 in
/-- C131. A logger that has been given a rotation size only, 200 bytes, keeps one of three entries. (The property is
false.) -/
theorem C131_fails (hide : Bool) : ∃ s, run examplePaths (init (initialSettings hide exampleWhole) {}) exampleOnlySize = some s ∧
    (written s 0).map (·.message) = ["one".toList, "two".toList, "three".toList] ∧
    s.fs.files.map (fun f => (f.1, (own 0 (some f.2)).map (·.message))) = [(examplePaths 0, ["three".toList])] := by
  cases hide
  · refine ⟨_, rfl, ?_, ?_⟩ <;> decide
  · refine ⟨_, rfl, ?_, ?_⟩ <;> decide

set_option maxRecDepth 16000 in
/-- With the documented limit it keeps the newest two. -/
example : (run examplePaths (init ((initialSettings false exampleWhole).set (.fileRotationLimit 1)) {}) exampleOnlySize).map
      (fun s => s.fs.files.map fun f => (f.1, (own 0 (some f.2)).map (·.message))) =
    some [(examplePaths 0, ["three".toList]), (pathAt (examplePaths 0) 1, ["two".toList])] := by
  decide

/-- A logger that is given a rotation size of 200 bytes and a limit of two files, and whose level is 1. -/
def exampleRolling : Settings :=
  { initialSettings false exampleWhole with level := 1, fileRotationSize := 200, fileRotationLimit := 2 }

/-- Five calls from two threads, of which one has a level that is not logged. -/
def exampleRolled : List Event :=
  exampleWrite 1 0 "one" ++ exampleWrite 2 0 "two" ++ [.notify 0, .notify 0, .call 2 0 0 0 "nothing".toList] ++
    exampleWrite 1 0 "three" ++ exampleWrite 2 0 "four" ++ [.notify 0, .notify 0] ++ exampleThread 8 ++ [.stop, .stopNotify] ++ exampleThread 4 ++
    [.join, .flush {} [], .finish]

theorem exampleRolled_smooth : ∀ ev ∈ exampleRolled, Smooth ev := by
  intro ev hev
  simp only [exampleRolled, exampleWrite, exampleThread, List.replicate, List.cons_append, List.nil_append,
    List.mem_cons, List.not_mem_nil, or_false] at hev
  rcases hev with rfl | rfl | rfl | rfl | rfl | rfl | rfl | rfl | rfl | rfl | rfl | rfl | rfl | rfl | rfl | rfl | rfl |
    rfl | rfl | rfl | rfl | rfl | rfl | rfl | rfl | rfl | rfl | rfl | rfl | rfl | rfl | rfl | rfl | rfl <;>
    simp [Smooth, Calm, Writable, NoFault]

set_option maxRecDepth 16000 in
/-- The oldest entry is gone, and there are two rotated files of at least 200 bytes. -/
example : (run examplePaths (init exampleRolling {}) exampleRolled).map (fun s =>
      (s.stage, (oldestFirst (fun i => LogReadSpec.readLog false true (bytesOf s.fs (pathAt (examplePaths 0) i))) 2).map
        fun f => (f.threadId, f.level, f.message))) =
    some (.destroyed, [(2, some 3, "two".toList), (1, some 3, "three".toList), (2, some 3, "four".toList)]) ∧
    said 1 0 1 exampleRolled = [(0, 3, "one".toList), (0, 3, "three".toList)] ∧
    said 1 0 2 exampleRolled = [(0, 3, "two".toList), (0, 3, "four".toList)] ∧
    Unnumbered examplePaths {} ∧ bytesOf {} (examplePaths 0) = [] ∧
    exampleRolling.logWriter = defaultLogWriter false exampleWhole ∧
    exampleRolling.headerWriter = defaultHeaderWriter false ∧ exampleRolling.bufferMaxSize = 0 ∧
    exampleRolling.writeHeader = true ∧ exampleRolling.createDirs = true := by
  refine ⟨by decide, by decide, by decide, fun _ _ => rfl, by decide, rfl, rfl, rfl, rfl, rfl⟩

end Pluto.Props
