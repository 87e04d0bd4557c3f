import Verif.Proofs.LogShare

/-!
# Several loggers that write to the same file (C121)

`Reachable cfg ok s₀ s`: any number of loggers, in one program or in several, with the settings `cfg`, have come from the state `s₀` to `s`.
The full statement is: when all loggers have written what they had to, the files are made of whole headers and lines, those of each logger in the
order in which they were logged; nothing is missing, and a header is the first line of its file.  It is false (`C121_torn`,
`C121_headers`, `C121_lost`).
-/

namespace Pluto.Props
open Pluto.LogShare

/-- C121, the part that holds without rotation: each logger's lines are in the file, or still in the buffer of its stream or in its queue, each
once and in order; the characters of others may be between. What was in the file before is still there. -/
theorem C121_order_partial {cfg : Config} (h0 : cfg.rotationSize = 0) {s₀ s : State} (h : Start s₀) (hr : Reachable cfg anything s₀ s) :
    ∃ new, contents s.fs 0 = contents s₀.fs 0 ++ new ∧
      ∀ i, by' i new ++ pending s i = (texts s i).flatten ∧ lines s i ++ (s.loggers i).queue = (s.loggers i).logged := by
  obtain ⟨new, I⟩ := inv_reachable (w := False) h0 h (fun h => h.elim) hr
  exact ⟨new, I.file, fun i => ⟨I.chars i, I.lines i⟩⟩

/-- C121, the part that holds if moreover streams write out all that is in their buffers whenever they write out something: then the file
is made of whole headers and lines. -/
theorem C121_whole_partial {cfg : Config} (h0 : cfg.rotationSize = 0) {s₀ s : State} (h : Start s₀) (hr : Reachable cfg FlushAll s₀ s) :
    ∃ new ls, contents s.fs 0 = contents s₀.fs 0 ++ new ∧ Whole new ls ∧
      ∀ i, ∃ ps, texts s i = pieces i ls ++ ps ∧ pending s i = ps.flatten := by
  obtain ⟨new, I⟩ := inv_reachable (w := True) h0 h (fun _ _ _ h => h) hr
  obtain ⟨ls, h1, h2⟩ := I.whole trivial
  exact ⟨new, ls, I.file, h1, h2⟩

/-- C121: likewise, when all is written (no header or line is empty: they end with a line break): the pieces of each logger are what it put, and
without headers these are the lines that were logged. -/
theorem C121_quiet_partial {cfg : Config} (h0 : cfg.rotationSize = 0) {s₀ s : State} (h : Start s₀) (hr : Reachable cfg FlushAll s₀ s)
    (hq : Quiet s) (hne : ∀ i, [] ∉ texts s i) :
    ∃ new ls, contents s.fs 0 = contents s₀.fs 0 ++ new ∧ Whole new ls ∧ ∀ i, pieces i ls = texts s i ∧ lines s i = (s.loggers i).logged := by
  obtain ⟨new, I⟩ := inv_reachable (w := True) h0 h (fun _ _ _ h => h) hr
  obtain ⟨ls, h1, h2⟩ := I.whole trivial
  refine ⟨new, ls, I.file, h1, fun i => ⟨?_, ?_⟩⟩
  · obtain ⟨ps, h3, h4⟩ := h2 i
    have hp : pending s i = [] := by unfold pending; rw [(hq i).2]
    rw [hp] at h4
    cases ps with
    | nil => rw [h3, List.append_nil]
    | cons a ps =>
      have : a = [] := by
        rw [List.flatten_cons] at h4
        exact (List.append_eq_nil_iff.1 h4.symm).1
      exact absurd (by rw [h3, this]; simp) (hne i)
  · have hl := I.lines i
    rw [(hq i).1, List.append_nil] at hl
    exact hl

theorem logShare_run {cfg : Config} {ok : State → Event → Prop} {s₀ s s' : State} (h : Reachable cfg ok s₀ s) (evs : List Event)
    (hok : ∀ ev ∈ evs, ∀ s, ok s ev) (hr : run cfg s evs = some s') : Reachable cfg ok s₀ s' := by
  induction evs generalizing s with
  | nil => cases hr; exact h
  | cons ev evs ih =>
    simp only [run] at hr
    split at hr
    · rename_i s1 e
      exact ih (.step ev h (hok ev (by simp) s) e) (fun ev' h' => hok ev' (List.mem_cons_of_mem _ h')) hr
    · cases hr

theorem start_empty : Start {} := ⟨(fun _ _ h => by cases h), fun _ => rfl⟩

/-- What is in a file, without the notes of who wrote it. -/
def text (s : State) (n : Nat) : String := String.ofList ((contents s.fs n).map (·.2))

/-- Two loggers have the file open at the same time. -/
def overlap : List Event :=
  [.log 0 "ab\n".toList, .log 1 "cd\n".toList, .go 0, .go 1, .go 0, .go 1, .log 0 "ef\n".toList, .go 0, .go 1, .go 0]

theorem flushAll_of {evs : List Event} (h : evs.all (fun | .flush _ _ => false | _ => true) = true) : ∀ ev ∈ evs, ∀ s, FlushAll s ev := by
  intro ev hev s i n e
  subst e
  have := List.all_eq_true.1 h _ hev
  cases this

/-- All that is logged is in the file, in whole lines. -/
example : ∃ s, Reachable {} FlushAll {} s ∧ Quiet s ∧ (∀ i, [] ∉ texts s i) ∧ text s 0 = "cd\nab\nef\n" := by
  refine ⟨(run {} {} overlap).getD {}, logShare_run .init overlap (flushAll_of (by decide)) rfl, ?_, ?_, by decide⟩
  · intro i
    match i with
    | 0 => exact ⟨rfl, rfl⟩
    | 1 => exact ⟨rfl, rfl⟩
    | i + 2 => exact ⟨rfl, rfl⟩
  · intro i
    match i with
    | 0 => decide
    | 1 => decide
    | i + 2 => exact List.not_mem_nil

/-- One stream writes out a part of a line before another one writes. -/
def tearing : List Event :=
  [.log 0 "ab\n".toList, .log 1 "cd\n".toList, .go 0, .go 0, .flush 0 1, .go 1, .go 1, .go 1, .go 0]

/-- C121 fails: the line of one logger is in the middle of the line of another one. -/
theorem C121_torn : ∃ s, Reachable {} anything {} s ∧ Quiet s ∧ text s 0 = "acd\nb\n" ∧
    (s.loggers 0).logged = ["ab\n".toList] ∧ (s.loggers 1).logged = ["cd\n".toList] := by
  refine ⟨(run {} {} tearing).getD {}, logShare_run .init tearing (fun _ _ _ => trivial) rfl, ?_, by decide, by decide, by decide⟩
  intro i
  match i with
  | 0 => exact ⟨rfl, rfl⟩
  | 1 => exact ⟨rfl, rfl⟩
  | i + 2 => exact ⟨rfl, rfl⟩

/-- C121 fails: two loggers find the file empty, and both write the header. -/
theorem C121_headers : ∃ s, Reachable { header := some "H\n".toList } FlushAll {} s ∧ Quiet s ∧ text s 0 = "H\ncd\nH\nab\nef\n" := by
  refine ⟨(run { header := some "H\n".toList } {} overlap).getD {}, logShare_run .init overlap (flushAll_of (by decide)) rfl, ?_, by decide⟩
  intro i
  match i with
  | 0 => exact ⟨rfl, rfl⟩
  | 1 => exact ⟨rfl, rfl⟩
  | i + 2 => exact ⟨rfl, rfl⟩

/-- Two loggers find the file too large at the same time; both rename it. -/
def rotating : List Event :=
  [.log 0 "ab\n".toList, .go 0, .go 0, .go 0, .log 0 "cd\n".toList, .log 1 "ef\n".toList] ++ List.replicate 4 (.go 0) ++ List.replicate 4 (.go 1) ++
    List.replicate 5 (.go 0) ++ List.replicate 5 (.go 1)

/-- C121 fails: the first line is lost, although five rotated files should be kept. -/
theorem C121_lost : ∃ s, Reachable { rotationSize := 1, rotationLimit := 5 } FlushAll {} s ∧ Quiet s ∧
    (s.loggers 0).logged = ["ab\n".toList, "cd\n".toList] ∧ text s 0 = "ef\n" ∧ text s 1 = "cd\n" ∧ ∀ n, text s (n + 2) = "" := by
  refine ⟨(run { rotationSize := 1, rotationLimit := 5 } {} rotating).getD {},
    logShare_run .init rotating (flushAll_of (by decide)) rfl, ?_, by decide, by decide, by decide, fun n => rfl⟩
  intro i
  match i with
  | 0 => exact ⟨rfl, rfl⟩
  | 1 => exact ⟨rfl, rfl⟩
  | i + 2 => exact ⟨rfl, rfl⟩

end Pluto.Props
