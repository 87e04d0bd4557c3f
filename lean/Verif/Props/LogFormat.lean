import Verif.Props.LogText
import Verif.Proofs.LogFormat

/-! # The text of a log and the formatting state of its stream (C129)

`writeBatches w wh size f batches` are the files after the logging thread has written the entries of `batches`, which it
takes from the buffer whenever it comes to it. -/

namespace Pluto.Props
open LogText LogFormat LogFormatSpec LogRead

/-- C129. If what the writers write does not depend on the formatting state of the stream, the files consist of the
header and the lines, and do not depend on when the entries were written; rotation may happen meanwhile. Missing:
writers that depend on it, see `C129_fails_header` and `C129_fails_writer`. -/
theorem C129_lines_partial {σ : Type} (w : Writers σ) (wh : Bool) (size : Nat) (header : List Char)
    (line : Record → List Char) (hh : wh = true → WritesLine w.header w.newline header) (hn : wh = false → header = [])
    (batches : List (List Record)) (hl : ∀ log ∈ batches.flatten, WritesLine (w.log log) w.newline (line log))
    (f : Files σ) :
    ∃ f', writeBatches w wh size f batches = .ok f' ∧
      ({ text := f'.text, aside := f'.rotated } : Pile) =
        (batches.flatten.map line).foldl (Pile.add size header) { text := f.text, aside := f.rotated } :=
  writeBatches_pile hh hn batches hl f

/-- C129. So for such writers the same entries in other batches give the same files. -/
theorem C129_batches_partial {σ : Type} (w : Writers σ) (wh : Bool) (size : Nat) (header : List Char)
    (line : Record → List Char) (hh : wh = true → WritesLine w.header w.newline header) (hn : wh = false → header = [])
    (a b : List (List Record)) (hab : a.flatten = b.flatten)
    (hl : ∀ log ∈ a.flatten, WritesLine (w.log log) w.newline (line log)) (f : Files σ) :
    ∃ g h, writeBatches w wh size f a = .ok g ∧ writeBatches w wh size f b = .ok h ∧ g.text = h.text ∧
      g.rotated = h.rotated := by
  obtain ⟨g, h1, h2⟩ := C129_lines_partial w wh size header line hh hn a hl f
  obtain ⟨h, h3, h4⟩ := C129_lines_partial w wh size header line hh hn b (hab ▸ hl) f
  rw [hab, ← h4] at h2
  injection h2 with e1 e2
  exact ⟨g, h, h1, h3, e1, e2⟩

/-- C129. The default writers are such writers: they set the state they need, whatever it was. -/
theorem C129_default (hide : Bool) (log : Record) (h : Plain log) :
    (∃ header, WritesLine (defaultWriters hide).header (defaultWriters hide).newline header) ∧
      ∃ line, WritesLine ((defaultWriters hide).log log) (defaultWriters hide).newline line :=
  ⟨⟨_, default_header_line hide⟩, ⟨_, default_log_line hide log h⟩⟩

/-- C129. With the default writers the files do not depend on when the entries were written. -/
theorem C129_default_batches (hide wh : Bool) (size : Nat) (a b : List (List Record)) (hab : a.flatten = b.flatten)
    (hp : ∀ log ∈ a.flatten, Plain log) (f : Files Format) :
    ∃ g h, writeBatches (defaultWriters hide) wh size f a = .ok g ∧
      writeBatches (defaultWriters hide) wh size f b = .ok h ∧ g.text = h.text ∧ g.rotated = h.rotated := by
  refine C129_batches_partial (defaultWriters hide) wh size
    (if wh then headLine hide ++ '\n' :: (ruleLine hide ++ ['\n']) else []) (fun log => lineOf hide log ++ ['\n'])
    ?_ ?_ a b hab (fun log hl => default_log_line hide log (hp log hl)) f
  · rintro rfl; exact default_header_line hide
  · rintro rfl; rfl

set_option maxRecDepth 8000 in
/-- Three entries in two batches; each fills a file. -/
example : Plain exampleRecord ∧
    (writeBatches (defaultWriters true) false 40 { state := {} } [[exampleRecord, exampleRecord], [exampleRecord]]).toOption.map
      (fun f => (f.text.length, f.rotated.map List.length)) = some (50, [50, 50]) :=
  ⟨⟨by decide, by decide, by decide⟩, by decide⟩

/-- C129. In what state the default writers leave the stream to other writers: the fill character is a blank again and
there is no width, as in a new stream, but text is adjusted to the left, which it is not in a new stream. -/
theorem C129_state (hide : Bool) (s : Format) (log : Record) :
    (∃ t, (defaultWriters hide).header s = .ok (t, { fill := ' ', adjust := .left, width := 0 })) ∧
      (∀ t s', (defaultWriters hide).log log s = .ok (t, s') → s' = { fill := ' ', adjust := .left, width := 0 }) ∧
      (defaultWriters hide).fresh = { fill := ' ', adjust := .right, width := 0 } := by
  refine ⟨?_, ?_, rfl⟩
  · refine ⟨(headerWriter hide s.out).text, ?_⟩
    cases hide <;> rfl
  · intro t s' h
    simp only [defaultWriters, defaultLog] at h
    cases hide with
    | true =>
      simp only [logWriter, if_true, Except.map, Except.ok.injEq, ofOut, Prod.mk.injEq] at h
      exact h.2.symm
    | false =>
      simp only [logWriter, Bool.false_eq_true, if_false] at h
      split at h
      · simp [Except.map] at h
      · simp only [Except.map, Except.ok.injEq, ofOut, Prod.mk.injEq] at h
        exact h.2.symm

/-- A log writer that writes the line number in a column of eight characters: `stream << std::setw(8) << line`. -/
def numberWriter (log : Record) (s : Format) : Res (List Char × Format) :=
  .ok (ofOut ((s.out.setw 8).put (signed log.line)))

set_option maxRecDepth 8000 in
/-- C129. The property fails for this log writer with the default header writer: the header writer leaves the stream
adjusted to the left, so the first entries in a new file are adjusted to the left; those written later, to a new stream,
to the right. Which entries these are depends on when the logging thread writes them. -/
theorem C129_fails_header (hide : Bool) :
    let w : Writers Format := { defaultWriters hide with log := numberWriter }
    let a : Record := { exampleRecord with line := 7 }
    ∃ t, (writeBatches w true 0 { state := {} } [[a, a]]).toOption.map Files.text =
        some (t ++ "7       \n7       \n".toList) ∧
      (writeBatches w true 0 { state := {} } [[a], [a]]).toOption.map Files.text =
        some (t ++ "7       \n       7\n".toList) := by
  refine ⟨headLine hide ++ '\n' :: (ruleLine hide ++ ['\n']), ?_⟩
  cases hide <;> decide

/-- A log writer that writes the line number adjusted as the stream is, and then the level adjusted to the left:
`stream << std::setw(8) << line << '|' << std::left << std::setw(8) << level`. -/
def mixedWriter (log : Record) (s : Format) : Res (List Char × Format) :=
  .ok (ofOut ((((((s.out.setw 8).put (signed log.line)).put ['|']).left).setw 8).put (title log.level)))

set_option maxRecDepth 8000 in
/-- C129. It fails without headers for a log writer that does not restore the state of the stream. -/
theorem C129_fails_writer (hide : Bool) :
    let w : Writers Format := { defaultWriters hide with log := mixedWriter }
    let a : Record := { exampleRecord with line := 7, level := 3 }
    (writeBatches w false 0 { state := {} } [[a, a]]).toOption.map Files.text =
        some "       7|Info    \n7       |Info    \n".toList ∧
      (writeBatches w false 0 { state := {} } [[a], [a]]).toOption.map Files.text =
        some "       7|Info    \n       7|Info    \n".toList := by
  cases hide <;> decide

end Pluto.Props
