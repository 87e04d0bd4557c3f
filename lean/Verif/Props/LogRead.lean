import Verif.Props.LogText
import Verif.Proofs.LogRead

/-! # Properties of the text of a log file (C122) -/

namespace Pluto.Props
open LogText LogReadSpec LogRead

/-- C122. What the default writers put into a new log file, however often the file is opened in between, is read
back as the entries in their order, with or without a header and with or without source information. Missing:
entries with line breaks, see `C122_forged`; what the columns cut off, see `C122_cut`. -/
theorem C122_read_partial (hide header : Bool) (batches : List (List Record))
    (h : ∀ log ∈ batches.flatten, Readable log) :
    ∃ text, writeFile hide header [] batches = .ok text ∧
      readLog hide header text = batches.flatten.map (shown hide) := by
  refine ⟨_, writeFile_eq hide header [] batches
    (fun log hl => ⟨(h log hl).time.micros, (h log hl).line, (h log hl).null⟩), ?_⟩
  have hb := lines_body hide batches.flatten
    (fun log hl => lineOf_break hide log (h log hl).file (h log hl).function (h log hl).message)
  have hm : (batches.flatten.map (lineOf hide)).map (readLine hide) = batches.flatten.map (shown hide) := by
    rw [List.map_map]
    exact List.map_congr_left fun log hl => readLine_lineOf hide (h log hl).time (h log hl).line (h log hl).level
  have h1 : '\n' ∉ headLine hide := by cases hide <;> decide
  have h2 : '\n' ∉ ruleLine hide := by cases hide <;> decide
  unfold readLog
  by_cases he : batches.flatten = []
  · rw [he]
    simp [body, lines]
  · rw [if_neg he, List.nil_append]
    cases header with
    | false =>
      rw [show head hide false [] = [] from if_neg (by simp), List.nil_append, hb]
      exact hm
    | true =>
      rw [show head hide true [] = headLine hide ++ '\n' :: (ruleLine hide ++ ['\n']) from if_pos ⟨rfl, rfl⟩]
      simp only [List.append_assoc, List.cons_append, List.nil_append]
      rw [lines_line h1, lines_line h2, hb]
      exact hm

/-- C122. So two logs with the same text tell the same. -/
theorem C122_injective (hide header : Bool) (a b : List (List Record)) (ha : ∀ log ∈ a.flatten, Readable log)
    (hb : ∀ log ∈ b.flatten, Readable log)
    (h : writeFile hide header [] a = writeFile hide header [] b) :
    a.flatten.map (shown hide) = b.flatten.map (shown hide) := by
  obtain ⟨t, e, r⟩ := C122_read_partial hide header a ha
  obtain ⟨t', e', r'⟩ := C122_read_partial hide header b hb
  rw [e, e'] at h
  injection h with h
  rw [← r, ← r', h]

/-- Two entries; the thread id and the line number of the second do not fit, and there are bars in its texts. -/
def readBatches : List (List Record) :=
  [[exampleRecord], [],
    [{ exampleRecord with
        threadId := 140245123456789, line := 123456, function := "operator||".toList, file := "a|b\\c d.hpp".toList
        message := "x|y".toList, level := 0 }]]

example : ∀ log ∈ readBatches.flatten, Readable log := by
  intro log h
  simp only [readBatches, List.flatten_cons, List.flatten_nil, List.append_nil, List.nil_append, List.mem_append,
    List.mem_singleton] at h
  rcases h with rfl | rfl <;>
    exact ⟨⟨by decide, by decide, by decide, by decide, by decide, by decide, by decide⟩, by decide, by decide,
      by decide, by decide, by decide, by decide⟩

set_option maxRecDepth 8000 in
example : (writeFile false true [] readBatches).toOption.map (readLog false true) = some
    [⟨2024, 5, 17, 9, 3, 59, 42, 4711, some 5, "main.cpp".toList, 7, "run".toList, "hello".toList⟩,
     ⟨2024, 5, 17, 9, 3, 59, 42, 140245123456789, some 0, "c d.hpp".toList, 123456, "operator||".toList,
       "x|y".toList⟩] := by
  decide

/-- An entry whose message looks like the rest of a line and another entry. -/
def forging : Record :=
  { exampleRecord with
    message := "hello\n2024-05-17 09:03:59.000042|   4711|Warning |main.cpp            |    7|run                 |bye".toList }

set_option maxRecDepth 8000 in
/-- C122. One entry can be written as two: a message with a line break in it looks like another entry, made by
anybody. So nobody can tell from the log which entries there were. -/
theorem C122_forged (header : Bool) :
    writeFile false header [] [[forging]] =
        writeFile false header [] [[exampleRecord, { exampleRecord with message := "bye".toList }]] ∧
      ¬ ∃ reader : List Char → Nat, ∀ (batches : List (List Record)) (text : List Char),
        writeFile false header [] batches = .ok text → reader text = batches.flatten.length := by
  have h : writeFile false header [] [[forging]] =
      writeFile false header [] [[exampleRecord, { exampleRecord with message := "bye".toList }]] := by
    cases header <;> decide
  refine ⟨h, ?_⟩
  rintro ⟨reader, hr⟩
  have hp : ∀ log ∈ ([[forging]] : List (List Record)).flatten, Plain log := by
    intro log hl
    simp only [List.flatten_cons, List.flatten_nil, List.append_nil, List.mem_singleton] at hl
    subst hl
    exact ⟨by decide, by decide, by decide⟩
  have e := writeFile_eq false header [] _ hp
  have h1 := hr _ _ e
  have h2 := hr _ _ (h ▸ e)
  rw [h1] at h2
  exact absurd h2 (by decide)

set_option maxRecDepth 8000 in
/-- C122. Names are cut after twenty characters: different functions look the same. -/
theorem C122_cut : writeFile false true [] [[{ exampleRecord with function := "write_buffer_to_file".toList }]] =
    writeFile false true [] [[{ exampleRecord with function := "write_buffer_to_file_stream".toList }]] := by
  decide

end Pluto.Props
