import Verif.Props.LogText
import Verif.Proofs.LogUtf

/-! # Logs in UTF-8 (C128)

`Utf8 t` says that the bytes `t` are the UTF-8 encoding of some text. -/

namespace Pluto.Props
open LogText LogReadSpec LogRead LogUtfSpec LogUtf

/-- C128. Which default log line is valid UTF-8: exactly one whose message is and, unless the source is hidden,
whose file and function name are after they are cut to twenty bytes. -/
theorem C128_line (hide : Bool) (log : Record) (h : Plain log) :
    ∃ o, logWriter hide {} log = .ok o ∧ (Utf8 o.text ↔
      Utf8 log.message ∧ (hide = false → Utf8 ((lastPart log.file).take 20) ∧ Utf8 (log.function.take 20))) := by
  obtain ⟨o, e, t, -⟩ := logWriter_eq hide {} log h.micros h.line h.file
  refine ⟨o, e, ?_⟩
  rw [t]
  exact utf8_lineOf hide log

/-- C128. Which log file is valid UTF-8, after the default writers have written entries to its end, in as many
batches as one likes, with or without a header: exactly one that was before, if all its new lines are. -/
theorem C128_file (hide header : Bool) (text : List Char) (batches : List (List Record))
    (h : ∀ log ∈ batches.flatten, Plain log) :
    ∃ text', writeFile hide header text batches = .ok text' ∧ (Utf8 text' ↔ Utf8 text ∧
      ∀ log ∈ batches.flatten, Utf8 log.message ∧
        (hide = false → Utf8 ((lastPart log.file).take 20) ∧ Utf8 (log.function.take 20))) := by
  refine ⟨_, writeFile_eq hide header text batches h, ?_⟩
  simp only [← utf8_lineOf]
  rw [← utf8_body]
  cases hb : batches.flatten with
  | nil => simp [body, utf8_nil]
  | cons log logs =>
    rw [if_neg (c := log :: logs = []) (List.cons_ne_nil _ _)]
    by_cases ht : text = []
    · subst ht
      rw [List.nil_append, utf8_ascii_append (ascii_head hide header _)]
      simp [utf8_nil]
    · rw [show head hide header text = [] from if_neg (by simp [ht]), List.nil_append]
      exact utf8_after hide text log logs

/-- C128. Where text may be cut: what is left of valid UTF-8 after a number of bytes is valid exactly if the next
byte does not continue a character. -/
theorem C128_cut (t : List Char) (h : Utf8 t) (n : Nat) :
    Utf8 (t.take n) ↔ ∀ c, t[n]? = some c → ¬ Continues c :=
  utf8_take h n

/-- C128. The name of a file is valid UTF-8 if its path is. -/
theorem C128_name (path : List Char) (h : Utf8 path) : Utf8 (lastPart path) := utf8_lastPart h

/-- C128. A log of valid messages is valid if the names in it are valid and have at most twenty bytes or consist of
ASCII characters. Missing: other names, see `C128_fails`; exactly when it holds is in `C128_file` and `C128_cut`. -/
theorem C128_valid_partial (hide header : Bool) (text : List Char) (batches : List (List Record))
    (hp : ∀ log ∈ batches.flatten, Plain log) (ht : Utf8 text)
    (hv : ∀ log ∈ batches.flatten, Utf8 log.message ∧ Utf8 log.file ∧ Utf8 log.function)
    (hs : ∀ log ∈ batches.flatten, ((lastPart log.file).length ≤ 20 ∨ ∀ c ∈ log.file, c.toNat < 0x80) ∧
      (log.function.length ≤ 20 ∨ ∀ c ∈ log.function, c.toNat < 0x80)) :
    ∃ text', writeFile hide header text batches = .ok text' ∧ Utf8 text' := by
  have key : ∀ t : List Char, Utf8 t → (t.length ≤ 20 ∨ ∀ c ∈ t, c.toNat < 0x80) → Utf8 (t.take 20) := by
    rintro t h1 (h2 | h2)
    · rwa [List.take_of_length_le h2]
    · exact utf8_of_ascii fun c hc => h2 c (List.mem_of_mem_take hc)
  obtain ⟨text', e, h⟩ := C128_file hide header text batches hp
  refine ⟨text', e, h.2 ⟨ht, fun log hl => ⟨(hv log hl).1, fun _ => ⟨?_, key _ (hv log hl).2.2 (hs log hl).2⟩⟩⟩⟩
  refine key _ (utf8_lastPart (hv log hl).2.1) ?_
  rcases (hs log hl).1 with h1 | h1
  · exact .inl h1
  · exact .inr fun c hc => h1 c (mem_lastPart hc)

/-- C128. If the source is hidden, a log of valid messages is valid. -/
theorem C128_hidden (header : Bool) (text : List Char) (batches : List (List Record))
    (hp : ∀ log ∈ batches.flatten, Plain log) (ht : Utf8 text) (hv : ∀ log ∈ batches.flatten, Utf8 log.message) :
    ∃ text', writeFile true header text batches = .ok text' ∧ Utf8 text' := by
  obtain ⟨text', e, h⟩ := C128_file true header text batches hp
  exact ⟨text', e, h.2 ⟨ht, fun log hl => ⟨hv log hl, fun x => by cases x⟩⟩⟩

/-- The bytes of a text in UTF-8. -/
def bytesOf (s : String) : List Char := (Spec.encode Spec.enc8 s.toList).map fun u => Char.ofNat u.toNat

theorem bytesOf_utf8 (s : String) : Utf8 (bytesOf s) := by
  refine ⟨s.toList, ?_⟩
  rw [bytesOf, List.map_map]
  refine List.map_congr_left fun u _ => ?_
  exact Unicode.char_toNat_ofNat (by have := u.toNat_lt; omega)

/-- An entry with a message and short names that are not ASCII. -/
def utf8Record : Record :=
  { exampleRecord with message := bytesOf "größer", file := bytesOf "/src/Größe.cpp", function := bytesOf "größer" }

example : Plain utf8Record ∧ (Utf8 utf8Record.message ∧ Utf8 utf8Record.file ∧ Utf8 utf8Record.function) ∧
    ((lastPart utf8Record.file).length ≤ 20 ∨ ∀ c ∈ utf8Record.file, c.toNat < 0x80) ∧
    (utf8Record.function.length ≤ 20 ∨ ∀ c ∈ utf8Record.function, c.toNat < 0x80) :=
  ⟨⟨by decide, by decide, by decide⟩, ⟨bytesOf_utf8 _, bytesOf_utf8 _, bytesOf_utf8 _⟩, .inl (by decide),
    .inl (by decide)⟩

/-- C128. The property fails: an entry of a function whose name is valid UTF-8 but has a character across the
twentieth byte makes the whole log file invalid, whatever else is in it. -/
theorem C128_fails (header : Bool) (text : List Char) (before after : List Record)
    (hp : ∀ log ∈ before ++ after, Plain log) :
    ∃ log, Plain log ∧ Utf8 log.message ∧ Utf8 log.file ∧ Utf8 log.function ∧
      ∃ text', writeFile false header text [before ++ log :: after] = .ok text' ∧ ¬ Utf8 text' := by
  let log : Record := { exampleRecord with function := bytesOf "aéééééééééé", message := bytesOf "hello", file := bytesOf "main.cpp" }
  have hlog : Plain log := ⟨by decide, by decide, by decide⟩
  refine ⟨log, hlog, bytesOf_utf8 _, bytesOf_utf8 _, bytesOf_utf8 _, ?_⟩
  obtain ⟨text', e, h⟩ := C128_file false header text [before ++ log :: after] (by
    intro l hl
    simp only [List.flatten_cons, List.flatten_nil, List.append_nil, List.mem_append, List.mem_cons] at hl
    rcases hl with hl | rfl | hl
    · exact hp l (by simp [hl])
    · exact hlog
    · exact hp l (by simp [hl]))
  refine ⟨text', e, ?_⟩
  rw [h]
  rintro ⟨-, hall⟩
  have h1 := ((hall log (by simp)).2 rfl).2
  have h2 := (C128_cut log.function (bytesOf_utf8 _) 20).1 h1
  exact h2 (Char.ofNat 0xA9) (by decide) ⟨by decide, by decide⟩

end Pluto.Props
