import Verif.Props.Unicode
import Verif.Proofs.UtfSize

/-! # C160: the size of converted strings, and how to tell a valid one -/

namespace Pluto.Props
open Spec Unicode UtfProofs

/-- C160. Between UTF-8 and UTF-16. -/
theorem C160_8_16 (u : List UInt8) : ∃ v, utf8ToUtf16 u [] = some v ∧ v.length ≤ u.length ∧ u.length ≤ 3 * v.length := by
  obtain ⟨t, h⟩ := decodes_total enc8_ne_nil u
  refine ⟨_, utf8ToUtf16_spec [] h, ?_, ?_⟩
  · have := size_le (enc' := enc16) (a := 1) (fun c => by rw [len8, len16]; (repeat' split) <;> omega) (by decide) h
    simpa using this
  · exact size_ge (a := 3) (fun c => by rw [len8, len16]; (repeat' split) <;> omega) (by decide) h

theorem C160_16_8 (u : List UInt16) : ∃ v, utf16ToUtf8 u [] = some v ∧ u.length ≤ v.length ∧ v.length ≤ 3 * u.length := by
  obtain ⟨t, h⟩ := decodes_total enc16_ne_nil u
  refine ⟨_, utf16ToUtf8_spec [] h, ?_, ?_⟩
  · have := size_ge (enc' := enc8) (a := 1) (fun c => by rw [len8, len16]; (repeat' split) <;> omega) (by decide) h
    simpa using this
  · exact size_le (a := 3) (fun c => by rw [len8, len16]; (repeat' split) <;> omega) (by decide) h

/-- C160. Between UTF-8 and UTF-32. -/
theorem C160_8_32 (u : List UInt8) : ∃ v, utf8ToUtf32 u [] = some v ∧ v.length ≤ u.length ∧ u.length ≤ 4 * v.length := by
  obtain ⟨t, h⟩ := decodes_total enc8_ne_nil u
  refine ⟨_, utf8ToUtf32_spec [] h, ?_, ?_⟩
  · have := size_le (enc' := enc32) (a := 1) (fun c => by rw [len8, len32]; (repeat' split) <;> omega) (by decide) h
    simpa using this
  · exact size_ge (a := 4) (fun c => by rw [len8, len32]; (repeat' split) <;> omega) (by decide) h

theorem C160_32_8 (k : Elem32Kind) (u : List UInt32) :
    ∃ v, utf32ToUtf8 k u [] = some v ∧ u.length ≤ v.length ∧ v.length ≤ 4 * u.length := by
  obtain ⟨t, h⟩ := decodes_total enc32_ne_nil u
  refine ⟨_, utf32ToUtf8_spec k [] h, ?_, ?_⟩
  · have := size_ge (enc' := enc8) (a := 1) (fun c => by rw [len8, len32]; (repeat' split) <;> omega) (by decide) h
    simpa using this
  · exact size_le (a := 4) (fun c => by rw [len8, len32]; (repeat' split) <;> omega) (by decide) h

/-- C160. Between UTF-16 and UTF-32. -/
theorem C160_16_32 (u : List UInt16) :
    ∃ v, utf16ToUtf32 u [] = some v ∧ v.length ≤ u.length ∧ u.length ≤ 2 * v.length := by
  obtain ⟨t, h⟩ := decodes_total enc16_ne_nil u
  refine ⟨_, utf16ToUtf32_spec [] h, ?_, ?_⟩
  · have := size_le (enc' := enc32) (a := 1) (fun c => by rw [len16, len32]; (repeat' split) <;> omega) (by decide) h
    simpa using this
  · exact size_ge (a := 2) (fun c => by rw [len16, len32]; (repeat' split) <;> omega) (by decide) h

theorem C160_32_16 (k : Elem32Kind) (u : List UInt32) :
    ∃ v, utf32ToUtf16 k u [] = some v ∧ u.length ≤ v.length ∧ v.length ≤ 2 * u.length := by
  obtain ⟨t, h⟩ := decodes_total enc32_ne_nil u
  refine ⟨_, utf32ToUtf16_spec k [] h, ?_, ?_⟩
  · have := size_ge (enc' := enc16) (a := 1) (fun c => by rw [len16, len32]; (repeat' split) <;> omega) (by decide) h
    simpa using this
  · exact size_le (a := 2) (fun c => by rw [len16, len32]; (repeat' split) <;> omega) (by decide) h

/-- C160. The bounds are the best ones, for strings of any length: `m` times "a", "€" and "😀". -/
theorem C160_attained (k : Elem32Kind) (m : Nat) :
    (∃ v, utf8ToUtf16 (encode enc8 (List.replicate m 'a')) [] = some v ∧ v.length = m ∧
      (encode enc8 (List.replicate m 'a')).length = m) ∧
    (∃ v, utf16ToUtf8 (encode enc16 (List.replicate m '€')) [] = some v ∧ v.length = 3 * m ∧
      (encode enc16 (List.replicate m '€')).length = m) ∧
    (∃ v, utf32ToUtf8 k (encode enc32 (List.replicate m '😀')) [] = some v ∧ v.length = 4 * m ∧
      (encode enc32 (List.replicate m '😀')).length = m) ∧
    (∃ v, utf32ToUtf16 k (encode enc32 (List.replicate m '😀')) [] = some v ∧ v.length = 2 * m ∧
      (encode enc32 (List.replicate m '😀')).length = m) := by
  have key : ∀ {α : Type} (enc : Char → List α) (c : Char), (encode enc (List.replicate m c)).length = (enc c).length * m := by
    intro α enc c
    induction m with
    | zero => simp [encode]
    | succ m ih => rw [List.replicate_succ, encode_cons, List.length_append, ih]; ring
  refine ⟨⟨_, utf8ToUtf16_spec [] (decodes_encode enc8 _), ?_, ?_⟩, ⟨_, utf16ToUtf8_spec [] (decodes_encode enc16 _), ?_, ?_⟩,
    ⟨_, utf32ToUtf8_spec k [] (decodes_encode enc32 _), ?_, ?_⟩, ⟨_, utf32ToUtf16_spec k [] (decodes_encode enc32 _), ?_, ?_⟩⟩ <;>
    simp only [List.nil_append, key, len8, len16, len32] <;> simp

/-- C160. A string is valid exactly if it comes back unchanged from UTF-32 or UTF-16. -/
theorem C160_valid_8 (k : Elem32Kind) (u : List UInt8) :
    (WellFormed enc8 u ↔ (utf8ToUtf32 u []).bind (utf32ToUtf8 k · []) = some u) ∧
    (WellFormed enc8 u ↔ (utf8ToUtf16 u []).bind (utf16ToUtf8 · []) = some u) := by
  refine ⟨⟨C43_roundtrip_8_32 k u, fun h => ?_⟩, C43_roundtrip_8_16 u, fun h => ?_⟩
  · obtain ⟨v, h1, -⟩ := C44_wellformed_8_32 u
    obtain ⟨w, h2, h3⟩ := C44_wellformed_32_8 k v
    rw [h1, Option.bind_some, h2] at h
    cases h
    exact h3
  · obtain ⟨v, h1, -⟩ := C44_wellformed_8_16 u
    obtain ⟨w, h2, h3⟩ := C44_wellformed_16_8 v
    rw [h1, Option.bind_some, h2] at h
    cases h
    exact h3

theorem C160_valid_16 (k : Elem32Kind) (u : List UInt16) :
    (WellFormed enc16 u ↔ (utf16ToUtf32 u []).bind (utf32ToUtf16 k · []) = some u) ∧
    (WellFormed enc16 u ↔ (utf16ToUtf8 u []).bind (utf8ToUtf16 · []) = some u) := by
  refine ⟨⟨C43_roundtrip_16_32 k u, fun h => ?_⟩, C43_roundtrip_16_8 u, fun h => ?_⟩
  · obtain ⟨v, h1, -⟩ := C44_wellformed_16_32 u
    obtain ⟨w, h2, h3⟩ := C44_wellformed_32_16 k v
    rw [h1, Option.bind_some, h2] at h
    cases h
    exact h3
  · obtain ⟨v, h1, -⟩ := C44_wellformed_16_8 u
    obtain ⟨w, h2, h3⟩ := C44_wellformed_8_16 v
    rw [h1, Option.bind_some, h2] at h
    cases h
    exact h3

theorem C160_valid_32 (k : Elem32Kind) (u : List UInt32) :
    (WellFormed enc32 u ↔ (utf32ToUtf8 k u []).bind (utf8ToUtf32 · []) = some u) ∧
    (WellFormed enc32 u ↔ (utf32ToUtf16 k u []).bind (utf16ToUtf32 · []) = some u) := by
  refine ⟨⟨C43_roundtrip_32_8 k u, fun h => ?_⟩, C43_roundtrip_32_16 k u, fun h => ?_⟩
  · obtain ⟨v, h1, -⟩ := C44_wellformed_32_8 k u
    obtain ⟨w, h2, h3⟩ := C44_wellformed_8_32 v
    rw [h1, Option.bind_some, h2] at h
    cases h
    exact h3
  · obtain ⟨v, h1, -⟩ := C44_wellformed_32_16 k u
    obtain ⟨w, h2, h3⟩ := C44_wellformed_16_32 v
    rw [h1, Option.bind_some, h2] at h
    cases h
    exact h3

private theorem repl_mem32 {t : List Char} (h : replacement ∈ t) : (0xFFFD : UInt32) ∈ encode enc32 t :=
  mem_encode.2 ⟨_, h, by decide⟩

private theorem repl_mem16 {t : List Char} (h : replacement ∈ t) : (0xFFFD : UInt16) ∈ encode enc16 t :=
  mem_encode.2 ⟨_, h, by decide⟩

/-- C160. If U+FFFD does not occur in the result of a conversion, the string was valid. -/
theorem C160_no_replacement :
    (∀ (u : List UInt8) v, utf8ToUtf32 u [] = some v → 0xFFFD ∉ v → WellFormed enc8 u) ∧
    (∀ (u : List UInt8) v, utf8ToUtf16 u [] = some v → 0xFFFD ∉ v → WellFormed enc8 u) ∧
    (∀ (u : List UInt16) v, utf16ToUtf32 u [] = some v → 0xFFFD ∉ v → WellFormed enc16 u) ∧
    (∀ (k : Elem32Kind) (u : List UInt32) v, utf32ToUtf16 k u [] = some v → 0xFFFD ∉ v → WellFormed enc32 u) := by
  refine ⟨fun u v h hr => ?_, fun u v h hr => ?_, fun u v h hr => ?_, fun k u v h hr => ?_⟩
  · obtain ⟨t, ht⟩ := decodes_total enc8_ne_nil u
    rw [utf8ToUtf32_spec [] ht] at h
    cases h
    exact valid_of_none ht fun hm => hr (repl_mem32 hm)
  · obtain ⟨t, ht⟩ := decodes_total enc8_ne_nil u
    rw [utf8ToUtf16_spec [] ht] at h
    cases h
    exact valid_of_none ht fun hm => hr (repl_mem16 hm)
  · obtain ⟨t, ht⟩ := decodes_total enc16_ne_nil u
    rw [utf16ToUtf32_spec [] ht] at h
    cases h
    exact valid_of_none ht fun hm => hr (repl_mem32 hm)
  · obtain ⟨t, ht⟩ := decodes_total enc32_ne_nil u
    rw [utf32ToUtf16_spec k [] ht] at h
    cases h
    exact valid_of_none ht fun hm => hr (repl_mem16 hm)

/-! ## Cases -/

/-- A byte that is not valid becomes three bytes. -/
example (k : Elem32Kind) : (utf8ToUtf32 [0xFF] []).bind (utf32ToUtf8 k · []) = some [0xEF, 0xBF, 0xBD] := by
  have h : utf8ToUtf32 [0xFF] [] = some [0xFFFD] := by
    refine C49_invalid_step 0xFF [] [] (fun c h => ?_) (C42_utf8_to_utf32_valid [])
    rcases enc8_inv h with h | ⟨_, h, _⟩ | ⟨_, h, _⟩ | ⟨_, h, _⟩ <;> revert h <;> decide
  rw [h, Option.bind_some]
  exact C41_utf32_to_utf8_valid k [replacement]

/-- A valid string, whose conversion has no U+FFFD. -/
example : WellFormed enc8 [0x68, 0xE2, 0x82, 0xAC] ∧ utf8ToUtf32 [0x68, 0xE2, 0x82, 0xAC] [] = some [0x68, 0x20AC] ∧
    (0xFFFD : UInt32) ∉ [0x68, 0x20AC] :=
  ⟨⟨"h€".toList, by decide⟩, C42_utf8_to_utf32_valid "h€".toList, by decide⟩

end Pluto.Props
