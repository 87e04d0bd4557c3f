import Verif.Proofs.Unicode

/-!
# Properties of the Unicode converters (C41 - C50)

`enc8`, `enc16`, `enc32`, `encode`, `WellFormed`, `Decodes` are the specification (`Verif/Spec/Unicode.lean`).
A result `some x` means that the C++ code returns `x` without reading outside its input.
-/

namespace Pluto.Props
open Pluto.Spec Pluto.Unicode

/-- The text denoted by a 32-bit unit: the scalar value itself or U+FFFD. -/
def scalarOrReplacement (x : UInt32) : Char :=
  if x.toNat < 0xD800 ∨ (0xDFFF < x.toNat ∧ x.toNat < 0x110000) then Char.ofNat x.toNat else replacement

theorem decodes32 (u : List UInt32) : Decodes enc32 u (u.map scalarOrReplacement) := by
  induction u with
  | nil => exact .nil
  | cons a t ih =>
    by_cases h : a.toNat < 0xD800 ∨ (0xDFFF < a.toNat ∧ a.toNat < 0x110000)
    · have := Decodes.valid (enc := enc32) (Char.ofNat a.toNat) t _ ih
      rw [enc32_one h] at this
      simpa [scalarOrReplacement, h] using this
    · have := Decodes.invalid (enc := enc32) a t _ (fun c hc => h (enc32_inv hc)) ih
      simpa [scalarOrReplacement, h] using this

theorem encode32 (text : List Char) : encode enc32 text = text.map Char.val := by
  induction text with
  | nil => rfl
  | cons c t ih =>
    rw [encode] at ih
    rw [encode, List.flatMap_cons, ih]; rfl

/-! ## C41 -/

/-- **C41.** `utf32_to_utf8` turns any sequence of 32-bit units into the UTF-8 encoding of the scalar values it
denotes, units that are not scalar values counting as U+FFFD. -/
theorem C41_utf32_to_utf8 (k : Elem32Kind) (u : List UInt32) :
    utf32ToUtf8 k u [] = some (u.flatMap fun x => String.utf8EncodeChar (scalarOrReplacement x)) := by
  rw [utf32ToUtf8_spec k [] (decodes32 u)]
  simp [encode, List.flatMap_map, enc8]

/-- **C41.** On scalar values this is their UTF-8 encoding. -/
theorem C41_utf32_to_utf8_valid (k : Elem32Kind) (text : List Char) :
    utf32ToUtf8 k (text.map Char.val) [] = some (text.flatMap String.utf8EncodeChar) := by
  have h := utf32ToUtf8_spec k [] (decodes_encode enc32 text)
  rw [encode32] at h
  exact h

/-- **C41** (for UTF-16 output). -/
theorem C41_utf32_to_utf16 (k : Elem32Kind) (u : List UInt32) :
    utf32ToUtf16 k u [] = some (u.flatMap fun x => enc16 (scalarOrReplacement x)) := by
  rw [utf32ToUtf16_spec k [] (decodes32 u)]
  simp [encode, List.flatMap_map]

example : utf32ToUtf8 ⟨true, true⟩ [0x20AC, 0xD800, 0xFFFFFFFF] [] =
    some [0xE2, 0x82, 0xAC, 0xEF, 0xBF, 0xBD, 0xEF, 0xBF, 0xBD] := by
  rw [C41_utf32_to_utf8]; decide

/-! ## C42 -/

/-- **C42.** Decoding the standard UTF-8 encoding of any text gives its scalar values. -/
theorem C42_utf8_to_utf32_valid (text : List Char) :
    utf8ToUtf32 (text.flatMap String.utf8EncodeChar) [] = some (text.map Char.val) := by
  have h := utf8ToUtf32_spec [] (decodes_encode enc8 text)
  rw [encode32] at h
  exact h

/-- **C42** for UTF-16 input. -/
theorem C42_utf16_to_utf32_valid (text : List Char) :
    utf16ToUtf32 (encode enc16 text) [] = some (text.map Char.val) := by
  have h := utf16ToUtf32_spec [] (decodes_encode enc16 text)
  rw [encode32] at h
  exact h

example : "h€😀".toList.flatMap String.utf8EncodeChar =
    [0x68, 0xE2, 0x82, 0xAC, 0xF0, 0x9F, 0x98, 0x80] := by decide

/-! ## C43 -/

/-- **C43.** UTF-32 to UTF-16 and back is the identity on sequences of scalar values. -/
theorem C43_roundtrip_32_16 (k : Elem32Kind) (u : List UInt32) (h : WellFormed enc32 u) :
    (utf32ToUtf16 k u []).bind (utf16ToUtf32 · []) = some u := by
  obtain ⟨t, rfl⟩ := h
  rw [utf32ToUtf16_spec k [] (decodes_encode enc32 t)]
  exact utf16ToUtf32_spec [] (decodes_encode enc16 t)

/-- **C43.** UTF-8 to UTF-16 and back is the identity on well-formed UTF-8. -/
theorem C43_roundtrip_8_16 (u : List UInt8) (h : WellFormed enc8 u) :
    (utf8ToUtf16 u []).bind (utf16ToUtf8 · []) = some u := by
  obtain ⟨t, rfl⟩ := h
  rw [utf8ToUtf16_spec [] (decodes_encode enc8 t)]
  exact utf16ToUtf8_spec [] (decodes_encode enc16 t)

/-- **C43.** UTF-16 to UTF-32 and back is the identity on well-formed UTF-16. -/
theorem C43_roundtrip_16_32 (k : Elem32Kind) (u : List UInt16) (h : WellFormed enc16 u) :
    (utf16ToUtf32 u []).bind (utf32ToUtf16 k · []) = some u := by
  obtain ⟨t, rfl⟩ := h
  rw [utf16ToUtf32_spec [] (decodes_encode enc16 t)]
  exact utf32ToUtf16_spec k [] (decodes_encode enc32 t)

/-- **C43.** UTF-16 to UTF-8 and back is the identity on well-formed UTF-16. -/
theorem C43_roundtrip_16_8 (u : List UInt16) (h : WellFormed enc16 u) :
    (utf16ToUtf8 u []).bind (utf8ToUtf16 · []) = some u := by
  obtain ⟨t, rfl⟩ := h
  rw [utf16ToUtf8_spec [] (decodes_encode enc16 t)]
  exact utf8ToUtf16_spec [] (decodes_encode enc8 t)

/-- **C43.** UTF-8 to UTF-32 and back is the identity on well-formed UTF-8. -/
theorem C43_roundtrip_8_32 (k : Elem32Kind) (u : List UInt8) (h : WellFormed enc8 u) :
    (utf8ToUtf32 u []).bind (utf32ToUtf8 k · []) = some u := by
  obtain ⟨t, rfl⟩ := h
  rw [utf8ToUtf32_spec [] (decodes_encode enc8 t)]
  exact utf32ToUtf8_spec k [] (decodes_encode enc32 t)

/-- **C43.** UTF-32 to UTF-8 and back is the identity on sequences of scalar values. -/
theorem C43_roundtrip_32_8 (k : Elem32Kind) (u : List UInt32) (h : WellFormed enc32 u) :
    (utf32ToUtf8 k u []).bind (utf8ToUtf32 · []) = some u := by
  obtain ⟨t, rfl⟩ := h
  rw [utf32ToUtf8_spec k [] (decodes_encode enc32 t)]
  exact utf8ToUtf32_spec [] (decodes_encode enc8 t)

/-- Well-formed UTF-16 with a surrogate pair exists. -/
example : WellFormed enc16 [0x68, 0xD83D, 0xDE00] := ⟨"h😀".toList, by decide⟩

/-! ## C44 -/

/-- **C44.** Whatever the input, the output is well-formed. -/
theorem C44_wellformed_8_16 (u : List UInt8) : ∃ v, utf8ToUtf16 u [] = some v ∧ WellFormed enc16 v := by
  obtain ⟨t, h⟩ := decodes_total enc8_ne_nil u
  exact ⟨_, utf8ToUtf16_spec [] h, t, by simp⟩
theorem C44_wellformed_8_32 (u : List UInt8) : ∃ v, utf8ToUtf32 u [] = some v ∧ WellFormed enc32 v := by
  obtain ⟨t, h⟩ := decodes_total enc8_ne_nil u
  exact ⟨_, utf8ToUtf32_spec [] h, t, by simp⟩
theorem C44_wellformed_16_8 (u : List UInt16) : ∃ v, utf16ToUtf8 u [] = some v ∧ WellFormed enc8 v := by
  obtain ⟨t, h⟩ := decodes_total enc16_ne_nil u
  exact ⟨_, utf16ToUtf8_spec [] h, t, by simp⟩
theorem C44_wellformed_16_32 (u : List UInt16) : ∃ v, utf16ToUtf32 u [] = some v ∧ WellFormed enc32 v := by
  obtain ⟨t, h⟩ := decodes_total enc16_ne_nil u
  exact ⟨_, utf16ToUtf32_spec [] h, t, by simp⟩
theorem C44_wellformed_32_8 (k : Elem32Kind) (u : List UInt32) :
    ∃ v, utf32ToUtf8 k u [] = some v ∧ WellFormed enc8 v := by
  obtain ⟨t, h⟩ := decodes_total enc32_ne_nil u
  exact ⟨_, utf32ToUtf8_spec k [] h, t, by simp⟩
theorem C44_wellformed_32_16 (k : Elem32Kind) (u : List UInt32) :
    ∃ v, utf32ToUtf16 k u [] = some v ∧ WellFormed enc16 v := by
  obtain ⟨t, h⟩ := decodes_total enc32_ne_nil u
  exact ⟨_, utf32ToUtf16_spec k [] h, t, by simp⟩

/-- A lone surrogate is not well-formed UTF-32, so `WellFormed` excludes something. -/
example : ¬ WellFormed enc32 [0xD800] := by
  rintro ⟨t, h⟩
  rcases t with _ | ⟨c, t⟩
  · cases h
  · simp only [encode, List.flatMap_cons, enc32, List.singleton_append, List.cons.injEq] at h
    have := char_valid c
    have e : c.toNat = 0xD800 := by rw [Char.toNat, ← h.1]; rfl
    omega

/-! ## C45 -/

/-- **C45.** The path of conversion does not matter, also for ill-formed input. -/
theorem C45_path_8_16_32 (u : List UInt8) :
    (utf8ToUtf16 u []).bind (utf16ToUtf32 · []) = utf8ToUtf32 u [] := by
  obtain ⟨t, h⟩ := decodes_total enc8_ne_nil u
  rw [utf8ToUtf16_spec [] h, utf8ToUtf32_spec [] h]
  exact utf16ToUtf32_spec [] (decodes_encode enc16 t)
theorem C45_path_8_32_16 (k : Elem32Kind) (u : List UInt8) :
    (utf8ToUtf32 u []).bind (utf32ToUtf16 k · []) = utf8ToUtf16 u [] := by
  obtain ⟨t, h⟩ := decodes_total enc8_ne_nil u
  rw [utf8ToUtf16_spec [] h, utf8ToUtf32_spec [] h]
  exact utf32ToUtf16_spec k [] (decodes_encode enc32 t)
theorem C45_path_16_8_32 (u : List UInt16) :
    (utf16ToUtf8 u []).bind (utf8ToUtf32 · []) = utf16ToUtf32 u [] := by
  obtain ⟨t, h⟩ := decodes_total enc16_ne_nil u
  rw [utf16ToUtf8_spec [] h, utf16ToUtf32_spec [] h]
  exact utf8ToUtf32_spec [] (decodes_encode enc8 t)
theorem C45_path_16_32_8 (k : Elem32Kind) (u : List UInt16) :
    (utf16ToUtf32 u []).bind (utf32ToUtf8 k · []) = utf16ToUtf8 u [] := by
  obtain ⟨t, h⟩ := decodes_total enc16_ne_nil u
  rw [utf16ToUtf8_spec [] h, utf16ToUtf32_spec [] h]
  exact utf32ToUtf8_spec k [] (decodes_encode enc32 t)
theorem C45_path_32_8_16 (k : Elem32Kind) (u : List UInt32) :
    (utf32ToUtf8 k u []).bind (utf8ToUtf16 · []) = utf32ToUtf16 k u [] := by
  obtain ⟨t, h⟩ := decodes_total enc32_ne_nil u
  rw [utf32ToUtf8_spec k [] h, utf32ToUtf16_spec k [] h]
  exact utf8ToUtf16_spec [] (decodes_encode enc8 t)
theorem C45_path_32_16_8 (k : Elem32Kind) (u : List UInt32) :
    (utf32ToUtf16 k u []).bind (utf16ToUtf8 · []) = utf32ToUtf8 k u [] := by
  obtain ⟨t, h⟩ := decodes_total enc32_ne_nil u
  rw [utf32ToUtf8_spec k [] h, utf32ToUtf16_spec k [] h]
  exact utf16ToUtf8_spec [] (decodes_encode enc16 t)

/-- The statement is not about well-formed input only: a truncated sequence. -/
example : utf8ToUtf16 [0xE2, 0x82] [] = some [0xFFFD, 0xFFFD] := by
  rw [utf8ToUtf16_spec (t := [replacement, replacement]) []]
  · decide
  · refine .invalid _ _ _ (fun c h => ?_) (.invalid _ _ _ (fun c h => ?_) .nil)
    · rcases enc8_inv h with h | h | ⟨_, _, b, d, t', he, _⟩ | ⟨h, _⟩
      · exact absurd h (by decide)
      · exact absurd h.2.1 (by decide)
      · simp at he
      · exact absurd h (by decide)
    · rcases enc8_inv h with h | h | h | h
      · exact absurd h (by decide)
      · exact absurd h.1 (by decide)
      · exact absurd h.1 (by decide)
      · exact absurd h.1 (by decide)

/-! ## C46 -/

/-- **C46.** No converter ever reads outside its input (an outside read is `none` in the model), and the content
already in the output string is kept. -/
theorem C46_no_overread_8_16 (u : List UInt8) (out : List UInt16) :
    ∃ v, utf8ToUtf16 u out = some (out ++ v) ∧ utf8ToUtf16 u [] = some v := by
  obtain ⟨t, h⟩ := decodes_total enc8_ne_nil u
  exact ⟨_, utf8ToUtf16_spec out h, utf8ToUtf16_spec [] h⟩
theorem C46_no_overread_8_32 (u : List UInt8) (out : List UInt32) :
    ∃ v, utf8ToUtf32 u out = some (out ++ v) ∧ utf8ToUtf32 u [] = some v := by
  obtain ⟨t, h⟩ := decodes_total enc8_ne_nil u
  exact ⟨_, utf8ToUtf32_spec out h, utf8ToUtf32_spec [] h⟩
theorem C46_no_overread_16_8 (u : List UInt16) (out : List UInt8) :
    ∃ v, utf16ToUtf8 u out = some (out ++ v) ∧ utf16ToUtf8 u [] = some v := by
  obtain ⟨t, h⟩ := decodes_total enc16_ne_nil u
  exact ⟨_, utf16ToUtf8_spec out h, utf16ToUtf8_spec [] h⟩
theorem C46_no_overread_16_32 (u : List UInt16) (out : List UInt32) :
    ∃ v, utf16ToUtf32 u out = some (out ++ v) ∧ utf16ToUtf32 u [] = some v := by
  obtain ⟨t, h⟩ := decodes_total enc16_ne_nil u
  exact ⟨_, utf16ToUtf32_spec out h, utf16ToUtf32_spec [] h⟩
theorem C46_no_overread_32_8 (k : Elem32Kind) (u : List UInt32) (out : List UInt8) :
    ∃ v, utf32ToUtf8 k u out = some (out ++ v) ∧ utf32ToUtf8 k u [] = some v := by
  obtain ⟨t, h⟩ := decodes_total enc32_ne_nil u
  exact ⟨_, utf32ToUtf8_spec k out h, utf32ToUtf8_spec k [] h⟩
theorem C46_no_overread_32_16 (k : Elem32Kind) (u : List UInt32) (out : List UInt16) :
    ∃ v, utf32ToUtf16 k u out = some (out ++ v) ∧ utf32ToUtf16 k u [] = some v := by
  obtain ⟨t, h⟩ := decodes_total enc32_ne_nil u
  exact ⟨_, utf32ToUtf16_spec k out h, utf32ToUtf16_spec k [] h⟩

/-! ## C47 -/

/-- The ASCII units of a unit sequence, in order, as numbers. -/
def ascii (toNat : α → Nat) (u : List α) : List Nat := (u.map toNat).filter (· < 0x80)

theorem ascii_append (toNat : α → Nat) (u v : List α) : ascii toNat (u ++ v) = ascii toNat u ++ ascii toNat v := by
  simp [ascii]

theorem ascii_enc8 (c : Char) : ascii UInt8.toNat (enc8 c) = if c.toNat < 0x80 then [c.toNat] else [] := by
  have hv := char_valid c
  rw [enc8_eq]
  split
  · simp only [ascii, List.map_cons, List.map_nil, UInt8.toNat_ofNat']
    rw [Nat.mod_eq_of_lt (by omega)]; simp [*]
  · split
    · simp only [ascii, List.map_cons, List.map_nil, UInt8.toNat_ofNat', Nat.reducePow]
      rw [List.filter_eq_nil_iff]; simp only [List.mem_cons, List.not_mem_nil, or_false, decide_eq_true_eq]
      omega
    · split
      · simp only [ascii, List.map_cons, List.map_nil, UInt8.toNat_ofNat', Nat.reducePow]
        rw [List.filter_eq_nil_iff]; simp only [List.mem_cons, List.not_mem_nil, or_false, decide_eq_true_eq]
        omega
      · simp only [ascii, List.map_cons, List.map_nil, UInt8.toNat_ofNat', Nat.reducePow]
        rw [List.filter_eq_nil_iff]; simp only [List.mem_cons, List.not_mem_nil, or_false, decide_eq_true_eq]
        omega

theorem ascii_enc16 (c : Char) : ascii UInt16.toNat (enc16 c) = if c.toNat < 0x80 then [c.toNat] else [] := by
  have hv := char_valid c
  rw [enc16]
  split
  · simp only [ascii, List.map_cons, List.map_nil, UInt16.toNat_ofNat']
    rw [Nat.mod_eq_of_lt (by omega)]
    split <;> simp [*]
  · rw [if_neg (by omega)]
    simp only [ascii, List.map_cons, List.map_nil, UInt16.toNat_ofNat', Nat.reducePow]
    rw [List.filter_eq_nil_iff]; simp only [List.mem_cons, List.not_mem_nil, or_false, decide_eq_true_eq]
    omega

theorem ascii_enc32 (c : Char) : ascii UInt32.toNat (enc32 c) = if c.toNat < 0x80 then [c.toNat] else [] := by
  have e : c.val.toNat = c.toNat := rfl
  simp only [ascii, enc32, List.map_cons, List.map_nil, e]
  split <;> simp [*]

theorem ascii_decodes {enc : Char → List α} {enc' : Char → List β} {toNat : α → Nat} {toNat' : β → Nat}
    (he : ∀ c, ascii toNat (enc c) = if c.toNat < 0x80 then [c.toNat] else [])
    (he' : ∀ c, ascii toNat' (enc' c) = if c.toNat < 0x80 then [c.toNat] else [])
    (hone : ∀ a : α, toNat a < 0x80 → ∃ c, enc c = [a])
    {u : List α} {t : List Char} (h : Decodes enc u t) : ascii toNat' (encode enc' t) = ascii toNat u := by
  induction h with
  | nil => rfl
  | valid c r t _ ih =>
    simp only [encode, List.flatMap_cons] at ih ⊢
    rw [ascii_append, ascii_append, ih, he, he']
  | invalid a r t hn _ ih =>
    simp only [encode, List.flatMap_cons] at ih ⊢
    rw [ascii_append, ih, he']
    have : ¬ toNat a < 0x80 := by
      intro h
      obtain ⟨c, hc⟩ := hone a h
      exact hn c (by rw [hc]; exact ⟨r, rfl⟩)
    have e : ¬ replacement.toNat < 0x80 := by decide
    rw [if_neg e]
    simp [ascii, this]

theorem one8 (a : UInt8) (h : a.toNat < 0x80) : ∃ c, enc8 c = [a] := ⟨_, enc8_one h⟩
theorem one16 (a : UInt16) (h : a.toNat < 0x80) : ∃ c, enc16 c = [a] := ⟨_, enc16_one (by omega)⟩
theorem one32 (a : UInt32) (h : a.toNat < 0x80) : ∃ c, enc32 c = [a] := ⟨_, enc32_one (by omega)⟩

/-- **C47.** The ASCII units of the output are exactly those of the input, in order, for arbitrary input. -/
theorem C47_ascii_8_16 (u : List UInt8) (v : List UInt16) (h : utf8ToUtf16 u [] = some v) :
    ascii UInt16.toNat v = ascii UInt8.toNat u := by
  obtain ⟨t, ht⟩ := decodes_total enc8_ne_nil u
  rw [utf8ToUtf16_spec [] ht] at h; cases h
  exact ascii_decodes ascii_enc8 ascii_enc16 one8 ht
theorem C47_ascii_8_32 (u : List UInt8) (v : List UInt32) (h : utf8ToUtf32 u [] = some v) :
    ascii UInt32.toNat v = ascii UInt8.toNat u := by
  obtain ⟨t, ht⟩ := decodes_total enc8_ne_nil u
  rw [utf8ToUtf32_spec [] ht] at h; cases h
  exact ascii_decodes ascii_enc8 ascii_enc32 one8 ht
theorem C47_ascii_16_8 (u : List UInt16) (v : List UInt8) (h : utf16ToUtf8 u [] = some v) :
    ascii UInt8.toNat v = ascii UInt16.toNat u := by
  obtain ⟨t, ht⟩ := decodes_total enc16_ne_nil u
  rw [utf16ToUtf8_spec [] ht] at h; cases h
  exact ascii_decodes ascii_enc16 ascii_enc8 one16 ht
theorem C47_ascii_16_32 (u : List UInt16) (v : List UInt32) (h : utf16ToUtf32 u [] = some v) :
    ascii UInt32.toNat v = ascii UInt16.toNat u := by
  obtain ⟨t, ht⟩ := decodes_total enc16_ne_nil u
  rw [utf16ToUtf32_spec [] ht] at h; cases h
  exact ascii_decodes ascii_enc16 ascii_enc32 one16 ht
theorem C47_ascii_32_8 (k : Elem32Kind) (u : List UInt32) (v : List UInt8) (h : utf32ToUtf8 k u [] = some v) :
    ascii UInt8.toNat v = ascii UInt32.toNat u := by
  obtain ⟨t, ht⟩ := decodes_total enc32_ne_nil u
  rw [utf32ToUtf8_spec k [] ht] at h; cases h
  exact ascii_decodes ascii_enc32 ascii_enc8 one32 ht
theorem C47_ascii_32_16 (k : Elem32Kind) (u : List UInt32) (v : List UInt16) (h : utf32ToUtf16 k u [] = some v) :
    ascii UInt16.toNat v = ascii UInt32.toNat u := by
  obtain ⟨t, ht⟩ := decodes_total enc32_ne_nil u
  rw [utf32ToUtf16_spec k [] ht] at h; cases h
  exact ascii_decodes ascii_enc32 ascii_enc16 one32 ht

/-- **C47.** Pure ASCII text is converted unit by unit unchanged (here UTF-8 to UTF-32; the other converters follow
with C45). -/
theorem C47_ascii_text_8_32 (u : List UInt8) (h : ∀ b ∈ u, b.toNat < 0x80) :
    utf8ToUtf32 u [] = some (u.map fun b => UInt32.ofNat b.toNat) := by
  have hd : Decodes enc8 u (u.map fun b => Char.ofNat b.toNat) := by
    induction u with
    | nil => exact .nil
    | cons a t ih =>
      have := Decodes.valid (enc := enc8) (Char.ofNat a.toNat) t _ (ih fun b hb => h b (List.mem_cons_of_mem _ hb))
      rw [enc8_one (h a List.mem_cons_self)] at this
      exact this
  rw [utf8ToUtf32_spec [] hd]
  congr 1
  simp only [List.nil_append, encode, List.flatMap_map]
  clear hd
  induction u with
  | nil => rfl
  | cons a t ih =>
    rw [List.flatMap_cons, List.map_cons, ih fun b hb => h b (List.mem_cons_of_mem _ hb)]
    have := h a List.mem_cons_self
    rw [enc32_ofNat (by omega)]; rfl

/-! ## C48 -/

/-- The encoding used by each string type. -/
def encOf (p : Platform) : (s : StrKind) → Char → List (Unit' p s)
  | .narrow => enc8
  | .u8 => enc8
  | .u16 => enc16
  | .u32 => enc32
  | .wide => match p with
    | .wchar16 => enc16
    | .wchar32 _ => enc32

/-- **C48.** On every platform, every conversion between string types turns the encoding of a text in the source type
into the encoding of the same text in the target type. -/
theorem C48_conv (ul : Bool) (p : Platform) (src dst : StrKind) (text : List Char) :
    conv ul p src dst (encode (encOf p src) text) = some (encode (encOf p dst) text) := by
  cases p <;> cases src <;> cases dst <;>
    first
    | rfl
    | exact utf8ToUtf16_spec [] (decodes_encode enc8 text)
    | exact utf8ToUtf32_spec [] (decodes_encode enc8 text)
    | exact utf16ToUtf8_spec [] (decodes_encode enc16 text)
    | exact utf16ToUtf32_spec [] (decodes_encode enc16 text)
    | exact utf32ToUtf8_spec _ [] (decodes_encode enc32 text)
    | exact utf32ToUtf16_spec _ [] (decodes_encode enc32 text)

/-- **C48.** Hence every round trip is the identity on well-formed strings; in particular `str(wstr(s)) == s`. -/
theorem C48_roundtrip (ul : Bool) (p : Platform) (a b : StrKind) (s : List (Unit' p a))
    (h : WellFormed (encOf p a) s) : (conv ul p a b s).bind (conv ul p b a) = some s := by
  obtain ⟨t, rfl⟩ := h
  rw [C48_conv]
  exact C48_conv ul p b a t

/-- **C48** for arbitrary `std::string` input: the wide strings of two platforms denote the same text. -/
theorem C48_wstr_same_text (ul : Bool) (p q : Platform) (s : List UInt8) :
    ∃ text, conv ul p .narrow .wide s = some (encode (encOf p .wide) text) ∧
      conv ul q .narrow .wide s = some (encode (encOf q .wide) text) := by
  obtain ⟨t, h⟩ := decodes_total enc8_ne_nil s
  refine ⟨t, ?_, ?_⟩
  · cases p
    · exact utf8ToUtf16_spec [] h
    · exact utf8ToUtf32_spec [] h
  · cases q
    · exact utf8ToUtf16_spec [] h
    · exact utf8ToUtf32_spec [] h

/-- Limit of **C48** (a finding): for ill-formed input the copying overloads do not validate, so `wstr(u32string)`
passes a lone surrogate through with a 32-bit `wchar_t` and replaces it with a 16-bit `wchar_t`. -/
theorem C48_illformed_differs (ul : Bool) (k : Elem32Kind) :
    conv ul (.wchar32 k) .u32 .wide [0xD800] = some [0xD800] ∧
    conv ul .wchar16 .u32 .wide [0xD800] = some [0xFFFD] := by
  refine ⟨rfl, ?_⟩
  show utf32ToUtf16 (char32Kind ul) [0xD800] [] = _
  rw [C41_utf32_to_utf16]
  decide

/-! ## C49 -/

/-- **C49.** If the input starts with the encoding of a scalar value, exactly this value is produced and decoding goes on
behind it. -/
theorem C49_valid_step (c : Char) (rest : List UInt8) (v : List UInt32) (h : utf8ToUtf32 rest [] = some v) :
    utf8ToUtf32 (String.utf8EncodeChar c ++ rest) [] = some (c.val :: v) := by
  obtain ⟨t, ht⟩ := decodes_total enc8_ne_nil rest
  rw [utf8ToUtf32_spec [] ht] at h; cases h
  exact utf8ToUtf32_spec [] (Decodes.valid (enc := enc8) c rest t ht)

/-- **C49.** If the input does not start with the encoding of any scalar value, its first byte yields exactly one U+FFFD
and decoding goes on at the next byte. -/
theorem C49_invalid_step (b : UInt8) (rest : List UInt8) (v : List UInt32)
    (hbad : ∀ c : Char, ¬ String.utf8EncodeChar c <+: b :: rest) (h : utf8ToUtf32 rest [] = some v) :
    utf8ToUtf32 (b :: rest) [] = some (0xFFFD :: v) := by
  obtain ⟨t, ht⟩ := decodes_total enc8_ne_nil rest
  rw [utf8ToUtf32_spec [] ht] at h; cases h
  exact utf8ToUtf32_spec [] (Decodes.invalid (enc := enc8) b rest t hbad ht)

/-- **C49.** In one statement: decoding with replacement has exactly one result for every byte sequence, and this is what
`utf8_to_utf32` and `utf8_to_utf16` compute. -/
theorem C49_decodes (u : List UInt8) :
    ∃ text, Decodes enc8 u text ∧ (∀ text', Decodes enc8 u text' → text' = text) ∧
      utf8ToUtf32 u [] = some (encode enc32 text) ∧ utf8ToUtf16 u [] = some (encode enc16 text) := by
  obtain ⟨t, h⟩ := decodes_total enc8_ne_nil u
  exact ⟨t, h, fun t' h' => decodes_unique enc8_ne_nil prefixFree8 h' h, utf8ToUtf32_spec [] h, utf8ToUtf16_spec [] h⟩

/-- **C49** for UTF-16 input: unpaired surrogates are replaced one by one. -/
theorem C49_decodes16 (u : List UInt16) :
    ∃ text, Decodes enc16 u text ∧ (∀ text', Decodes enc16 u text' → text' = text) ∧
      utf16ToUtf32 u [] = some (encode enc32 text) ∧ utf16ToUtf8 u [] = some (encode enc8 text) := by
  obtain ⟨t, h⟩ := decodes_total enc16_ne_nil u
  exact ⟨t, h, fun t' h' => decodes_unique enc16_ne_nil prefixFree16 h' h, utf16ToUtf32_spec [] h,
    utf16ToUtf8_spec [] h⟩

/-- Overlong forms (C0, C1, E0 80.., F0 80..), encoded surrogates (ED A0..) and values above U+10FFFF (F4 90.., F5..)
meet the hypothesis of `C49_invalid_step`. -/
theorem C49_rejected (b b2 : UInt8) (rest : List UInt8)
    (h : (0x80 ≤ b.toNat ∧ b.toNat < 0xC2) ∨ 0xF5 ≤ b.toNat ∨ (b.toNat = 0xE0 ∧ b2.toNat < 0xA0) ∨
      (b.toNat = 0xED ∧ 0xA0 ≤ b2.toNat) ∨ (b.toNat = 0xF0 ∧ b2.toNat < 0x90) ∨ (b.toNat = 0xF4 ∧ 0x90 ≤ b2.toNat)) (c : Char) :
    ¬ String.utf8EncodeChar c <+: b :: b2 :: rest := by
  intro hc
  rcases enc8_inv hc with h' | ⟨_, _, x, t', he, _, _⟩ | ⟨_, _, x, d, t', he, _, _, _, _, _⟩ |
    ⟨_, _, x, d, e, t', he, _, _, _, _, _, _, _, _⟩
  · omega
  · omega
  · cases he; omega
  · cases he; omega

example : utf8ToUtf32 [0xC0, 0x80, 0x41] [] = some [0xFFFD, 0xFFFD, 0x41] := by
  refine C49_invalid_step _ _ _ (C49_rejected _ _ _ (by decide)) ?_
  refine C49_invalid_step _ _ _ (C49_rejected _ _ _ (by decide)) ?_
  exact C47_ascii_text_8_32 [0x41] (by decide)

/-! ## C50 -/

/-- **C50.** Converting `x ++ y` gives the conversion of `x` followed by that of `y`, if `x` is well-formed. -/
theorem C50_append_8_16 (x y : List UInt8) (hx : WellFormed enc8 x) (v w : List UInt16)
    (hv : utf8ToUtf16 x [] = some v) (hw : utf8ToUtf16 y [] = some w) : utf8ToUtf16 (x ++ y) [] = some (v ++ w) := by
  obtain ⟨s, rfl⟩ := hx
  obtain ⟨t, ht⟩ := decodes_total enc8_ne_nil y
  rw [utf8ToUtf16_spec [] (decodes_encode enc8 s)] at hv
  rw [utf8ToUtf16_spec [] ht] at hw
  cases hv; cases hw
  rw [utf8ToUtf16_spec [] (decodes_encode_append enc8 s ht)]
  simp [encode]
theorem C50_append_8_32 (x y : List UInt8) (hx : WellFormed enc8 x) (v w : List UInt32)
    (hv : utf8ToUtf32 x [] = some v) (hw : utf8ToUtf32 y [] = some w) : utf8ToUtf32 (x ++ y) [] = some (v ++ w) := by
  obtain ⟨s, rfl⟩ := hx
  obtain ⟨t, ht⟩ := decodes_total enc8_ne_nil y
  rw [utf8ToUtf32_spec [] (decodes_encode enc8 s)] at hv
  rw [utf8ToUtf32_spec [] ht] at hw
  cases hv; cases hw
  rw [utf8ToUtf32_spec [] (decodes_encode_append enc8 s ht)]
  simp [encode]
theorem C50_append_16_8 (x y : List UInt16) (hx : WellFormed enc16 x) (v w : List UInt8)
    (hv : utf16ToUtf8 x [] = some v) (hw : utf16ToUtf8 y [] = some w) : utf16ToUtf8 (x ++ y) [] = some (v ++ w) := by
  obtain ⟨s, rfl⟩ := hx
  obtain ⟨t, ht⟩ := decodes_total enc16_ne_nil y
  rw [utf16ToUtf8_spec [] (decodes_encode enc16 s)] at hv
  rw [utf16ToUtf8_spec [] ht] at hw
  cases hv; cases hw
  rw [utf16ToUtf8_spec [] (decodes_encode_append enc16 s ht)]
  simp [encode]
theorem C50_append_16_32 (x y : List UInt16) (hx : WellFormed enc16 x) (v w : List UInt32)
    (hv : utf16ToUtf32 x [] = some v) (hw : utf16ToUtf32 y [] = some w) :
    utf16ToUtf32 (x ++ y) [] = some (v ++ w) := by
  obtain ⟨s, rfl⟩ := hx
  obtain ⟨t, ht⟩ := decodes_total enc16_ne_nil y
  rw [utf16ToUtf32_spec [] (decodes_encode enc16 s)] at hv
  rw [utf16ToUtf32_spec [] ht] at hw
  cases hv; cases hw
  rw [utf16ToUtf32_spec [] (decodes_encode_append enc16 s ht)]
  simp [encode]
/-- For UTF-32 input no hypothesis is needed. -/
theorem C50_append_32_8 (k : Elem32Kind) (x y : List UInt32) (v w : List UInt8)
    (hv : utf32ToUtf8 k x [] = some v) (hw : utf32ToUtf8 k y [] = some w) :
    utf32ToUtf8 k (x ++ y) [] = some (v ++ w) := by
  rw [C41_utf32_to_utf8] at *
  cases hv; cases hw; simp
theorem C50_append_32_16 (k : Elem32Kind) (x y : List UInt32) (v w : List UInt16)
    (hv : utf32ToUtf16 k x [] = some v) (hw : utf32ToUtf16 k y [] = some w) :
    utf32ToUtf16 k (x ++ y) [] = some (v ++ w) := by
  rw [C41_utf32_to_utf16] at *
  cases hv; cases hw; simp

/-- The hypothesis on `x` is needed: cutting a sequence in two changes the result. -/
theorem C50_needs_wellformed : utf8ToUtf32 ([0xC3] ++ [0xA9]) [] = some [0xE9] ∧
    utf8ToUtf32 [0xC3] [] = some [0xFFFD] ∧ utf8ToUtf32 [0xA9] [] = some [0xFFFD] := by
  refine ⟨C42_utf8_to_utf32_valid ['é'], ?_, ?_⟩
  · refine C49_invalid_step 0xC3 [] [] (fun c h => ?_) (C42_utf8_to_utf32_valid [])
    rcases enc8_inv h with h | ⟨_, _, x, t', he, _, _⟩ | ⟨h, _⟩ | ⟨h, _⟩
    · exact absurd h (by decide)
    · cases he
    · exact absurd h (by decide)
    · exact absurd h (by decide)
  · refine C49_invalid_step 0xA9 [] [] (fun c h => ?_) (C42_utf8_to_utf32_valid [])
    rcases enc8_inv h with h | ⟨h, _⟩ | ⟨h, _⟩ | ⟨h, _⟩ <;> exact absurd h (by decide)

end Pluto.Props
