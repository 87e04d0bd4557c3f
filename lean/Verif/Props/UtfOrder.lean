import Verif.Props.Unicode
import Verif.Proofs.UtfOrder

/-! # C155: conversions and the order of strings -/

namespace Pluto.Props
open Spec Unicode UtfProofs

/-- C155. Conversions between UTF-8 and UTF-32 keep the order of valid strings. -/
theorem C155_8_32 (u u' : List UInt8) (h : WellFormed enc8 u) (h' : WellFormed enc8 u') :
    ∃ v v', utf8ToUtf32 u [] = some v ∧ utf8ToUtf32 u' [] = some v' ∧
      (Below UInt32.toNat v v' ↔ Below UInt8.toNat u u') := by
  obtain ⟨s, rfl⟩ := h
  obtain ⟨t, rfl⟩ := h'
  refine ⟨_, _, utf8ToUtf32_spec [] (decodes_encode enc8 s), utf8ToUtf32_spec [] (decodes_encode enc8 t), ?_⟩
  rw [List.nil_append, List.nil_append,
    below_encode_iff enc32_ne_nil s t (fun _ _ _ _ => ordered32) (fun _ _ _ _ => ordered32),
    below_encode_iff enc8_ne_nil s t (fun _ _ _ _ => ordered8) (fun _ _ _ _ => ordered8)]

/-- C155. The other way round. -/
theorem C155_32_8 (k : Elem32Kind) (u u' : List UInt32) (h : WellFormed enc32 u) (h' : WellFormed enc32 u') :
    ∃ v v', utf32ToUtf8 k u [] = some v ∧ utf32ToUtf8 k u' [] = some v' ∧
      (Below UInt8.toNat v v' ↔ Below UInt32.toNat u u') := by
  obtain ⟨s, rfl⟩ := h
  obtain ⟨t, rfl⟩ := h'
  refine ⟨_, _, utf32ToUtf8_spec k [] (decodes_encode enc32 s), utf32ToUtf8_spec k [] (decodes_encode enc32 t), ?_⟩
  rw [List.nil_append, List.nil_append,
    below_encode_iff enc32_ne_nil s t (fun _ _ _ _ => ordered32) (fun _ _ _ _ => ordered32),
    below_encode_iff enc8_ne_nil s t (fun _ _ _ _ => ordered8) (fun _ _ _ _ => ordered8)]

/-- C155. All units of valid UTF-32 are below 2^31, so their order does not depend on the sign of `wchar_t`. -/
theorem C155_wchar (u : List UInt32) (h : WellFormed enc32 u) : ∀ x ∈ u, signed32 x = x.toNat := by
  obtain ⟨s, rfl⟩ := h
  intro x hx
  obtain ⟨c, -, hx⟩ := mem_encode.1 hx
  simp only [enc32, List.mem_singleton] at hx
  subst hx
  have := char_valid c
  have e : c.val.toNat = c.toNat := rfl
  unfold signed32
  rw [if_pos (by omega)]

/-- C155. A conversion from UTF-8 to UTF-16 keeps the order of valid strings if the texts have no characters from U+E000 to
U+FFFF, or none above. Missing: texts with both, see `C155_fails_16`. -/
theorem C155_8_16_partial (s t : List Char) (h : (∀ c ∈ s ++ t, ¬ High c) ∨ ∀ c ∈ s ++ t, ¬ Pair c) :
    ∃ v v', utf8ToUtf16 (encode enc8 s) [] = some v ∧ utf8ToUtf16 (encode enc8 t) [] = some v' ∧
      (Below UInt16.toNat v v' ↔ Below UInt8.toNat (encode enc8 s) (encode enc8 t)) := by
  refine ⟨_, _, utf8ToUtf16_spec [] (decodes_encode enc8 s), utf8ToUtf16_spec [] (decodes_encode enc8 t), ?_⟩
  have ho : ∀ c ∈ s ++ t, ∀ d ∈ s ++ t, c.toNat < d.toNat → Ordered UInt16.toNat enc16 c d := by
    intro c hc d hd hlt
    refine ordered16 hlt fun hp => ?_
    rcases h with h | h
    · exact h c hc hp.1
    · exact h d hd hp.2
  rw [List.nil_append, List.nil_append, below_encode_iff enc16_ne_nil s t
      (fun c hc d hd => ho c (by simp [hc]) d (by simp [hd])) (fun c hc d hd => ho c (by simp [hc]) d (by simp [hd])),
    below_encode_iff enc8_ne_nil s t (fun _ _ _ _ => ordered8) (fun _ _ _ _ => ordered8)]

/-- C155. The other way round. -/
theorem C155_16_8_partial (s t : List Char) (h : (∀ c ∈ s ++ t, ¬ High c) ∨ ∀ c ∈ s ++ t, ¬ Pair c) :
    ∃ v v', utf16ToUtf8 (encode enc16 s) [] = some v ∧ utf16ToUtf8 (encode enc16 t) [] = some v' ∧
      (Below UInt8.toNat v v' ↔ Below UInt16.toNat (encode enc16 s) (encode enc16 t)) := by
  obtain ⟨v, v', h1, h2, h3⟩ := C155_8_16_partial s t h
  rw [utf8ToUtf16_spec [] (decodes_encode enc8 s)] at h1
  rw [utf8ToUtf16_spec [] (decodes_encode enc8 t)] at h2
  cases h1
  cases h2
  exact ⟨_, _, utf16ToUtf8_spec [] (decodes_encode enc16 s), utf16ToUtf8_spec [] (decodes_encode enc16 t), h3.symm⟩

/-- C155. Between UTF-32 and UTF-16, under the same condition. -/
theorem C155_32_16_partial (k : Elem32Kind) (s t : List Char)
    (h : (∀ c ∈ s ++ t, ¬ High c) ∨ ∀ c ∈ s ++ t, ¬ Pair c) :
    (∃ v v', utf32ToUtf16 k (encode enc32 s) [] = some v ∧ utf32ToUtf16 k (encode enc32 t) [] = some v' ∧
      (Below UInt16.toNat v v' ↔ Below UInt32.toNat (encode enc32 s) (encode enc32 t))) ∧
    ∃ v v', utf16ToUtf32 (encode enc16 s) [] = some v ∧ utf16ToUtf32 (encode enc16 t) [] = some v' ∧
      (Below UInt32.toNat v v' ↔ Below UInt16.toNat (encode enc16 s) (encode enc16 t)) := by
  have key : Below UInt16.toNat (encode enc16 s) (encode enc16 t) ↔ Below UInt32.toNat (encode enc32 s) (encode enc32 t) := by
    obtain ⟨v, v', h1, h2, h3⟩ := C155_16_8_partial s t h
    obtain ⟨w, w', h4, h5, h6⟩ := C155_32_8 k _ _ ⟨s, rfl⟩ ⟨t, rfl⟩
    rw [utf16ToUtf8_spec [] (decodes_encode enc16 s)] at h1
    rw [utf16ToUtf8_spec [] (decodes_encode enc16 t)] at h2
    rw [utf32ToUtf8_spec k [] (decodes_encode enc32 s)] at h4
    rw [utf32ToUtf8_spec k [] (decodes_encode enc32 t)] at h5
    cases h1
    cases h2
    cases h4
    cases h5
    exact h3.symm.trans h6
  exact ⟨⟨_, _, utf32ToUtf16_spec k [] (decodes_encode enc32 s), utf32ToUtf16_spec k [] (decodes_encode enc32 t), key⟩,
    _, _, utf16ToUtf32_spec [] (decodes_encode enc16 s), utf16ToUtf32_spec [] (decodes_encode enc16 t), key.symm⟩

/-- C155 fails whenever the first characters that differ are one from U+E000 to U+FFFF and one above: the order in UTF-16 is
the opposite of that in UTF-8 and UTF-32. -/
theorem C155_fails_16 (p s t : List Char) (c d : Char) (hc : High c) (hd : Pair d) :
    ∃ v v', utf8ToUtf16 (encode enc8 (p ++ c :: s)) [] = some v ∧ utf8ToUtf16 (encode enc8 (p ++ d :: t)) [] = some v' ∧
      Below UInt8.toNat (encode enc8 (p ++ c :: s)) (encode enc8 (p ++ d :: t)) ∧ Below UInt16.toNat v' v := by
  refine ⟨_, _, utf8ToUtf16_spec [] (decodes_encode enc8 _), utf8ToUtf16_spec [] (decodes_encode enc8 _), ?_, ?_⟩
  · rw [encode_append, encode_append]
    have : c.toNat < d.toNat := by unfold High at hc; unfold Pair at hd; omega
    exact below_append _ (ordered8 this _ _)
  · rw [List.nil_append, List.nil_append, encode_append, encode_append]
    exact below_append _ (reversed16 hc hd _ _)

/-- C155, exactly: a conversion between UTF-8 and UTF-16 keeps the order of two valid strings unless the first characters in
which they differ are one from U+E000 to U+FFFF and one above. -/
theorem C155_8_16_exact_partial (s t : List Char) :
    ∃ v v', utf8ToUtf16 (encode enc8 s) [] = some v ∧ utf8ToUtf16 (encode enc8 t) [] = some v' ∧
      ((Below UInt16.toNat v v' ↔ Below UInt8.toNat (encode enc8 s) (encode enc8 t)) ↔ ¬ Mixed s t) := by
  refine ⟨_, _, utf8ToUtf16_spec [] (decodes_encode enc8 s), utf8ToUtf16_spec [] (decodes_encode enc8 t), ?_⟩
  rw [List.nil_append, List.nil_append]
  constructor
  · rintro h ⟨p, c, d, s', t', rfl, rfl, ⟨hc, hd⟩ | ⟨hc, hd⟩⟩
    · have hlt : c.toNat < d.toNat := by unfold High at hc; unfold Pair at hd; omega
      have h8 : Below UInt8.toNat (encode enc8 (p ++ c :: s')) (encode enc8 (p ++ d :: t')) := by
        rw [encode_append, encode_append]
        exact below_append _ (ordered8 hlt _ _)
      refine below_asymm (h.2 h8) ?_
      rw [encode_append, encode_append]
      exact below_append _ (reversed16 hc hd _ _)
    · have hlt : d.toNat < c.toNat := by unfold High at hd; unfold Pair at hc; omega
      have h16 : Below UInt16.toNat (encode enc16 (p ++ c :: s')) (encode enc16 (p ++ d :: t')) := by
        rw [encode_append, encode_append]
        exact below_append _ (reversed16 hd hc _ _)
      refine below_asymm (h.1 h16) ?_
      rw [encode_append, encode_append]
      exact below_append _ (ordered8 hlt _ _)
  · intro hm
    rw [below_encode_iff enc8_ne_nil s t (fun _ _ _ _ => ordered8) (fun _ _ _ _ => ordered8)]
    refine ⟨fun h => ?_, fun h => below16_of h hm⟩
    rcases below_total (fun _ _ => char_ext_toNat) s t with h' | rfl | h'
    · exact h'
    · exact absurd h (below_irrefl _)
    · exact absurd (below16_of h' fun hx => hm (mixed_symm hx)) (below_asymm h)

/-- C155. Valid strings are needed: invalid bytes are replaced by U+FFFD, so strings that differ become equal, and one that
comes last comes first. -/
theorem C155_fails_invalid :
    (utf8ToUtf32 [0xFE] [] = some [0xFFFD] ∧ utf8ToUtf32 [0xFF] [] = some [0xFFFD]) ∧
    (utf8ToUtf32 [0xF0, 0x9F, 0x98, 0x80] [] = some [0x1F600] ∧
      Below UInt8.toNat [0xF0, 0x9F, 0x98, 0x80] [0xFF] ∧ Below UInt32.toNat [0xFFFD] [0x1F600]) := by
  have bad : ∀ b : UInt8, 0xF8 ≤ b.toNat → utf8ToUtf32 [b] [] = some [0xFFFD] := by
    intro b hb
    refine C49_invalid_step b [] [] (fun c h => ?_) (C42_utf8_to_utf32_valid [])
    rcases enc8_inv h with h | ⟨_, h, _⟩ | ⟨_, h, _⟩ | ⟨_, h, _⟩ <;> omega
  exact ⟨⟨bad _ (by decide), bad _ (by decide)⟩, C42_utf8_to_utf32_valid ['😀'], .head _ _ _ _ (by decide),
    .head _ _ _ _ (by decide)⟩

/-! ## Cases -/

example : WellFormed enc8 [0x68, 0xC3, 0xA9] ∧ WellFormed enc8 [0x68, 0xE2, 0x82, 0xAC] ∧
    Below UInt8.toNat [0x68, 0xC3, 0xA9] [0x68, 0xE2, 0x82, 0xAC] ∧ Below UInt32.toNat [0x68, 0xE9] [0x68, 0x20AC] :=
  ⟨⟨"hé".toList, by decide⟩, ⟨"h€".toList, by decide⟩, .tail _ _ _ (.head _ _ _ _ (by decide)),
    .tail _ _ _ (.head _ _ _ _ (by decide))⟩

/-- Texts without characters from U+E000 to U+FFFF, one with a pair. -/
example : ∀ c ∈ "h€".toList ++ "h😀".toList, ¬ High c := by unfold High; decide

/-- U+FB01 (a ligature) and U+1F600. -/
example : High (Char.ofNat 0xFB01) ∧ Pair (Char.ofNat 0x1F600) := by unfold High Pair; decide

end Pluto.Props
