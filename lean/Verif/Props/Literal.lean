import Verif.Model.Literal
import Verif.Props.Seq
import Verif.Props.Unicode

/-!
# Properties of calls with string literals (C106)

`nul` is the terminator.  A literal is written without it; the hypotheses `nul ∉ t` say that a literal or string does not
contain a further one.
-/

namespace Pluto.Props
open Pluto.Literal

variable {α : Type} [DecidableEq α]

/-- C106. For two strings the functions mean what they say. -/
theorem C106_strings (nul : α) (s t : List α) :
    (equals nul (· == ·) (.string s) (.string t) = true ↔ s = t) ∧
      (startsWith nul (· == ·) (.string s) (.string t) = true ↔ t <+: s) ∧
      (startsWithRandom nul (· == ·) (.string s) (.string t) = .ok true ↔ t <+: s) ∧
      (endsWith nul (· == ·) (.string s) (.string t) = .ok true ↔ t <:+ s) ∧
      (endsWithRandom nul (· == ·) (.string s) (.string t) = .ok true ↔ t <:+ s) := by
  obtain ⟨h1, h2, h3, h4, -⟩ := C63_predicates s t
  exact ⟨C63_equals s t, h1.trans ⟨fun ⟨y, h⟩ => ⟨y, h.symm⟩, fun ⟨y, h⟩ => ⟨y, h.symm⟩⟩,
    h2.trans ⟨fun ⟨y, h⟩ => ⟨y, h.symm⟩, fun ⟨y, h⟩ => ⟨y, h.symm⟩⟩,
    h3.trans ⟨fun ⟨y, h⟩ => ⟨y, h.symm⟩, fun ⟨y, h⟩ => ⟨y, h.symm⟩⟩,
    h4.trans ⟨fun ⟨y, h⟩ => ⟨y, h.symm⟩, fun ⟨y, h⟩ => ⟨y, h.symm⟩⟩⟩

/-- A literal converted to a string. -/
private theorem toString_literal {nul : α} {t : List α} (h : nul ∉ t) : (Arg.literal t).toString nul = t := by
  show List.takeWhile (fun x => decide (x ≠ nul)) (t ++ [nul]) = t
  rw [List.takeWhile_append_of_pos (by
    intro x hx; simp only [decide_eq_true_eq]; rintro rfl; exact h hx)]
  simp

/-- C106. In the functions that ignore case, and in `contains`, a literal counts as the string it denotes. -/
theorem C106_converted (nul : α) (ct : Str.Ctype α) (p : α → α → Bool) (s t : List α) (hs : nul ∉ s) (ht : nul ∉ t) :
    ∀ l ∈ [Arg.string s, .literal s], ∀ r ∈ [Arg.string t, .literal t],
      iequals nul ct l r = iequals nul ct (.string s) (.string t) ∧
        istartsWith nul ct l r = istartsWith nul ct (.string s) (.string t) ∧
        Literal.contains nul p l r = Literal.contains nul p (.string s) (.string t) := by
  intro l hl r hr
  have h1 : l.toString nul = s := by
    rcases List.mem_cons.1 hl with rfl | hl
    · rfl
    · rw [List.mem_singleton.1 hl]; exact toString_literal hs
  have h2 : r.toString nul = t := by
    rcases List.mem_cons.1 hr with rfl | hr
    · rfl
    · rw [List.mem_singleton.1 hr]; exact toString_literal ht
  unfold iequals istartsWith Literal.contains
  rw [h1, h2]
  exact ⟨rfl, rfl, rfl⟩

/-- C106 fails: `equals`, `starts_with` and `ends_with` of a string and a literal are always false, also if the string
is equal to the literal, starts or ends with it; then `iequals` is true. -/
theorem C106_fails (nul : α) (s t : List α) (hs : nul ∉ s) :
    equals nul (· == ·) (.string s) (.literal t) = false ∧
      startsWith nul (· == ·) (.string s) (.literal t) = false ∧
      startsWithRandom nul (· == ·) (.string s) (.literal t) = .ok false ∧
      endsWith nul (· == ·) (.string s) (.literal t) = .ok false ∧
      endsWithRandom nul (· == ·) (.string s) (.literal t) = .ok false ∧
      ∀ ct, iequals nul ct (.string s) (.literal s) = true := by
  obtain ⟨h1, h2, h3, h4, -⟩ := C63_predicates s (t ++ [nul])
  have hmem : ∀ {x y : List α}, s ≠ x ++ (t ++ [nul]) ++ y := by
    intro x y h; apply hs; rw [h]; simp
  have ok : ∀ {r : Res Bool}, (∃ b, r = .ok b) → r ≠ .ok true → r = .ok false := by
    rintro r ⟨b, rfl⟩ h; cases b
    · rfl
    · exact absurd rfl h
  obtain ⟨b2, e2, -⟩ := Seq.startsWithRandom_iff (p := fun a b : α => a == b) (left := s) (right := t ++ [nul])
  obtain ⟨b3, e3, -⟩ := Seq.endsWith_iff (p := fun a b : α => a == b) (left := s) (right := t ++ [nul])
  obtain ⟨b4, e4, -⟩ := Seq.endsWithRandom_iff (p := fun a b : α => a == b) (left := s) (right := t ++ [nul])
  refine ⟨?_, ?_, ok ⟨_, e2⟩ ?_, ok ⟨_, e3⟩ ?_, ok ⟨_, e4⟩ ?_, ?_⟩
  · rw [Bool.eq_false_iff]
    intro h
    have h : s = t ++ [nul] := (C63_equals _ _).1 h
    exact hmem (x := []) (y := []) (by simpa using h)
  · rw [Bool.eq_false_iff]
    intro h
    obtain ⟨y, hy⟩ := h1.1 h
    exact hmem (x := []) (y := y) (by simpa using hy)
  · intro h
    obtain ⟨y, hy⟩ := h2.1 h
    exact hmem (x := []) (y := y) (by simpa using hy)
  · intro h
    obtain ⟨y, hy⟩ := h3.1 h
    exact hmem (x := y) (y := []) (by simpa using hy)
  · intro h
    obtain ⟨y, hy⟩ := h4.1 h
    exact hmem (x := y) (y := []) (by simpa using hy)
  · intro ct
    unfold iequals
    rw [toString_literal hs]
    exact (C62_iequals ct s s).2 rfl

/-- C106 (partial: `equals` and `ends_with` of two literals, `starts_with` of a literal and a string). The terminators do
no harm. -/
theorem C106_terminators_partial (nul : α) (s t : List α) (hs : nul ∉ s) :
    (equals nul (· == ·) (.literal s) (.literal t) = true ↔ s = t) ∧
      (endsWith nul (· == ·) (.literal s) (.literal t) = .ok true ↔ t <:+ s) ∧
      (startsWith nul (· == ·) (.literal t) (.string s) = true ↔ s <+: t) := by
  refine ⟨(C63_equals _ _).trans ?_, (C63_predicates (s ++ [nul]) (t ++ [nul])).2.2.1.trans ?_,
    (C63_predicates (t ++ [nul]) s).1.trans ?_⟩
  · exact ⟨fun h => List.append_cancel_right h, fun h => h ▸ rfl⟩
  · constructor
    · rintro ⟨x, h⟩
      rw [← List.append_assoc] at h
      exact ⟨x, (List.append_cancel_right h).symm⟩
    · rintro ⟨x, rfl⟩
      exact ⟨x, by simp⟩
  · constructor
    · rintro ⟨y, h⟩
      rcases List.eq_nil_or_concat y with rfl | ⟨y, c, rfl⟩
      · rw [List.append_nil] at h
        exact absurd (h ▸ List.mem_append_right t (List.mem_singleton.2 rfl)) hs
      · rw [List.concat_eq_append, ← List.append_assoc] at h
        obtain ⟨h, -⟩ := List.append_inj' h rfl
        exact ⟨y, h.symm⟩
    · rintro ⟨y, rfl⟩
      exact ⟨y ++ [nul], by simp⟩

/-- C106 fails for two literals as well: one starts with another only if they are equal. A literal ends with no string
but the empty one, and is equal to none. -/
theorem C106_fails_literals (nul : α) (s t : List α) (hs : nul ∉ s) :
    (startsWith nul (· == ·) (.literal s) (.literal t) = true ↔ s = t) ∧
      (endsWith nul (· == ·) (.literal t) (.string s) = .ok true ↔ s = []) ∧
      equals nul (· == ·) (.literal t) (.string s) = false := by
  refine ⟨(C63_predicates (s ++ [nul]) (t ++ [nul])).1.trans ?_, (C63_predicates (t ++ [nul]) s).2.2.1.trans ?_, ?_⟩
  · constructor
    · rintro ⟨y, h⟩
      rcases List.eq_nil_or_concat y with rfl | ⟨y, c, rfl⟩
      · rw [List.append_nil] at h
        exact List.append_cancel_right h
      · rw [List.concat_eq_append, ← List.append_assoc] at h
        obtain ⟨h, -⟩ := List.append_inj' h rfl
        exact absurd (by rw [h]; simp) hs
    · rintro rfl
      exact ⟨[], by simp⟩
  · constructor
    · rintro ⟨x, h⟩
      rcases List.eq_nil_or_concat s with rfl | ⟨s', c, rfl⟩
      · rfl
      · rw [List.concat_eq_append, ← List.append_assoc] at h
        obtain ⟨-, h⟩ := List.append_inj' h rfl
        refine absurd ?_ hs
        rw [List.concat_eq_append, (List.cons.inj h).1]
        simp
    · rintro rfl
      exact ⟨t ++ [nul], by simp⟩
  · rw [Bool.eq_false_iff]
    intro h
    have h : t ++ [nul] = s := (C63_equals _ _).1 h
    exact hs (h ▸ List.mem_append_right t (List.mem_singleton.2 rfl))

/-- The hypotheses hold for a usual string and its first letters; `starts_with(hello, "he")` is false, and true with a
string instead of the literal. -/
example : '\x00' ∉ "hello".toList ∧
    startsWith '\x00' (· == ·) (.string "hello".toList) (.literal "he".toList) = false ∧
    startsWith '\x00' (· == ·) (.string "hello".toList) (.string "he".toList) = true := by decide

section Wide
open Pluto.Spec Pluto.Unicode

/-- No byte of the encoding of another character is the terminator. -/
private theorem zero_notMem_enc8 {c : Char} (h : c ≠ '\x00') : (0 : UInt8) ∉ enc8 c := by
  have hn : c.toNat ≠ 0 := by
    intro h0
    apply h
    apply Char.ext
    apply UInt32.toNat_inj.1
    exact h0
  have hz : ∀ n : Nat, 0 < n → n < 256 → (0 : UInt8) ≠ UInt8.ofNat n := by
    intro n h1 h2 h3
    have := congrArg UInt8.toNat h3
    rw [UInt8.toNat_ofNat_of_lt' (by simpa using h2)] at this
    simp at this
    omega
  have hb : c.toNat < 0x110000 := by
    have := c.valid
    simp only [UInt32.isValidChar, Nat.isValidChar] at this
    show c.val.toNat < _
    omega
  rw [enc8_eq]
  split
  · simp only [List.mem_singleton]; exact hz _ (by omega) (by omega)
  · split
    · simp only [List.mem_cons, List.not_mem_nil, or_false, not_or]
      exact ⟨hz _ (by omega) (by omega), hz _ (by omega) (by omega)⟩
    · split
      · simp only [List.mem_cons, List.not_mem_nil, or_false, not_or]
        exact ⟨hz _ (by omega) (by omega), hz _ (by omega) (by omega), hz _ (by omega) (by omega)⟩
      · simp only [List.mem_cons, List.not_mem_nil, or_false, not_or]
        exact ⟨hz _ (by omega) (by omega), hz _ (by omega) (by omega), hz _ (by omega) (by omega),
          hz _ (by omega) (by omega)⟩

/-- A wide string has at most as many units, and fewer for a character that is not ASCII. -/
private theorem length_wide (p : Platform) (c : Char) :
    (encOf p .wide c).length ≤ (enc8 c).length ∧
      (¬ c.toNat < 0x80 → (encOf p .wide c).length < (enc8 c).length) := by
  have h32 : (enc32 c).length = 1 := rfl
  have h16 : (enc16 c).length = if c.toNat < 0x10000 then 1 else 2 := by
    unfold enc16; split <;> rfl
  have h8 : (enc8 c).length = if c.toNat < 0x80 then 1 else if c.toNat < 0x800 then 2 else
      if c.toNat < 0x10000 then 3 else 4 := by
    rw [enc8_eq]; split <;> (try split) <;> (try split) <;> rfl
  cases p with
  | wchar16 =>
    show (enc16 c).length ≤ _ ∧ (_ → (enc16 c).length < _)
    rw [h16, h8]
    split <;> split <;> (try split) <;> omega
  | wchar32 k =>
    show (enc32 c).length ≤ _ ∧ (_ → (enc32 c).length < _)
    rw [h32, h8]
    split <;> (try split) <;> (try split) <;> omega

/-- C106 (partial: ASCII characters that the stream widens to themselves). `wstr` of a narrow literal with any text has
the result for the string exactly if all characters of the text are such. -/
theorem C106_wstr_partial (ul : Bool) (p : Platform) (widen : UInt8 → Unit' p .wide) (text : List Char)
    (h : '\x00' ∉ text) :
    wstr ul p widen (.literal (encode enc8 text)) = wstr ul p widen (.string (encode enc8 text)) ↔
      ∀ c ∈ text, c.toNat < 0x80 ∧ [widen (UInt8.ofNat c.toNat)] = encOf p .wide c := by
  have hl : wstr ul p widen (.literal (encode enc8 text)) = some ((encode enc8 text).map widen) := by
    have : (0 : UInt8) ∉ encode enc8 text := by
      intro hm
      obtain ⟨c, hc, hm⟩ := List.mem_flatMap.1 hm
      exact zero_notMem_enc8 (fun he => h (he ▸ hc)) hm
    show some (((Arg.literal (encode enc8 text)).toString 0).map widen) = _
    rw [toString_literal this]
  have hs : wstr ul p widen (.string (encode enc8 text)) = some (encode (encOf p .wide) text) :=
    C48_conv ul p .narrow .wide text
  rw [hl, hs, Option.some_inj]
  clear hl hs h
  have hle : ∀ t : List Char, (encode (encOf p .wide) t).length ≤ (encode enc8 t).length := by
    intro t
    induction t with
    | nil => simp [encode]
    | cons c t ih =>
      simp only [encode, List.flatMap_cons, List.length_append] at ih ⊢
      have := (length_wide p c).1
      omega
  induction text with
  | nil => simp [encode]
  | cons c t ih =>
    have he : ∀ {β : Type} (e : Char → List β), encode e (c :: t) = e c ++ encode e t := fun e => rfl
    rw [he, he, List.map_append]
    constructor
    · intro heq
      have hc : c.toNat < 0x80 := by
        refine Classical.byContradiction fun hn => ?_
        have := congrArg List.length heq
        simp only [List.length_append, List.length_map] at this
        have h1 := (length_wide p c).2 hn
        have h2 := hle t
        omega
      have h1 : enc8 c = [UInt8.ofNat c.toNat] := by rw [enc8_eq, if_pos hc]
      have h2 : (encOf p .wide c).length = 1 := by
        have h2 := (length_wide p c).1
        rw [h1] at h2
        have h3 : encOf p .wide c ≠ [] := by
          cases p with
          | wchar16 => exact enc16_ne_nil c
          | wchar32 k => exact enc32_ne_nil c
        have := List.length_pos_iff.2 h3
        simp at h2
        omega
      rw [h1, List.map_singleton] at heq
      obtain ⟨h3, h4⟩ := List.append_inj heq (by rw [h2]; rfl)
      intro d hd
      rcases List.mem_cons.1 hd with rfl | hd
      · exact ⟨hc, h3⟩
      · exact ih.1 h4 d hd
    · intro hall
      obtain ⟨hc, h3⟩ := hall c (by simp)
      have h1 : enc8 c = [UInt8.ofNat c.toNat] := by rw [enc8_eq, if_pos hc]
      rw [h1, List.map_singleton, h3, ih.2 fun d hd => hall d (by simp [hd])]

/-- The stream of the "C" locale widens ASCII characters to themselves, so that `wstr("hi")` is right; no stream makes
`wstr("é")` right. -/
example (ul : Bool) (widen : UInt8 → UInt16) :
    wstr ul .wchar16 (fun b => UInt16.ofNat b.toNat) (.literal (encode enc8 "hi".toList)) =
        wstr ul .wchar16 (fun b => UInt16.ofNat b.toNat) (.string (encode enc8 "hi".toList)) ∧
      wstr ul .wchar16 widen (.literal (encode enc8 "é".toList)) ≠
        wstr ul .wchar16 widen (.string (encode enc8 "é".toList)) := by
  refine ⟨(C106_wstr_partial ul .wchar16 _ _ (by decide)).2 (by decide), fun h => ?_⟩
  have := (C106_wstr_partial ul .wchar16 widen _ (by decide)).1 h 'é' (by decide)
  exact absurd this.1 (by decide)

end Wide

end Pluto.Props
