import Verif.Spec.UtfStr
import Verif.Props.Str
import Verif.Props.Seq
import Verif.Proofs.UtfStr

/-!
# The string functions on encoded text (C127)

The functions of `string.hpp`, `container.hpp` and `iterator.hpp` work on units (`char`, `wchar_t`, `char16_t`, ...).
A user works with text in UTF-8, UTF-16 or UTF-32.  `encode enc s` are the units of the text `s`.  The theorems say that
a function applied to the units gives the units of what it gives applied to the characters, and where it does not.
-/

namespace Pluto.Props

open Str Spec UtfProofs Unicode

variable {β : Type} [DecidableEq β] {enc : Char → List β}

/-- C127.  UTF-8, UTF-16 and UTF-32 are self-synchronising: the units of a non-empty text occur in those of another one
only where its characters do. -/
theorem C127_encodings : SelfSync enc8 ∧ SelfSync enc16 ∧ SelfSync enc32 :=
  ⟨selfSync_of_leads leads8 prefixFree8, selfSync_of_leads leads16 prefixFree16,
    selfSync_of_leads leads32 prefixFree32⟩

/-- It is not a property of every encoding: if `é` were the units `c`, `'` then `'` would be found in it. -/
example : ¬ SelfSync (fun c => if c = 'é' then ['c', '\''] else [c]) := by
  intro h
  obtain ⟨s₁, s₂, h1, -⟩ := h ['é'] ['\''] ['c'] [] (by simp) (by decide)
  have : '\'' ∈ ['é'] := by rw [h1]; simp
  simp at this

/-! ## What holds for all text -/

/-- C127.  `equals`, `starts_with`, `ends_with` and `contains` of two texts (both implementations) do not depend on
whether they are applied to characters or to units. -/
theorem C127_predicates (h : SelfSync enc) (s n : List Char) :
    Seq.equals (· == ·) (encode enc s) (encode enc n) = Seq.equals (· == ·) s n ∧
      Seq.startsWith (· == ·) (encode enc s) (encode enc n) = Seq.startsWith (· == ·) s n ∧
      (Seq.startsWithRandom (· == ·) (encode enc s) (encode enc n) = .ok true ↔ ∃ y, s = n ++ y) ∧
      (Seq.endsWith (· == ·) (encode enc s) (encode enc n) = .ok true ↔ ∃ x, s = x ++ n) ∧
      (Seq.endsWithRandom (· == ·) (encode enc s) (encode enc n) = .ok true ↔ ∃ x, s = x ++ n) ∧
      Seq.contains (· == ·) (encode enc s) (encode enc n) = Seq.contains (· == ·) s n := by
  have hp : (∃ y, encode enc s = encode enc n ++ y) ↔ ∃ y, s = n ++ y := by
    constructor
    · rintro ⟨y, e⟩
      by_cases hn : n = []
      · exact ⟨s, by simp [hn]⟩
      · obtain ⟨s₁, s₂, rfl, h1, -⟩ := h s n [] y hn (by simpa using e)
        exact ⟨s₂, by rw [h.eq_nil h1.symm]; rfl⟩
    · rintro ⟨y, rfl⟩; exact ⟨_, encode_append ..⟩
  have hx : (∃ x, encode enc s = x ++ encode enc n) ↔ ∃ x, s = x ++ n := by
    constructor
    · rintro ⟨x, e⟩
      by_cases hn : n = []
      · exact ⟨s, by simp [hn]⟩
      · obtain ⟨s₁, s₂, rfl, -, h2⟩ := h s n x [] hn (by simpa using e)
        exact ⟨s₁, by rw [h.eq_nil h2.symm]; simp⟩
    · rintro ⟨x, rfl⟩; exact ⟨_, encode_append ..⟩
  obtain ⟨-, a2, a3, a4, -⟩ := C63_predicates (encode enc s) (encode enc n)
  refine ⟨?_, ?_, a2.trans hp, a3.trans hx, a4.trans hx, ?_⟩
  · rw [Bool.eq_iff_iff, C63_equals, C63_equals]
    exact ⟨h.inj, fun e => e ▸ rfl⟩
  · rw [Bool.eq_iff_iff, (C63_predicates _ _).1, (C63_predicates _ _).1]
    exact hp
  · rw [Bool.eq_iff_iff, (C63_predicates _ _).2.2.2.2, (C63_predicates _ _).2.2.2.2]
    constructor
    · rintro ⟨x, y, e⟩
      by_cases hn : n = []
      · exact ⟨[], s, by simp [hn]⟩
      · obtain ⟨s₁, s₂, h1, -⟩ := h s n x y hn e
        exact ⟨s₁, s₂, h1⟩
    · rintro ⟨x, y, rfl⟩; exact ⟨_, _, by rw [encode_append, encode_append]⟩

omit [DecidableEq β] in
/-- C127.  `join` of encoded pieces is the encoding of the joined pieces. -/
theorem C127_join (enc : Char → List β) (ps : List (List Char)) (sep : List Char) :
    join (ps.map (encode enc)) (encode enc sep) = encode enc (join ps sep) :=
  join_map enc ps sep

/-- C127.  `find` and `rfind` find a text at the unit where the character starts at which it occurs first or last (at
the end if it does not occur). -/
theorem C127_find (h : SelfSync enc) (s n : List Char) :
    Seq.find (· == ·) (encode enc s) (encode enc n) =
        (encode enc (s.take (Seq.find (· == ·) s n))).length ∧
      Seq.rfind (· == ·) (encode enc s) (encode enc n) =
        (encode enc (s.take (Seq.rfind (· == ·) s n))).length := by
  obtain ⟨a1, a2⟩ := C63_find_sequence (· == ·) (encode enc s) (encode enc n)
  obtain ⟨b1, b2⟩ := C63_find_sequence (· == ·) s n
  by_cases hn : n = []
  · subst hn
    rw [firstOr_unique b1 (firstOr_nil s), lastOr_unique b2 (lastOr_nil s), List.take_zero, List.take_length]
    exact ⟨firstOr_unique a1 (firstOr_nil _), lastOr_unique a2 (lastOr_nil _)⟩
  · exact ⟨firstOr_unique a1 (h.firstOr hn b1), lastOr_unique a2 (h.lastOr hn b2)⟩

/-! ## What holds under a condition -/

/-- C127.  `split` at a non-empty separator returns the encodings of the pieces of the text. -/
theorem C127_split_partial (h : SelfSync enc) (s sep : List Char) (hs : sep ≠ []) :
    ∃ ps, split s sep = .ok ps ∧ split (encode enc s) (encode enc sep) = .ok (ps.map (encode enc)) := by
  refine ⟨_, split_eq hs s, ?_⟩
  rw [C53_unique _ _ (fun e => hs (h.eq_nil e))]
  obtain ⟨h1, h2⟩ := (C53_unique s sep hs _).1 (split_eq hs s)
  exact ⟨h.readable hs h1, by rw [join_map, h2]⟩

/-- C127.  `replace` of a non-empty text returns the encoding of the replaced text. -/
theorem C127_replace_partial (h : SelfSync enc) (s fnd w : List Char) (hf : fnd ≠ []) :
    ∃ r, replace s fnd w = .ok r ∧ replace (encode enc s) (encode enc fnd) (encode enc w) = .ok (encode enc r) := by
  obtain ⟨ps, h1, h2⟩ := C54_replace s fnd w hf
  obtain ⟨qs, h3, h4⟩ := C54_replace (encode enc s) (encode enc fnd) (encode enc w) (fun e => hf (h.eq_nil e))
  obtain ⟨ps', h5, h6⟩ := C127_split_partial h s fnd hf
  rw [h1] at h5; cases h5
  rw [h3] at h6; cases h6
  exact ⟨_, h2, by rw [h4, join_map]⟩

/-- C127.  `split_any_of` returns the encodings of the pieces of the text if the characters to split at have one unit
each: in UTF-8 the ASCII characters, in UTF-16 those of the basic plane, in UTF-32 all. -/
theorem C127_split_any_of_partial (h : SelfSync enc) (s set : List Char) (hset : ∀ c ∈ set, (enc c).length = 1) :
    ∃ ps, splitAnyOf s set = .ok ps ∧ splitAnyOf (encode enc s) (encode enc set) = .ok (ps.map (encode enc)) := by
  obtain ⟨ps, hp⟩ := C58_returns s set
  refine ⟨ps, hp, ?_⟩
  rw [C58_split_any_of] at hp ⊢
  refine runs_encode h.ne_nil ?_ hp
  intro c u hu
  exact decide_eq_decide.2 (h.mem_set hset hu)

/-- C127.  `replace_any_of` returns the encoding of the replaced text if the characters sought have one unit each. -/
theorem C127_replace_any_of_partial (h : SelfSync enc) (s set w : List Char) (hset : ∀ c ∈ set, (enc c).length = 1) :
    ∃ r, replaceAnyOf s set w = .ok r ∧
      replaceAnyOf (encode enc s) (encode enc set) (encode enc w) = .ok (encode enc r) := by
  refine ⟨_, C56_replace_any_of s set w, ?_⟩
  rw [C56_replace_any_of]
  congr 1
  have keep : ∀ us : List β, (∀ u ∈ us, u ∉ encode enc set) →
      (us.flatMap fun u => if u ∈ encode enc set then encode enc w else [u]) = us := by
    intro us hus
    induction us with
    | nil => rfl
    | cons u us ih =>
      rw [List.flatMap_cons, if_neg (hus u (by simp)), ih fun v hv => hus v (by simp [hv])]
      rfl
  induction s with
  | nil => rfl
  | cons c s ih =>
    rw [encode_cons, List.flatMap_append, List.flatMap_cons, encode_append, ih]
    congr 1
    by_cases hc : c ∈ set
    · obtain ⟨u, hu⟩ := single (hset c hc)
      have : u ∈ encode enc set := mem_encode.2 ⟨c, hc, by simp [hu]⟩
      rw [hu, if_pos hc, List.flatMap_cons, if_pos this]
      simp
    · rw [if_neg hc, keep (enc c) fun u hu hm => hc ((h.mem_set hset hu).1 hm), encode_cons, encode_nil,
        List.append_nil]

omit [DecidableEq β] in
/-- C127.  The functions that split at and strip spaces return the encodings of what they return for the text if the
locale classifies the units of each character like the character. -/
theorem C127_space_partial (h : SelfSync enc) (cc : Ctype Char) (cu : Ctype β) (ha : Agrees enc cc.space cu.space)
    (s : List Char) :
    (∃ ps, splitSpace cc s = .ok ps ∧ splitSpace cu (encode enc s) = .ok (ps.map (encode enc))) ∧
      (∀ r, lstrip cc s = .ok r → lstrip cu (encode enc s) = .ok (encode enc r)) ∧
      (∀ r, rstrip cc s = .ok r → rstrip cu (encode enc s) = .ok (encode enc r)) ∧
      (∀ r, strip cc s = .ok r → strip cu (encode enc s) = .ok (encode enc r)) := by
  refine ⟨?_, ?_, ?_, ?_⟩
  · obtain ⟨ps, hp⟩ := C57_returns cc s
    refine ⟨ps, hp, ?_⟩
    rw [C57_split_space] at hp ⊢
    exact runs_encode h.ne_nil ha hp
  · intro r hr
    rw [C59_lstrip] at hr ⊢
    exact leftStripped_encode h.ne_nil ha hr
  · intro r hr
    rw [C59_rstrip] at hr ⊢
    exact rightStripped_encode h.ne_nil ha hr
  · intro r hr
    rw [C59_strip] at hr ⊢
    exact stripped_encode h.ne_nil ha hr

omit [DecidableEq β] in
/-- C127.  `lower` and `upper` return the encoding of the mapped text, and `is_lower` and `is_upper` the same, if the
locale maps and classifies the units of each character like the character. -/
theorem C127_case_partial (h : SelfSync enc) (cc : Ctype Char) (cu : Ctype β) (hl : Commutes enc cc.toLower cu.toLower)
    (hu : Commutes enc cc.toUpper cu.toUpper) (al : Agrees enc cc.isLower cu.isLower)
    (au : Agrees enc cc.isUpper cu.isUpper) (s : List Char) :
    lower cu (encode enc s) = encode enc (lower cc s) ∧ upper cu (encode enc s) = encode enc (upper cc s) ∧
      Str.isLower cu (encode enc s) = Str.isLower cc s ∧ Str.isUpper cu (encode enc s) = Str.isUpper cc s := by
  have hc : ∀ (f : Char → Bool) (g : β → Bool), Agrees enc f g →
      ((∀ u ∈ encode enc s, g u = false) ↔ ∀ c ∈ s, f c = false) := by
    intro f g hfg
    constructor
    · intro hs c hc
      obtain ⟨u, us, e⟩ := List.exists_cons_of_ne_nil (h.ne_nil c)
      rw [← hfg c u (by simp [e])]
      exact hs u (mem_encode.2 ⟨c, hc, by simp [e]⟩)
    · exact agrees_all hfg
  refine ⟨map_encode hl s, map_encode hu s, ?_, ?_⟩
  · rw [Bool.eq_iff_iff, (C75_classify _ _).1, (C75_classify _ _).1]
    exact hc _ _ au
  · rw [Bool.eq_iff_iff, (C75_classify _ _).2, (C75_classify _ _).2]
    exact hc _ _ al

/-- C127.  `iequals` does not depend on whether it is applied to characters or to units if the locale maps the units of
each character like the character. -/
theorem C127_iequals_partial (h : SelfSync enc) (cc : Ctype Char) (cu : Ctype β)
    (hu : Commutes enc cc.toUpper cu.toUpper) (s t : List Char) :
    Seq.iequals cu (encode enc s) (encode enc t) = Seq.iequals cc s t := by
  rw [Bool.eq_iff_iff, C62_iequals, C62_iequals, upper, upper, upper, upper, map_encode hu, map_encode hu]
  exact ⟨h.inj, fun e => e ▸ rfl⟩

/-- C127.  The conditions on the locale are met in UTF-8 by every locale for bytes that classifies no byte from 0x80 on
and maps the bytes below among themselves and the others to themselves, for instance the classic one. -/
theorem C127_ascii_locale (cu : Ctype UInt8)
    (hs : ∀ u : UInt8, 0x80 ≤ u.toNat → cu.space u = false ∧ cu.isLower u = false ∧ cu.isUpper u = false)
    (hm : ∀ u : UInt8, 0x80 ≤ u.toNat → cu.toLower u = u ∧ cu.toUpper u = u)
    (hm' : ∀ u : UInt8, u.toNat < 0x80 → (cu.toLower u).toNat < 0x80 ∧ (cu.toUpper u).toNat < 0x80) :
    ∃ cc : Ctype Char, Agrees enc8 cc.space cu.space ∧ Agrees enc8 cc.isLower cu.isLower ∧
      Agrees enc8 cc.isUpper cu.isUpper ∧ Commutes enc8 cc.toLower cu.toLower ∧
      Commutes enc8 cc.toUpper cu.toUpper ∧
      ∀ c : Char, c.toNat < 0x80 → cc.space c = cu.space (UInt8.ofNat c.toNat) := by
  let b (g : UInt8 → Bool) (c : Char) : Bool := if c.toNat < 0x80 then g (UInt8.ofNat c.toNat) else false
  let t (g : UInt8 → UInt8) (c : Char) : Char :=
    if c.toNat < 0x80 then Char.ofNat (g (UInt8.ofNat c.toNat)).toNat else c
  have hb : ∀ g : UInt8 → Bool, (∀ u : UInt8, 0x80 ≤ u.toNat → g u = false) → Agrees enc8 (b g) g := by
    intro g hg c u hu
    by_cases hc : c.toNat < 0x80
    · rw [enc8_eq, if_pos hc, List.mem_singleton] at hu
      simp only [b, if_pos hc, hu]
    · simp only [b, if_neg hc]
      exact hg u (high_units hc hu)
  have ht : ∀ g : UInt8 → UInt8, (∀ u : UInt8, 0x80 ≤ u.toNat → g u = u) →
      (∀ u : UInt8, u.toNat < 0x80 → (g u).toNat < 0x80) → Commutes enc8 (t g) g := by
    intro g hg hg' c
    by_cases hc : c.toNat < 0x80
    · have h1 := hg' (UInt8.ofNat c.toNat) (by rw [u8_toNat (by omega)]; exact hc)
      simp only [t, if_pos hc]
      rw [enc8_eq, if_pos hc, enc8_eq, char_toNat_ofNat (by omega), if_pos h1]
      simp
    · simp only [t, if_neg hc]
      rw [List.map_congr_left (g := id) fun u hu => hg u (high_units hc hu)]
      simp
  refine ⟨⟨b cu.space, b cu.isUpper, b cu.isLower, t cu.toUpper, t cu.toLower⟩, hb _ fun u hu => (hs u hu).1,
    hb _ fun u hu => (hs u hu).2.1, hb _ fun u hu => (hs u hu).2.2, ht _ (fun u hu => (hm u hu).1)
      fun u hu => (hm' u hu).1, ht _ (fun u hu => (hm u hu).2) fun u hu => (hm' u hu).2, ?_⟩
  intro c hc
  simp only [b, if_pos hc]

/-- The classic locale for bytes. -/
def classic8 : Ctype UInt8 where
  space u := u == 32 || (9 ≤ u && u ≤ 13)
  isUpper u := 65 ≤ u && u ≤ 90
  isLower u := 97 ≤ u && u ≤ 122
  toUpper u := if 97 ≤ u && u ≤ 122 then u - 32 else u
  toLower u := if 65 ≤ u && u ≤ 90 then u + 32 else u

example : (∀ u : UInt8, 0x80 ≤ u.toNat →
      classic8.space u = false ∧ classic8.isLower u = false ∧ classic8.isUpper u = false) ∧
    (∀ u : UInt8, 0x80 ≤ u.toNat → classic8.toLower u = u ∧ classic8.toUpper u = u) ∧
    ∀ u : UInt8, u.toNat < 0x80 → (classic8.toLower u).toNat < 0x80 ∧ (classic8.toUpper u).toNat < 0x80 := by
  have key : ∀ n : Fin 256,
      (0x80 ≤ (UInt8.ofNat n).toNat → (classic8.space (UInt8.ofNat n) = false ∧
        classic8.isLower (UInt8.ofNat n) = false ∧ classic8.isUpper (UInt8.ofNat n) = false) ∧
        classic8.toLower (UInt8.ofNat n) = UInt8.ofNat n ∧ classic8.toUpper (UInt8.ofNat n) = UInt8.ofNat n) ∧
      ((UInt8.ofNat n).toNat < 0x80 → (classic8.toLower (UInt8.ofNat n)).toNat < 0x80 ∧
        (classic8.toUpper (UInt8.ofNat n)).toNat < 0x80) := by
    set_option maxRecDepth 20000 in decide
  have all : ∀ u : UInt8, _ := fun u => key ⟨u.toNat, u.toNat_lt⟩
  simp only [UInt8.ofNat_toNat] at all
  exact ⟨fun u hu => ((all u).1 hu).1, fun u hu => ((all u).1 hu).2, fun u hu => (all u).2 hu⟩

/-- A non-trivial case: pieces between euro signs, of several bytes each. -/
example : split (encode enc8 "à€é€".toList) (encode enc8 "€".toList) =
    .ok (["à".toList, "é".toList, []].map (encode enc8)) := by
  obtain ⟨ps, h1, h2⟩ := C127_split_partial C127_encodings.1 "à€é€".toList "€".toList (by decide)
  have : split "à€é€".toList "€".toList = .ok ["à".toList, "é".toList, []] := by rfl
  rw [this] at h1; cases h1
  exact h2

/-- The commas and spaces between words with accents: characters of one byte among characters of two. -/
example : splitAnyOf (encode enc8 "é, à".toList) (encode enc8 ", ".toList) =
    .ok (["é".toList, "à".toList].map (encode enc8)) := by
  obtain ⟨ps, h1, h2⟩ := C127_split_any_of_partial C127_encodings.1 "é, à".toList ", ".toList (by decide)
  have : splitAnyOf "é, à".toList ", ".toList = .ok ["é".toList, "à".toList] := by rfl
  rw [this] at h1; cases h1
  exact h2

/-! ## Where it fails -/

/-- The only text with this encoding would have to start with a character of these bytes. -/
private theorem not_wellFormed_C3 : ¬ WellFormed enc8 [0xC3] := by
  rintro ⟨t, e⟩
  cases t with
  | nil => simp [encode_nil] at e
  | cons c t =>
    rw [encode_cons] at e
    have := enc8_inv (c := c) (a := 0xC3) (t := []) ⟨_, e.symm⟩
    simp at this

private theorem not_wellFormed_cont (u : UInt8) (hu : lead8 u = false) (l : List UInt8) :
    ¬ WellFormed enc8 (u :: l) := by
  rintro ⟨t, e⟩
  cases t with
  | nil => simp [encode_nil] at e
  | cons c t =>
    obtain ⟨v, r, h1, h2, -⟩ := leads8 c
    rw [encode_cons, h1, List.cons_append, List.cons.injEq] at e
    rw [e.1, h2] at hu
    cases hu

/-- C127.  An empty separator cuts characters: `split` of `é` in UTF-8 at the empty string gives two pieces that are no
text, and `replace` of the empty string puts the replacement into the middle of the character. -/
theorem C127_fails_empty : split (encode enc8 ['é']) [] = .ok [[0xC3], [0xA9]] ∧
    ¬ WellFormed enc8 [0xC3] ∧ ¬ WellFormed enc8 [0xA9] ∧
    ∃ r, replace (encode enc8 ['é']) [] (encode enc8 ['-']) = .ok r ∧ ¬ WellFormed enc8 r := by
  refine ⟨by rfl, not_wellFormed_C3, not_wellFormed_cont _ (by decide) _, [0x2D, 0xC3, 0x2D, 0xA9, 0x2D], by rfl, ?_⟩
  rintro ⟨t, e⟩
  have h := prefix_text enc8_ne_nil prefixFree8 ['-'] t [0xC3, 0x2D, 0xA9, 0x2D] (by rw [← e]; decide)
  obtain ⟨t, -, e⟩ := h
  cases t with
  | nil => simp [encode_nil] at e
  | cons c t =>
    rw [encode_cons] at e
    have := enc8_inv (c := c) (a := 0xC3) (t := [0x2D, 0xA9, 0x2D]) ⟨_, e.symm⟩
    simp at this

/-- C127.  `split_any_of` and `replace_any_of` with characters of several
units take their units one by one: `é` and `è` have the first byte in common, so that splitting `é` at `è` leaves half
of it. -/
theorem C127_fails_any_of : splitAnyOf ['é'] ['è'] = .ok [['é']] ∧
    splitAnyOf (encode enc8 ['é']) (encode enc8 ['è']) = .ok [[0xA9]] ∧ ¬ WellFormed enc8 [0xA9] ∧
    replaceAnyOf (encode enc8 ['é']) (encode enc8 ['è']) [] = .ok [0xA9] :=
  ⟨by rfl, by rfl, not_wellFormed_cont _ (by decide) _, by rfl⟩

/-- C127.  In a locale in which the byte 0xA0 is a space (Latin-1's no-break space), `rstrip` of `à` leaves half of
it. -/
theorem C127_fails_space (cu : Ctype UInt8) (h0 : cu.space 0xA0 = true) (h3 : cu.space 0xC3 = false) :
    rstrip cu (encode enc8 ['à']) = .ok [0xC3] ∧ ¬ WellFormed enc8 [0xC3] := by
  refine ⟨(C59_rstrip cu _ _).2 ⟨⟨[0xA0], by rfl, by simp [h0]⟩, by simp [h3]⟩, not_wellFormed_C3⟩

example : ∃ cu : Ctype UInt8, cu.space 0xA0 = true ∧ cu.space 0xC3 = false :=
  ⟨{ classic8 with space := fun u => u == 0xA0 }, by decide, by decide⟩

/-- C127.  `reverse` and `slice` work on units: reversing or slicing `é` in UTF-8 gives no text. -/
theorem C127_fails_reverse_slice : ¬ WellFormed enc8 (Seq.reverse (encode enc8 ['é'])) ∧
    Seq.slice (encode enc8 ['é']) 0 1 = .ok [0xC3] ∧ ¬ WellFormed enc8 [0xC3] :=
  ⟨not_wellFormed_cont 0xA9 (by decide) [0xC3], by rfl, not_wellFormed_C3⟩

/-- C127, exactly when `reverse` gives a text: in UTF-8 and in UTF-16 if and only if all characters have one unit, and then it
is the reversed text.  Missing: all other texts. -/
theorem C127_reverse_partial (s : List Char) :
    (WellFormed enc8 (Seq.reverse (encode enc8 s)) ↔ ∀ c ∈ s, (enc8 c).length = 1) ∧
    (WellFormed enc16 (Seq.reverse (encode enc16 s)) ↔ ∀ c ∈ s, (enc16 c).length = 1) ∧
    Seq.reverse (encode enc32 s) = encode enc32 (Seq.reverse s) ∧
    ((∀ c ∈ s, (enc8 c).length = 1) → Seq.reverse (encode enc8 s) = encode enc8 (Seq.reverse s)) ∧
    ((∀ c ∈ s, (enc16 c).length = 1) → Seq.reverse (encode enc16 s) = encode enc16 (Seq.reverse s)) :=
  ⟨reverse_iff leads8 prefixFree8 s, reverse_iff leads16 prefixFree16 s, reverse_single fun _ _ => rfl, reverse_single,
    reverse_single⟩

omit [DecidableEq β] in
/-- C127, exactly when `slice` gives a text: if and only if it begins and ends between two characters of the text.  Missing:
all other positions. -/
theorem C127_slice_partial (h : SelfSync enc) (s : List Char) {i j : Nat} (hij : i < j) (hj : j ≤ (encode enc s).length) :
    ∃ r, Seq.slice (encode enc s) i j = .ok r ∧ (WellFormed enc r ↔ Between enc s i ∧ Between enc s j) := by
  refine ⟨_, (?_ : Seq.slice (encode enc s) i j = .ok (((encode enc s).drop i).take (j - i))), slice_iff h s hij hj⟩
  generalize encode enc s = xs at hj
  have h1 : Seq.stdAdvance xs.length 0 i = .ok i := by
    unfold Seq.stdAdvance
    simp only
    rw [if_neg (by omega), show (((0 : Nat) : Int) + i).toNat = i by omega]
  have h2 : Seq.stdAdvance xs.length i ((j : Int) - i) = .ok j := by
    unfold Seq.stdAdvance
    simp only
    rw [if_neg (by omega), show ((i : Int) + (j - i)).toNat = j by omega]
  unfold Seq.slice
  simp only
  rw [if_neg (by omega : ¬ (i : Int) < 0), if_neg (by omega : ¬ (j : Int) < 0), if_neg (by omega : ¬ (xs.length : Int) < j),
    if_neg (by omega), h1]
  show (Seq.stdAdvance xs.length i ((j : Int) - i) >>= _) = _
  rw [h2]
  rfl

/-- `aé` in UTF-8 can be cut after one and after three bytes, not after two. -/
example : Between enc8 ['a', 'é'] 1 ∧ Between enc8 ['a', 'é'] 3 ∧ ¬ WellFormed enc8 (Seq.reverse (encode enc8 ['a', 'é'])) := by
  refine ⟨⟨1, by decide⟩, ⟨2, by decide⟩, fun h => ?_⟩
  have := (C127_reverse_partial ['a', 'é']).1.1 h 'é' (by simp)
  revert this
  decide

end Pluto.Props
