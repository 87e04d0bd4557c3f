import Verif.Model.Str
import Verif.Spec.Str
import Verif.Proofs.Str

/-!
# Properties of the string functions (C51-C59, C75)

`f x = .ok y` says that the call returns `y`: no exception, no undefined behaviour, and
every loop ends within the number of iterations allowed by the model.
-/

namespace Pluto.Props

open Str StrSpec

variable {α : Type}

section
variable [DecidableEq α]

/-! ## C51: join inverts split -/

/-- C51.  For every string and every separator, the pieces returned by `split`, joined
with the separator, are the string.  (Also for the empty separator.) -/
theorem C51_join_split (s sep : List α) :
    ∃ ps, split s sep = .ok ps ∧ join ps sep = s := by
  by_cases hs : sep = []
  · subst hs
    refine ⟨_, split_nil s, ?_⟩
    cases s with
    | nil => rfl
    | cons c s =>
      rw [List.map_cons, join_cons, List.map_map]
      have : ∀ t : List α, (t.map ((fun q => [] ++ q) ∘ fun c => [c])).flatten = t := by
        intro t
        induction t with
        | nil => rfl
        | cons d t ih => simpa using ih
      rw [this]; rfl
  · exact ⟨_, split_eq hs s, join_pieces hs s⟩

/-- C51.  `split` with an empty separator returns the characters. -/
theorem C51_empty_separator (s : List α) : split s [] = .ok (s.map fun c => [c]) :=
  split_nil s

omit [DecidableEq α] in
/-- C51.  `join` is concatenation with the separator in between, and `map_join` is
`join` after applying the function. -/
theorem C51_join_meaning {β : Type} (ps : List (List α)) (xs : List β) (f : β → List α)
    (sep : List α) :
    join ps sep = sep.intercalate ps ∧ mapJoin xs sep f = sep.intercalate (xs.map f) := by
  have h : ∀ ps : List (List α), join ps sep = sep.intercalate ps := by
    intro ps
    induction ps with
    | nil => rfl
    | cons p ps ih =>
      cases ps with
      | nil => simp [join_singleton, List.intercalate]
      | cons q ps =>
        rw [join_cons_cons, ih]
        simp [List.intercalate, List.intersperse]
  exact ⟨h ps, by rw [mapJoin_eq, h]⟩

example : split "a,b,,c".toList [','] = .ok ["a".toList, "b".toList, [], "c".toList] := by rfl

/-! ## C52: split inverts join -/

/-- C52, exactly when.  Splitting the joined text gives the pieces back if and only if
the pieces are `Readable`: read from the left, the separator is found first where it was
inserted. -/
theorem C52_split_join_iff (ps : List (List α)) (sep : List α) (hs : sep ≠ []) :
    split (join ps sep) sep = .ok ps ↔ Readable sep ps := by
  rw [split_eq hs]
  constructor
  · intro h
    have h : pieces sep (join ps sep) = ps := by simpa using h
    rw [← h]
    exact readable_pieces hs _
  · intro h
    rw [pieces_join hs h]

/-- C52.  In particular if the separator occurs in the joined text only where it was
inserted. -/
theorem C52_split_join (ps : List (List α)) (sep : List α) (hs : sep ≠ []) (hp : ps ≠ [])
    (h : ∀ i, Occurs sep (join ps sep) i → i ∈ separatorPositions sep ps) :
    split (join ps sep) sep = .ok ps :=
  (C52_split_join_iff ps sep hs).2 (readable_of_positions hs hp h)

/-- C52.  In particular for a one-character separator that occurs in no piece. -/
theorem C52_split_join_char (ps : List (List α)) (c : α) (hp : ps ≠ []) (h : ∀ p ∈ ps, c ∉ p) :
    split (join ps [c]) [c] = .ok ps :=
  (C52_split_join_iff ps [c] (by simp)).2 (readable_singleton hp h)

/-- The condition is needed: `"b"` and `"x"` joined with `"bb"` are not read back. -/
example : split (join ["b".toList, "x".toList] "bb".toList) "bb".toList =
    .ok [[], "bx".toList] := by rfl

/-- `C52_split_join_char` applies to three pieces one of which is empty. -/
example : split (join ["ab".toList, [], "c".toList] [',']) [','] =
    .ok ["ab".toList, [], "c".toList] :=
  C52_split_join_char _ _ (by simp) (by decide)

/-! ## C53: the pieces -/

/-- C53.  No piece contains the separator, and there is one piece more than occurrences
of the separator that do not overlap, counted from the left. -/
theorem C53_pieces (s sep : List α) (hs : sep ≠ []) :
    ∃ ps, split s sep = .ok ps ∧ (∀ p ∈ ps, ¬ Contains sep p) ∧
      ps.length = count sep s + 1 :=
  ⟨_, split_eq hs s, readable_not_contains hs (readable_pieces hs s), length_pieces hs s⟩

/-- C53.  The pieces are the only list that is readable and joins to the string. -/
theorem C53_unique (s sep : List α) (hs : sep ≠ []) (ps : List (List α)) :
    split s sep = .ok ps ↔ Readable sep ps ∧ join ps sep = s := by
  rw [split_eq hs]
  constructor
  · intro h
    have h : pieces sep s = ps := by simpa using h
    subst h
    exact ⟨readable_pieces hs s, join_pieces hs s⟩
  · rintro ⟨h, rfl⟩
    rw [pieces_join hs h]

example : split "aaaaa".toList "aa".toList = .ok [[], [], "a".toList] ∧
    count "aa".toList "aaaaa".toList = 2 := ⟨by rfl, by simp [count]⟩

/-! ## C54, C55: replace -/

/-- C54.  `replace` equals splitting at what is sought and joining with what is to be
put there.  The call returns even if the replacement contains what is sought. -/
theorem C54_replace (s fnd w : List α) (hf : fnd ≠ []) :
    ∃ ps, split s fnd = .ok ps ∧ replace s fnd w = .ok (join ps w) := by
  refine ⟨_, split_eq hf s, ?_⟩
  have := replaceLoop_eq hf w (s.length + 1) [] s (by omega)
  simpa [replace] using this

/-- C54.  Nothing changes if what is sought does not occur. -/
theorem C54_absent (s fnd w : List α) (h : ¬ Contains fnd s) :
    replace s fnd w = .ok s := by
  have hf : fnd ≠ [] := by
    rintro rfl
    exact h ⟨0, [], s, rfl, rfl⟩
  obtain ⟨ps, h1, h2⟩ := C54_replace s fnd w hf
  rw [split_eq hf, pieces_none (first_none.2 h)] at h1
  cases h1
  rw [h2, join_singleton]

/-- C54.  Replacing by the same text changes nothing. -/
theorem C54_same (s fnd : List α) (hf : fnd ≠ []) : replace s fnd fnd = .ok s := by
  obtain ⟨ps, h1, h2⟩ := C54_replace s fnd fnd hf
  rw [split_eq hf] at h1
  cases h1
  rw [h2, join_pieces hf]

example : replace "xaxa".toList "a".toList "aa".toList = .ok "xaaxaa".toList := by rfl

/-- C54 needs the replacement to be a different object: if the string itself is given as
the replacement, only the first occurrence is replaced. -/
theorem C54_self_replacement (s fnd a b : List α) (hf : fnd ≠ []) (hs : s = a ++ fnd ++ b)
    (hfirst : ∀ i < a.length, ¬ Occurs fnd s i) :
    replaceSelf s fnd = .ok (a ++ s ++ b) := by
  have h : first fnd s = some a.length := first_some.2 ⟨⟨a, b, hs, rfl⟩, hfirst⟩
  unfold replaceSelf
  rw [replaceSelfLoop.eq_def, find_drop (by omega), List.drop_zero, h]
  simp only [Option.map_some, Nat.add_zero]
  rw [replaceAt_append a s fnd s b a.length fnd.length rfl rfl hs, ok_bind]
  have h0 : fnd.isEmpty = false := by simpa using hf
  simp only [h0, Bool.false_eq_true, if_false]
  rw [replaceSelfLoop.eq_def]
  by_cases hj : a.length = 0
  · rw [hj, Nat.zero_add, find_drop (by omega)]
    have hn : first fnd (List.drop (a ++ s ++ b).length (a ++ s ++ b)) = none := by
      rw [first_none, List.drop_of_length_le (by omega)]
      rintro ⟨i, a, b, h, -⟩
      simp at h
      exact hf h.2.1
    rw [hn]
    rfl
  · rw [find_beyond (by omega)]
    rfl

/-- The difference: `replace(s, "a", s)` for `s = "aa"` gives `"aaa"`, while with a copy
of `s` it gives `"aaaa"`. -/
theorem C54_self_replacement_differs :
    replaceSelf "aa".toList "a".toList = .ok "aaa".toList ∧
      replace "aa".toList "a".toList "aa".toList = .ok "aaaa".toList := ⟨by rfl, by rfl⟩

/-- C55.  Replacing the empty string puts the replacement before every character and at
the end. -/
theorem C55_replace_empty (s w : List α) :
    replace s [] w = .ok (w ++ (s.map fun c => c :: w).flatten) := by
  have := replaceLoop_nil w (s.length + 1) [] s (by omega)
  simpa [replace] using this

example : replace "ab".toList [] "-".toList = .ok "-a-b-".toList := by rfl

/-! ## C56: replace_any_of -/

/-- C56.  Every character is replaced on its own: by the replacement if it is listed, by
itself otherwise. -/
theorem C56_replace_any_of (s set w : List α) :
    replaceAnyOf s set w = .ok (s.flatMap fun c => if c ∈ set then w else [c]) := by
  have := replaceAnyLoop_eq set w s.length [] s (by omega)
  simpa [replaceAnyOf] using this

example : replaceAnyOf "a-b_c".toList "-_".toList "_-".toList = .ok "a_-b_-c".toList := by rfl

/-! ## C57, C58: split at whitespace and at any of some characters -/

/-- C58.  `split_any_of` returns exactly the maximal runs of characters that are not
listed, none empty, in order. -/
theorem C58_split_any_of (s set : List α) (ps : List (List α)) :
    splitAnyOf s set = .ok ps ↔ Runs (fun c => decide (c ∈ set)) s ps := by
  have hfun : (fun c => decide (c ∈ set)) = fun c => set.contains c := by
    funext c; simp
  rw [hfun]
  have h : ∀ qs, Runs (fun c => set.contains c) s qs → splitAnyOf s set = .ok qs := by
    intro qs hq
    have := splitAnyLoop_eq set hq s.length [] [] [] (by simp) (by omega)
    simpa [splitAnyOf] using this
  constructor
  · intro hp
    obtain ⟨qs, hq⟩ := runs_exists (fun c => set.contains c) s
    rw [h qs hq] at hp
    cases hp
    exact hq
  · exact h ps

/-- C58.  The call always returns. -/
theorem C58_returns (s set : List α) : ∃ ps, splitAnyOf s set = .ok ps := by
  obtain ⟨ps, h⟩ := runs_exists (fun c => decide (c ∈ set)) s
  exact ⟨ps, (C58_split_any_of s set ps).2 h⟩

example : splitAnyOf "--a-_bc_".toList "-_".toList = .ok ["a".toList, "bc".toList] := by rfl

end

/-- C57.  `split` without a separator returns exactly the maximal runs of characters that
are not spaces, none empty, in order. -/
theorem C57_split_space (ct : Ctype α) (s : List α) (ps : List (List α)) :
    splitSpace ct s = .ok ps ↔ Runs ct.space s ps := by
  have h : ∀ qs, Runs ct.space s qs → splitSpace ct s = .ok qs := by
    intro qs hq
    have := splitSpaceLoop_eq ct hq s.length [] [] (by omega)
    simpa [splitSpace] using this
  constructor
  · intro hp
    obtain ⟨qs, hq⟩ := runs_exists ct.space s
    rw [h qs hq] at hp
    cases hp
    exact hq
  · exact h ps

/-- C57.  The call always returns. -/
theorem C57_returns (ct : Ctype α) (s : List α) : ∃ ps, splitSpace ct s = .ok ps := by
  obtain ⟨ps, h⟩ := runs_exists ct.space s
  exact ⟨ps, (C57_split_space ct s ps).2 h⟩

/-- A classification for the examples. -/
def asciiCtype : Ctype Char where
  space c := c == ' ' || c == '\t' || c == '\n'
  isUpper c := c.isUpper
  isLower c := c.isLower
  toUpper c := c.toUpper
  toLower c := c.toLower

example : splitSpace asciiCtype " ab  c ".toList = .ok ["ab".toList, "c".toList] := by rfl

/-! ## C59: strip -/

/-- C59.  `lstrip` removes all leading spaces and nothing else. -/
theorem C59_lstrip (ct : Ctype α) (s r : List α) :
    lstrip ct s = .ok r ↔ LeftStripped ct.space s r := by
  constructor
  · intro h
    obtain ⟨a, r', rfl, ha, hr⟩ := exists_lstripped ct.space s
    rw [lstrip_eq ct a r' ha hr] at h
    cases h
    exact ⟨⟨a, rfl, ha⟩, hr⟩
  · rintro ⟨⟨a, rfl, ha⟩, hr⟩
    exact lstrip_eq ct a r ha hr

/-- C59.  `rstrip` removes all trailing spaces and nothing else. -/
theorem C59_rstrip (ct : Ctype α) (s r : List α) :
    rstrip ct s = .ok r ↔ RightStripped ct.space s r := by
  constructor
  · intro h
    obtain ⟨r', b, rfl, hb, hr⟩ := exists_rstripped ct.space s
    rw [rstrip_eq ct r' b hb hr] at h
    cases h
    exact ⟨⟨b, rfl, hb⟩, hr⟩
  · rintro ⟨⟨b, rfl, hb⟩, hr⟩
    exact rstrip_eq ct r b hb hr

/-- C59.  `strip` removes all leading and trailing spaces and nothing else. -/
theorem C59_strip (ct : Ctype α) (s r : List α) :
    strip ct s = .ok r ↔ Stripped ct.space s r := by
  have key : ∀ a r b : List α, (∀ c ∈ a, ct.space c = true) → (∀ c ∈ b, ct.space c = true) →
      (∀ c, r.head? = some c → ct.space c = false) →
      (∀ c, r.getLast? = some c → ct.space c = false) → strip ct (a ++ r ++ b) = .ok r := by
    intro a r b ha hb hh hl
    unfold strip
    cases hr : r with
    | nil =>
      have hab : ∀ c ∈ a ++ b, ct.space c = true := by
        intro c hc
        rcases List.mem_append.1 hc with hc | hc
        · exact ha c hc
        · exact hb c hc
      have := rstrip_eq ct [] (a ++ b) hab (by simp)
      rw [List.append_nil, ← List.nil_append (a ++ b), this, ok_bind]
      exact lstrip_eq ct [] [] (by simp) (by simp)
    | cons c t =>
      rw [← hr, rstrip_eq ct (a ++ r) b hb, ok_bind]
      · exact lstrip_eq ct a r ha hh
      · intro d hd
        refine hl d ?_
        rw [List.getLast?_append, hr, List.getLast?_cons] at hd
        rw [hr, List.getLast?_cons]
        simpa using hd
  constructor
  · intro h
    obtain ⟨a, t, rfl, ha, ht⟩ := exists_lstripped ct.space s
    obtain ⟨r', b, rfl, hb, hr⟩ := exists_rstripped ct.space t
    have hh : ∀ c, r'.head? = some c → ct.space c = false := by
      intro c hc
      refine ht c ?_
      cases r' with
      | nil => simp at hc
      | cons d r' => simpa using hc
    rw [← List.append_assoc, key a r' b ha hb hh hr] at h
    cases h
    exact ⟨⟨a, b, by simp, ha, hb⟩, hh, hr⟩
  · rintro ⟨⟨a, b, rfl, ha, hb⟩, hh, hl⟩
    exact key a r b ha hb hh hl

/-- C59.  `strip` is `lstrip` then `rstrip`, as well as the other way round, which is
what the code does. -/
theorem C59_order (ct : Ctype α) (s : List α) :
    strip ct s = (lstrip ct s >>= fun s => rstrip ct s) := by
  obtain ⟨a, t, rfl, ha, ht⟩ := exists_lstripped ct.space s
  rw [lstrip_eq ct a t ha ht, ok_bind]
  obtain ⟨r', b, rfl, hb, hr⟩ := exists_rstripped ct.space t
  rw [rstrip_eq ct r' b hb hr]
  refine (C59_strip ct _ _).2 ⟨⟨a, b, by simp, ha, hb⟩, ?_, hr⟩
  intro c hc
  refine ht c ?_
  cases r' with
  | nil => simp at hc
  | cons d r' => simpa using hc

/-- C59.  Stripping twice is stripping once, and a string of spaces becomes empty. -/
theorem C59_idempotent (ct : Ctype α) (s : List α) :
    ∃ r, strip ct s = .ok r ∧ strip ct r = .ok r ∧
      ((∀ c ∈ s, ct.space c = true) → r = []) := by
  obtain ⟨a, t, rfl, ha, ht⟩ := exists_lstripped ct.space s
  obtain ⟨r, b, rfl, hb, hr⟩ := exists_rstripped ct.space t
  have hh : ∀ c, r.head? = some c → ct.space c = false := by
    intro c hc
    refine ht c ?_
    cases r with
    | nil => simp at hc
    | cons d r => simpa using hc
  refine ⟨r, (C59_strip ct _ _).2 ⟨⟨a, b, by simp, ha, hb⟩, hh, hr⟩,
    (C59_strip ct _ _).2 ⟨⟨[], [], by simp, by simp, by simp⟩, hh, hr⟩, fun hall => ?_⟩
  cases r with
  | nil => rfl
  | cons c r =>
    have h1 := hh c rfl
    have h2 := hall c (by simp)
    rw [h1] at h2
    cases h2

example : strip asciiCtype " \ta b ".toList = .ok "a b".toList := by rfl

/-! ## C75: case -/

/-- C75.  `lower` and `upper` map every character and keep the length. -/
theorem C75_map (ct : Ctype α) (s : List α) :
    (lower ct s).length = s.length ∧ (upper ct s).length = s.length ∧
      (∀ i : Nat, (lower ct s)[i]? = (s[i]?).map ct.toLower) ∧
      ∀ i : Nat, (upper ct s)[i]? = (s[i]?).map ct.toUpper := by
  simp [lower, upper]

/-- C75.  `is_lower` is true exactly if no character is classified as upper case, and
`is_upper` exactly if none is classified as lower case. -/
theorem C75_classify (ct : Ctype α) (s : List α) :
    (Str.isLower ct s = true ↔ ∀ c ∈ s, ct.isUpper c = false) ∧
      (Str.isUpper ct s = true ↔ ∀ c ∈ s, ct.isLower c = false) := by
  constructor
  · induction s with
    | nil => simp [Str.isLower]
    | cons c s ih =>
      rw [Str.isLower]
      cases h : ct.isUpper c <;> simp [h, ih]
  · induction s with
    | nil => simp [Str.isUpper]
    | cons c s ih =>
      rw [Str.isUpper]
      cases h : ct.isLower c <;> simp [h, ih]

/-- C75.  A lower-cased string is lower case, for every locale whose `tolower` never gives
an upper-case character; an upper-cased string is upper case, likewise. -/
theorem C75_is_lower_lower (ct : Ctype α) (s : List α) :
    ((∀ c, ct.isUpper (ct.toLower c) = false) → Str.isLower ct (lower ct s) = true) ∧
      ((∀ c, ct.isLower (ct.toUpper c) = false) → Str.isUpper ct (upper ct s) = true) := by
  constructor
  · intro h
    rw [(C75_classify ct _).1]
    intro c hc
    obtain ⟨d, -, rfl⟩ := List.mem_map.1 hc
    exact h d
  · intro h
    rw [(C75_classify ct _).2]
    intro c hc
    obtain ⟨d, -, rfl⟩ := List.mem_map.1 hc
    exact h d

/-- C75.  Lower-casing twice is lower-casing once in a locale whose `tolower` is
idempotent, and likewise for upper-casing. -/
theorem C75_idempotent (ct : Ctype α) (s : List α) :
    ((∀ c, ct.toLower (ct.toLower c) = ct.toLower c) → lower ct (lower ct s) = lower ct s) ∧
      ((∀ c, ct.toUpper (ct.toUpper c) = ct.toUpper c) → upper ct (upper ct s) = upper ct s) := by
  constructor
  · intro h; simp [lower, h]
  · intro h; simp [upper, h]

/-- Digits are both "lower" and "upper" for these functions: the name promises less than
one may think. -/
theorem C75_both (ct : Ctype α) (s : List α) (h : ∀ c ∈ s, ct.isUpper c = false ∧ ct.isLower c = false) :
    Str.isLower ct s = true ∧ Str.isUpper ct s = true :=
  ⟨(C75_classify ct s).1.2 fun c hc => (h c hc).1, (C75_classify ct s).2.2 fun c hc => (h c hc).2⟩

example : Str.isLower asciiCtype (lower asciiCtype "aB1".toList) = true := by decide

end Pluto.Props
