import Verif.Props.Str
import Verif.Proofs.WordLaws

/-! # C170: words, stripped strings and joined strings fit together -/

namespace Pluto.Props

open Str StrSpec

variable {α : Type}

/-- C170. The words of two strings with a space between them are the words of the first and then those of the
second. -/
theorem C170_append (ct : Ctype α) (s t : List α) (c : α) (hc : ct.space c = true) :
    ∃ ps qs, splitSpace ct s = .ok ps ∧ splitSpace ct t = .ok qs ∧ splitSpace ct (s ++ c :: t) = .ok (ps ++ qs) := by
  obtain ⟨ps, hp⟩ := C57_returns ct s
  obtain ⟨qs, hq⟩ := C57_returns ct t
  exact ⟨ps, qs, hp, hq, (C57_split_space ct _ _).2
    (runs_append ((C57_split_space ct _ _).1 hp) hc ((C57_split_space ct _ _).1 hq))⟩

/-- C170. Stripping a string, on one side or on both, does not change its words. -/
theorem C170_strip (ct : Ctype α) (s : List α) :
    ∃ l r b, lstrip ct s = .ok l ∧ rstrip ct s = .ok r ∧ strip ct s = .ok b ∧
      splitSpace ct l = splitSpace ct s ∧ splitSpace ct r = splitSpace ct s ∧
      splitSpace ct b = splitSpace ct s := by
  have key : ∀ a r b : List α, (∀ c ∈ a, ct.space c = true) → (∀ c ∈ b, ct.space c = true) →
      splitSpace ct r = splitSpace ct (a ++ r ++ b) := by
    intro a r b ha hb
    obtain ⟨ps, hp⟩ := C57_returns ct r
    rw [hp]
    exact ((C57_split_space ct _ _).2 (runs_trailing (runs_gaps ha ((C57_split_space ct _ _).1 hp)) hb)).symm
  obtain ⟨a, l, rfl, ha, hl⟩ := exists_lstripped ct.space s
  obtain ⟨r, b, hr, hb, hr'⟩ := exists_rstripped ct.space (a ++ l)
  obtain ⟨m, hm, -⟩ := C59_idempotent ct (a ++ l)
  refine ⟨l, r, m, lstrip_eq ct a l ha hl, ?_, hm, ?_, ?_, ?_⟩
  · rw [hr]; exact rstrip_eq ct r b hb hr'
  · simpa using key a l [] ha (by simp)
  · rw [hr]; simpa using key [] r b (by simp) hb
  · obtain ⟨⟨x, y, e, hx, hy⟩, -⟩ := (C59_strip ct _ _).1 hm
    rw [e]
    exact key x m y hx hy

/-- C170. The words of a string, joined with any white space, have the same words; so joining words with a space
gives each list of words a string of its own. -/
theorem C170_join (ct : Ctype α) (ws : List (List α)) (sep : List α) (hs : sep ≠ [])
    (hg : ∀ c ∈ sep, ct.space c = true) :
    splitSpace ct (join ws sep) = .ok ws ↔ ∀ w ∈ ws, w ≠ [] ∧ ∀ c ∈ w, ct.space c = false := by
  constructor
  · intro h
    exact runs_words ((C57_split_space ct _ _).1 h)
  · intro h
    have h1 := runs_join hs hg ws fun p hp => (h p hp).2
    rw [List.filter_eq_self.2 (by
      intro p hp
      cases p with
      | nil => exact absurd rfl (h [] hp).1
      | cons => rfl)] at h1
    exact (C57_split_space ct _ _).2 h1

/-- C170. Joining the words of a string with a space is a normal form: it has the words of the string, nothing is
left to strip, and doing it again changes nothing; two strings have the same normal form exactly if they have the
same words. -/
theorem C170_normal (ct : Ctype α) (s t : List α) (d : α) (hd : ct.space d = true) :
    ∃ ps qs, splitSpace ct s = .ok ps ∧ splitSpace ct t = .ok qs ∧
      splitSpace ct (join ps [d]) = .ok ps ∧ strip ct (join ps [d]) = .ok (join ps [d]) ∧
      (join ps [d] = join qs [d] ↔ splitSpace ct s = splitSpace ct t) := by
  obtain ⟨ps, hp⟩ := C57_returns ct s
  obtain ⟨qs, hq⟩ := C57_returns ct t
  have hg : ∀ c ∈ [d], ct.space c = true := by simpa using hd
  have again : ∀ {u : List α} {rs : List (List α)}, splitSpace ct u = .ok rs →
      splitSpace ct (join rs [d]) = .ok rs := fun h =>
    (C170_join ct _ [d] (by simp) hg).2 (runs_words ((C57_split_space ct _ _).1 h))
  refine ⟨ps, qs, hp, hq, again hp, ?_, ?_⟩
  · have hw := runs_words ((C57_split_space ct _ _).1 hp)
    refine (C59_strip ct _ _).2 ⟨⟨[], [], by simp, by simp, by simp⟩, ?_, ?_⟩
    · intro c hc
      cases ps with
      | nil => cases hc
      | cons p ps =>
        obtain ⟨h1, h2⟩ := hw p List.mem_cons_self
        rw [join_cons] at hc
        cases p with
        | nil => exact absurd rfl h1
        | cons x p =>
          simp only [List.cons_append, List.head?_cons, Option.some.injEq] at hc
          exact h2 c (by simp [hc])
    · clear hp
      induction ps with
      | nil => intro c hc; cases hc
      | cons p ps ih =>
        intro c hc
        obtain ⟨h1, h2⟩ := hw p List.mem_cons_self
        cases ps with
        | nil =>
          rw [join_cons] at hc
          simp only [List.map_nil, List.flatten_nil, List.append_nil] at hc
          exact h2 c (List.mem_of_getLast? hc)
        | cons q ps =>
          have hw' := fun w hw' => hw w (List.mem_cons_of_mem p hw')
          have e : join (p :: q :: ps) [d] = p ++ [d] ++ join (q :: ps) [d] := by
            rw [join_cons, join_cons]; simp
          have hne : join (q :: ps) [d] ≠ [] := by
            rw [join_cons]
            intro h
            exact (hw' q List.mem_cons_self).1 (List.append_eq_nil_iff.1 h).1
          rw [e, List.getLast?_append] at hc
          refine ih hw' c ?_
          cases h : (join (q :: ps) [d]).getLast? with
          | none => exact absurd (List.getLast?_eq_none_iff.1 h) hne
          | some x => rw [h] at hc; exact hc
  · rw [hp, hq]
    constructor
    · intro h
      have := again hp
      rw [h, again hq] at this
      exact this.symm
    · intro h
      cases h
      rfl

/-- C170. `upper` and `lower` keep the words of a string, if the locale keeps white space and only white space white
space. -/
theorem C170_case (ct : Ctype α) (s : List α) (hu : ∀ c ∈ s, ct.space (ct.toUpper c) = ct.space c)
    (hl : ∀ c ∈ s, ct.space (ct.toLower c) = ct.space c) :
    ∃ ps, splitSpace ct s = .ok ps ∧ splitSpace ct (upper ct s) = .ok (ps.map (upper ct)) ∧
      splitSpace ct (lower ct s) = .ok (ps.map (lower ct)) := by
  obtain ⟨ps, hp⟩ := C57_returns ct s
  have h := (C57_split_space ct _ _).1 hp
  exact ⟨ps, hp, (C57_split_space ct _ _).2 (runs_map ct.toUpper hu h),
    (C57_split_space ct _ _).2 (runs_map ct.toLower hl h)⟩

/-- C170. `split_any_of` with all white space of the string is `split` on white space. -/
theorem C170_any_of [DecidableEq α] (ct : Ctype α) (s set : List α)
    (h : ∀ c ∈ s, ct.space c = true ↔ c ∈ set) : splitAnyOf s set = splitSpace ct s := by
  obtain ⟨ps, hp⟩ := C57_returns ct s
  rw [hp]
  refine (C58_split_any_of s set ps).2 ?_
  have := runs_map (gap' := fun c => decide (c ∈ set)) id (fun c hc => by
    by_cases hm : c ∈ set
    · simp [hm, (h c hc).2 hm]
    · have hf : ct.space c = false := by
        rw [← Bool.not_eq_true]; exact fun h' => hm ((h c hc).1 h')
      simp [hm, hf]) ((C57_split_space ct _ _).1 hp)
  simpa using this

/-- C170. `split_any_of` with one character gives the pieces of `split` that are not empty. -/
theorem C170_filter [DecidableEq α] (s : List α) (d : α) :
    ∃ ps, split s [d] = .ok ps ∧ splitAnyOf s [d] = .ok (ps.filter fun p => !p.isEmpty) := by
  obtain ⟨ps, h1, h2⟩ := C51_join_split s [d]
  obtain ⟨ps', h3, h4, -⟩ := C53_pieces s [d] (by simp)
  rw [h1] at h3
  cases h3
  refine ⟨ps, h1, ?_⟩
  refine (C58_split_any_of s [d] _).2 ?_
  have := runs_join (gap := fun c => decide (c ∈ [d])) (sep := [d]) (by simp) (by simp) ps (by
    intro p hp c hc
    rw [decide_eq_false_iff_not, List.mem_singleton]
    rintro rfl
    obtain ⟨x, y, hxy⟩ := List.append_of_mem hc
    exact h4 p hp ⟨x.length, x, y, by simp [hxy], rfl⟩)
  rwa [h2] at this

/-- C170. For `split_any_of` the same laws hold: pieces joined with separators are found again. -/
theorem C170_any_of_join [DecidableEq α] (ws : List (List α)) (sep set : List α) (hs : sep ≠ [])
    (hg : ∀ c ∈ sep, c ∈ set) :
    splitAnyOf (join ws sep) set = .ok ws ↔ ∀ w ∈ ws, w ≠ [] ∧ ∀ c ∈ w, c ∉ set := by
  constructor
  · intro h w hw
    obtain ⟨h1, h2⟩ := runs_words ((C58_split_any_of _ _ _).1 h) w hw
    exact ⟨h1, fun c hc => by simpa using h2 c hc⟩
  · intro h
    have h1 := runs_join (gap := fun c => decide (c ∈ set)) hs (by simpa using hg) ws
      fun p hp c hc => by simpa using (h p hp).2 c hc
    rw [List.filter_eq_self.2 (by
      intro p hp
      cases p with
      | nil => exact absurd rfl (h [] hp).1
      | cons => rfl)] at h1
    exact (C58_split_any_of _ _ _).2 h1

/-- The conditions can be met: a space in `"  a b"` and `"\tc "`, and its normal form. -/
example : splitSpace asciiCtype "  a b \tc ".toList = .ok ["a".toList, "b".toList, "c".toList] ∧
    join ["a".toList, "b".toList, "c".toList] " ".toList = "a b c".toList ∧
    splitSpace asciiCtype "a b c".toList = .ok ["a".toList, "b".toList, "c".toList] := ⟨by rfl, by rfl, by rfl⟩

example : asciiCtype.space ' ' = true ∧ (∀ c ∈ "a \tB".toList, asciiCtype.space (asciiCtype.toUpper c) =
    asciiCtype.space c) ∧ (∀ c ∈ "a \tB".toList, asciiCtype.space c = true ↔ c ∈ " \t".toList) := by decide

/-- Not every piece of `split` is a word, so the empty ones have to be left out. -/
example : split "a--b".toList "-".toList = .ok ["a".toList, [], "b".toList] ∧
    splitAnyOf "a--b".toList "-".toList = .ok ["a".toList, "b".toList] := ⟨by rfl, by rfl⟩

end Pluto.Props
