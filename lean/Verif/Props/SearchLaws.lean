import Verif.Props.Seq
import Verif.Props.SeqLaws
import Verif.Props.Str

/-!
# C168: what the searching functions tell fits together
-/

namespace Pluto.Props
open Pluto.Seq Pluto.SeqSpec
variable {α β γ : Type}

/-- C168: `starts_with` is true exactly if something is found, and found at the beginning. -/
theorem C168_starts (p : α → β → Bool) (l : List α) (r : List β) :
    startsWith p l r = true ↔ Seq.contains p l r = true ∧ Seq.find p l r = 0 := by
  rw [startsWith_iff, contains_iff]
  have hm : (∃ m b, l = m ++ b ∧ List.Forall₂ (fun l r => p l r = true) m r) ↔ MatchesAt p l r 0 := by
    constructor
    · rintro ⟨m, b, h1, h2⟩; exact ⟨[], m, b, by simpa using h1, rfl, h2⟩
    · rintro ⟨a, m, b, h1, h2, h3⟩
      rw [List.length_eq_zero_iff] at h2; subst h2
      exact ⟨m, b, by simpa using h1, h3⟩
  rw [hm]
  have hs := stdSearch_spec p l r
  constructor
  · intro h
    refine ⟨⟨0, h⟩, ?_⟩
    rcases hs with ⟨_, h2⟩ | ⟨_, h2⟩
    · by_contra hne
      exact h2 0 (by unfold Seq.find at hne; omega) h
    · exact absurd h (h2 0)
  · rintro ⟨⟨i, hi⟩, h0⟩
    unfold Seq.find at h0
    rw [h0] at hs
    rcases hs with ⟨h1, _⟩ | ⟨_, h2⟩
    · exact h1
    · exact absurd hi (h2 i)

example : startsWith (· == ·) "abcab".toList "ab".toList = true := by decide

/-- C168: `ends_with` is true exactly if something is found, and found last at the end. -/
theorem C168_ends (p : α → β → Bool) (l : List α) (r : List β) :
    endsWith p l r = .ok true ↔ Seq.contains p l r = true ∧ Seq.rfind p l r + r.length = l.length := by
  obtain ⟨b, hb, hiff⟩ := endsWith_iff (p := p) (left := l) (right := r)
  rw [hb, contains_iff]
  have hlen : ∀ i, MatchesAt p l r i → i + r.length ≤ l.length := by
    rintro i ⟨a, m, b, h1, h2, h3⟩
    have := h3.length_eq
    subst h1; simp only [List.length_append]; omega
  have hm : b = true ↔ ∃ i, MatchesAt p l r i ∧ i + r.length = l.length := by
    rw [hiff]
    constructor
    · rintro ⟨t, m, h1, h2⟩
      refine ⟨t.length, ⟨t, m, [], by simpa using h1, rfl, h2⟩, ?_⟩
      rw [h1, List.length_append, h2.length_eq]
    · rintro ⟨i, ⟨a, m, c, h1, h2, h3⟩, h4⟩
      have hl := h3.length_eq
      have : c = [] := by
        rw [← List.length_eq_zero_iff]
        rw [h1] at h4; simp only [List.length_append] at h4; omega
      subst this
      exact ⟨a, m, by simpa using h1, h3⟩
  have hs := stdFindEnd_spec p l r
  have hb' : (Except.ok b : Res Bool) = .ok true ↔ b = true := by constructor <;> intro h <;> simp_all
  rw [hb', hm]
  unfold Seq.rfind
  constructor
  · rintro ⟨i, hi, he⟩
    refine ⟨⟨i, hi⟩, ?_⟩
    rcases hs with ⟨h1, h2⟩ | ⟨_, h2⟩
    · have a1 := hlen _ h1
      by_contra hne
      exact h2 i (by omega) hi
    · exact absurd hi (h2 i)
  · rintro ⟨⟨i, hi⟩, he⟩
    rcases hs with ⟨h1, _⟩ | ⟨_, h2⟩
    · exact ⟨_, h1, he⟩
    · exact absurd hi (h2 i)

example : endsWith (· == ·) "abcab".toList "ab".toList = .ok true := by decide

/-- C168: `ends_with` is `starts_with` of what is reversed. -/
theorem C168_reverse (p : α → β → Bool) (l : List α) (r : List β) :
    endsWith p l r = .ok (startsWith p (reverse l) (reverse r)) := by
  obtain ⟨b, hb, hiff⟩ := endsWith_iff (p := p) (left := l) (right := r)
  rw [hb]
  congr 1
  rw [Bool.eq_iff_iff, hiff, startsWith_iff]
  unfold reverse
  constructor
  · rintro ⟨t, m, rfl, h2⟩
    exact ⟨m.reverse, t.reverse, by simp, List.forall₂_reverse_iff.2 h2⟩
  · rintro ⟨m, t, h1, h2⟩
    refine ⟨t.reverse, m.reverse, ?_, ?_⟩
    · rw [← List.reverse_append, ← h1, List.reverse_reverse]
    · have := List.forall₂_reverse_iff.2 h2
      rwa [List.reverse_reverse] at this

/-- C168: what is contained in something contained is contained, also with predicates that fit together. -/
theorem C168_transitive (p : α → β → Bool) (q : β → γ → Bool) (pq : α → γ → Bool)
    (h : ∀ a b c, p a b = true → q b c = true → pq a c = true) (l : List α) (m : List β) (r : List γ)
    (h1 : Seq.contains p l m = true) (h2 : Seq.contains q m r = true) : Seq.contains pq l r = true := by
  rw [contains_iff] at *
  obtain ⟨i, a, m1, b, rfl, rfl, hm⟩ := h1
  obtain ⟨j, c, m2, d, hd, rfl, hr⟩ := h2
  subst hd
  have split2 : ∀ (x : List α) (y z : List β), List.Forall₂ (fun l r => p l r = true) x (y ++ z) →
      ∃ x1 x2, x = x1 ++ x2 ∧ List.Forall₂ (fun l r => p l r = true) x1 y ∧ List.Forall₂ (fun l r => p l r = true) x2 z :=
    fun x y z hx => ⟨_, _, (List.take_append_drop y.length x).symm, List.forall₂_take_append x y z hx,
      List.forall₂_drop_append x y z hx⟩
  obtain ⟨x1, x2, rfl, hx1, hx2⟩ := split2 _ _ _ hm
  obtain ⟨y1, y2, rfl, hy1, hy2⟩ := split2 _ _ _ hx1
  refine ⟨(a ++ y1).length, a ++ y1, y2, x2 ++ b, by simp, rfl, ?_⟩
  clear hm hx1
  induction hy2 generalizing r with
  | nil => cases hr; exact .nil
  | cons hab _ ih =>
    cases hr with
    | cons hbc hr => exact .cons (h _ _ _ hab hbc) (ih _ hr)

example : Seq.contains (· == ·) "key=value".toList "y=v".toList = true ∧ Seq.contains (· == ·) "y=v".toList "=".toList = true := by
  decide

/-- C168: where something is found, `slice` returns it; before that it does not begin anywhere, and after the last place
neither. -/
theorem C168_slice [DecidableEq α] (l r : List α) (h : Seq.contains (· == ·) l r = true) :
    (slice l (Seq.find (· == ·) l r) (Seq.find (· == ·) l r + r.length) = .ok r) ∧
      (r ≠ [] → slice l (Seq.rfind (· == ·) l r) (Seq.rfind (· == ·) l r + r.length) = .ok r ∧
        Seq.find (· == ·) l r ≤ Seq.rfind (· == ·) l r) := by
  rw [contains_iff] at h
  obtain ⟨i, hi⟩ := h
  have key : ∀ i, MatchesAt (· == ·) l r i → slice l i (i + r.length) = .ok r := by
    rintro i ⟨a, m, b, h1, h2, h3⟩
    have hm : m = r := by
      have : List.Forall₂ (fun x y => x = y) m r := h3.imp fun _ _ h => by simpa using h
      exact List.forall₂_eq_eq_eq ▸ this
    subst hm
    rw [slice_eq, h1]
    have e1 : (pyBound (a ++ m ++ b).length (i : Int)).toNat = a.length := by
      unfold pyBound; simp only [List.length_append]; split <;> omega
    have e2 : (pyBound (a ++ m ++ b).length ((i : Int) + m.length)).toNat = a.length + m.length := by
      unfold pyBound; simp only [List.length_append]; split <;> omega
    rw [e1, e2]
    simp
  have hs := stdSearch_spec (· == ·) l r
  have he := stdFindEnd_spec (· == ·) l r
  have hs1 : MatchesAt (· == ·) l r (Seq.find (· == ·) l r) ∧ ∀ j, j < Seq.find (· == ·) l r → ¬ MatchesAt (· == ·) l r j := by
    rcases hs with h1 | ⟨_, h2⟩
    · exact h1
    · exact absurd hi (h2 i)
  refine ⟨key _ hs1.1, fun hr => ?_⟩
  rcases he with ⟨h1, _⟩ | ⟨_, h2⟩
  · refine ⟨key _ h1, ?_⟩
    by_contra hlt
    exact hs1.2 (Seq.rfind (· == ·) l r) (by omega) h1
  · exact absurd hi (h2 i)

theorem contains_occurs [DecidableEq α] (l r : List α) : Seq.contains (· == ·) l r = true ↔ StrSpec.Contains r l := by
  rw [(C63_predicates l r).2.2.2.2]
  constructor
  · rintro ⟨x, y, h⟩; exact ⟨x.length, x, y, h, rfl⟩
  · rintro ⟨i, x, y, h, _⟩; exact ⟨x, y, h⟩

/-- C168: `split` finds more than one piece exactly if the string contains the separator, and its first piece ends where
`find` finds that. -/
theorem C168_split [DecidableEq α] (s sep : List α) (hs : sep ≠ []) :
    ∃ p ps, Str.split s sep = .ok (p :: ps) ∧ (ps ≠ [] ↔ Seq.contains (· == ·) s sep = true) ∧
      slice s 0 (Seq.find (· == ·) s sep) = .ok p := by
  obtain ⟨qs, hq, hp, _⟩ := C53_pieces s sep hs
  obtain ⟨hr, hj⟩ := (C53_unique s sep hs qs).1 hq
  have hsl : ∀ (a b : List α), s = a ++ b → slice s 0 (a.length : Nat) = .ok a := by
    intro a b h
    rw [slice_eq, h]
    have e1 : (pyBound (a ++ b).length 0).toNat = 0 := by unfold pyBound; split <;> omega
    have e2 : (pyBound (a ++ b).length (a.length : Nat)).toNat = a.length := by
      unfold pyBound; simp only [List.length_append]; split <;> omega
    rw [e1, e2]; simp
  match qs, hq, hr, hj, hp with
  | [], _, hr, _, _ => exact absurd hr (by simp [StrSpec.Readable])
  | [p], hq, hr, hj, hp =>
    have hj' : p = s := by simpa [(C51_join_meaning [p] ([] : List Unit) (fun _ => []) sep).1] using hj
    subst hj'
    refine ⟨p, [], hq, ?_, ?_⟩
    · rw [contains_occurs]
      exact ⟨fun h => absurd rfl h, fun h => absurd h hr⟩
    · have hf : Seq.find (· == ·) p sep = p.length := by
        rcases stdSearch_spec (· == ·) p sep with ⟨h1, _⟩ | ⟨h1, _⟩
        · exact absurd ((contains_occurs p sep).1 (contains_iff.2 ⟨_, h1⟩)) hr
        · exact h1
      rw [hf]; exact hsl p [] (by simp)
  | p :: q :: ps, hq, hr, hj, hp =>
    have hj' : s = p ++ sep ++ Str.join (q :: ps) sep := by
      rw [← hj, (C51_join_meaning (p :: q :: ps) ([] : List Unit) (fun _ => []) sep).1,
        (C51_join_meaning (q :: ps) ([] : List Unit) (fun _ => []) sep).1]
      simp [List.intercalate, List.intersperse]
    have hc : StrSpec.Contains sep s := ⟨p.length, p, _, hj', rfl⟩
    refine ⟨p, q :: ps, hq, by simpa using (contains_occurs s sep).2 hc, ?_⟩
    have hm : ∀ i, MatchesAt (· == ·) s sep i ↔ StrSpec.Occurs sep s i := by
      intro i
      constructor
      · rintro ⟨a, m, b, h1, h2, h3⟩
        have : List.Forall₂ (fun x y => x = y) m sep := h3.imp fun _ _ h => by simpa using h
        rw [List.forall₂_eq_eq_eq] at this
        exact ⟨a, b, this ▸ h1, h2⟩
      · rintro ⟨a, b, h1, h2⟩
        exact ⟨a, sep, b, h1, h2, List.forall₂_same.2 (by simp)⟩
    have hf : Seq.find (· == ·) s sep = p.length := by
      rcases stdSearch_spec (· == ·) s sep with ⟨h1, h2⟩ | ⟨_, h2⟩
      · have hle : Seq.find (· == ·) s sep ≤ p.length := by
          by_contra hlt
          exact h2 p.length (by unfold Seq.find at hlt; omega) ((hm _).2 ⟨p, _, hj', rfl⟩)
        obtain ⟨a, b, h3, h4⟩ := (hm _).1 h1
        change a.length = Seq.find (· == ·) s sep at h4
        rw [← h4] at hle ⊢
        refine hr.1 a.length ?_
        have ht : a ++ sep = (p ++ sep).take (a ++ sep).length := by
          have e : s.take (a ++ sep).length = a ++ sep := by rw [h3]; exact List.take_left
          have e2 : s.take (a ++ sep).length = (p ++ sep).take (a ++ sep).length := by
            rw [hj', List.take_append_of_le_length (by simp only [List.length_append]; omega)]
          exact e.symm.trans e2
        refine ⟨a, (p ++ sep).drop (a ++ sep).length, ?_, rfl⟩
        conv_lhs => rw [← List.take_append_drop (a ++ sep).length (p ++ sep)]
        rw [← ht]
      · exact absurd ((hm _).2 ⟨p, _, hj', rfl⟩) (h2 p.length)
    rw [hf]
    exact hsl p (sep ++ Str.join (q :: ps) sep) (by rw [hj']; simp)

example : Str.split "key=a=b".toList "=".toList = .ok ["key".toList, "a".toList, "b".toList] ∧
    Seq.find (· == ·) "key=a=b".toList "=".toList = 3 := ⟨by rfl, by decide⟩

/-- C168: `contains` is true exactly if `find` does not return the end, unless what is looked for is empty. -/
theorem C168_end (p : α → β → Bool) (l : List α) (r : List β) (hr : r ≠ []) :
    (Seq.contains p l r = true ↔ Seq.find p l r ≠ l.length) ∧ (Seq.contains p l r = true ↔ Seq.rfind p l r ≠ l.length) := by
  have hlen : ∀ i, MatchesAt p l r i → i ≠ l.length := by
    rintro i ⟨a, m, b, h1, h2, h3⟩
    have := h3.length_eq
    have : 0 < r.length := List.length_pos_iff.2 hr
    subst h1; simp only [List.length_append]; omega
  rw [contains_iff]
  constructor
  · rcases stdSearch_spec p l r with ⟨h1, _⟩ | ⟨h1, h2⟩
    · exact ⟨fun _ => hlen _ h1, fun _ => ⟨_, h1⟩⟩
    · exact ⟨fun ⟨i, hi⟩ => absurd hi (h2 i), fun h => absurd h1 h⟩
  · rcases stdFindEnd_spec p l r with ⟨h1, _⟩ | ⟨h1, h2⟩
    · exact ⟨fun _ => hlen _ h1, fun _ => ⟨_, h1⟩⟩
    · exact ⟨fun ⟨i, hi⟩ => absurd hi (h2 i), fun h => absurd h1 h⟩

/-- The empty string is contained in the empty string, although `find` returns the end. -/
example : Seq.contains (· == ·) "".toList "".toList = true ∧ Seq.find (· == ·) "".toList "".toList = "".toList.length := by decide

theorem isIequal_upper [DecidableEq α] (ct : Str.Ctype α) (a b : α) : isIequal ct a b = (ct.toUpper a == ct.toUpper b) := by
  unfold isIequal
  by_cases h : a = b
  · subst h; simp
  · simp [h]

theorem allMatch_upper [DecidableEq α] (ct : Str.Ctype α) (l r : List α) :
    allMatch (isIequal ct) l r = allMatch (· == ·) (Str.upper ct l) (Str.upper ct r) := by
  unfold Str.upper
  induction l generalizing r with
  | nil => cases r <;> rfl
  | cons a l ih =>
    cases r with
    | nil => rfl
    | cons b r => simp only [List.map_cons, allMatch, ih, isIequal_upper]

/-- C168: the case-insensitive forms give the same as the others for the strings in upper case. -/
theorem C168_insensitive [DecidableEq α] (ct : Str.Ctype α) (l r : List α) :
    Seq.find (isIequal ct) l r = Seq.find (· == ·) (Str.upper ct l) (Str.upper ct r) ∧
      Seq.rfind (isIequal ct) l r = Seq.rfind (· == ·) (Str.upper ct l) (Str.upper ct r) ∧
      Seq.contains (isIequal ct) l r = Seq.contains (· == ·) (Str.upper ct l) (Str.upper ct r) ∧
      startsWith (isIequal ct) l r = startsWith (· == ·) (Str.upper ct l) (Str.upper ct r) ∧
      endsWith (isIequal ct) l r = endsWith (· == ·) (Str.upper ct l) (Str.upper ct r) := by
  have hm : matchesAt (isIequal ct) l r = matchesAt (· == ·) (Str.upper ct l) (Str.upper ct r) := by
    funext i
    unfold matchesAt
    rw [allMatch_upper]
    simp [Str.upper, List.map_take, List.map_drop]
  have hl : ∀ x : List α, (Str.upper ct x).length = x.length := fun x => by simp [Str.upper]
  have he : ∀ x : List α, (Str.upper ct x).isEmpty = x.isEmpty := fun x => by simp [Str.upper]
  have hf : Seq.find (isIequal ct) l r = Seq.find (· == ·) (Str.upper ct l) (Str.upper ct r) := by
    unfold Seq.find stdSearch
    rw [hm, hl]
  have hst : ∀ l r : List α, startsWith (isIequal ct) l r = startsWith (· == ·) (Str.upper ct l) (Str.upper ct r) := by
    intro l r
    unfold Str.upper
    induction r generalizing l with
    | nil => cases l <;> rfl
    | cons b r ih =>
      cases l with
      | nil => rfl
      | cons a l => simp only [List.map_cons, startsWith, ih, isIequal_upper]
  refine ⟨hf, ?_, ?_, hst l r, ?_⟩
  · unfold Seq.rfind stdFindEnd
    rw [hm, hl, he]
  · unfold Seq.contains
    rw [hf, hl, he]
  · rw [C168_reverse, C168_reverse, hst]
    simp [Str.upper, reverse, List.map_reverse]

end Pluto.Props
