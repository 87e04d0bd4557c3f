import Verif.Proofs.Alias
import Verif.Props.Str

/-!
# Properties of `replace` and `replace_any_of` with one object for several parameters (C107)

`.self` is the string that is changed, passed for the parameter; `.other t` is another object with the value `t`.
-/

namespace Pluto.Props
open Pluto.Str Pluto.StrSpec Pluto.Alias

variable {α : Type} [DecidableEq α]

/-- C107. With three different objects the functions are those of C54-C56. -/
theorem C107_distinct (s fnd w : List α) :
    Alias.replace s (.other fnd) (.other w) = Str.replace s fnd w ∧
      Alias.replaceAnyOf s (.other fnd) (.other w) = Str.replaceAnyOf s fnd w :=
  ⟨replaceLoop_other fnd w _ s 0, replaceAnyLoop_other fnd w _ s 0⟩

/-- C107 (partial: the string is passed as what is sought). The result is that for a copy: `replace` yields the
replacement, `replace_any_of` as many replacements as there were characters. -/
theorem C107_sought_partial (s w : List α) :
    (Alias.replace s .self (.other w) = .ok w ∧ Str.replace s s w = .ok w) ∧
      Alias.replaceAnyOf s .self (.other w) = .ok (s.flatMap fun _ => w) ∧
      Str.replaceAnyOf s s w = .ok (s.flatMap fun _ => w) := by
  refine ⟨⟨replace_find_self s (.other w), ?_⟩, ?_, ?_⟩
  · by_cases hs : s = []
    · subst hs
      rw [C55_replace_empty]
      simp
    · obtain ⟨ps, h1, h2⟩ := C54_replace s s w hs
      rw [h2]
      rw [split_eq hs] at h1
      cases h1
      have hf : first s s = some 0 := first_some.2 ⟨⟨[], [], by simp, rfl⟩, by simp⟩
      have hn : first s ([] : List α) = none := by
        rw [first_none]
        rintro ⟨i, a, b, h, -⟩
        simp at h
        exact hs h.2.1
      rw [pieces_some hs hf, Nat.zero_add, List.drop_length, pieces_none hn, join_cons_cons, join_singleton]
      simp
  · have := replaceAnyLoop_find_self w s [] s.length (by omega)
    simpa [Alias.replaceAnyOf] using this
  · rw [C56_replace_any_of]
    congr 1
    have : ∀ t : List α, (∀ c ∈ t, c ∈ s) →
        (t.flatMap fun c => if c ∈ s then w else [c]) = t.flatMap fun _ => w := by
      intro t
      induction t with
      | nil => intro _; rfl
      | cons c t ih =>
        intro h
        rw [List.flatMap_cons, List.flatMap_cons, if_pos (h c (by simp)), ih fun d hd => h d (by simp [hd])]
    exact this s fun _ h => h

/-- C107 (partial: one occurrence at most). `replace` by the string itself has the result for a copy exactly if there are
no two occurrences that do not overlap. -/
theorem C107_replacement_partial (s fnd : List α) (hf : fnd ≠ []) :
    Alias.replace s (.other fnd) .self = Str.replace s fnd s ↔ count fnd s ≤ 1 := by
  have he : Alias.replace s (.other fnd) .self = replaceSelf s fnd := replaceLoop_self fnd _ s 0
  obtain ⟨ps, h1, h2⟩ := C54_replace s fnd s hf
  rw [split_eq hf] at h1
  cases h1
  rw [he, h2]
  have hlen := length_pieces hf s
  have hne := pieces_ne_nil hf s
  cases h : first fnd s with
  | none =>
    have h0 : Str.replace s fnd s = .ok s := C54_absent s fnd s (first_none.1 h)
    have hself : replaceSelf s fnd = .ok s := by
      unfold replaceSelf
      rw [replaceSelfLoop.eq_def, find_drop (by omega), List.drop_zero, h]
      rfl
    rw [hself, ← h2, h0]
    rw [pieces_none h] at hlen
    simp at hlen
    simp [hlen]
  | some j =>
    obtain ⟨⟨a, b, hs, rfl⟩, h4⟩ := first_some.1 h
    rw [C54_self_replacement s fnd a b hf hs h4]
    have hdrop : List.drop (a.length + fnd.length) s = b := by
      rw [hs, ← List.length_append, List.drop_left]
    have htake : List.take a.length s = a := by
      rw [hs, List.append_assoc, List.take_left]
    have hp := pieces_some hf h
    rw [hdrop, htake] at hp
    constructor
    · intro heq
      have heq : a ++ s ++ b = join (pieces fnd s) s := by injection heq
      have hl := congrArg List.length heq
      rw [length_join s _ hne] at hl
      have hl' := congrArg List.length (join_pieces hf s)
      rw [length_join fnd _ hne] at hl'
      rw [hlen, Nat.add_sub_cancel] at hl hl'
      have hs' := congrArg List.length hs
      simp only [List.length_append] at hl hs'
      refine Nat.le_of_not_lt fun hc => ?_
      have hpos := List.length_pos_iff.2 hf
      generalize hn : count fnd s = n at *
      generalize (List.map List.length (pieces fnd s)).sum = m at *
      obtain ⟨k, rfl⟩ : ∃ k, n = k + 2 := ⟨n - 2, by omega⟩
      generalize s.length = x at *
      generalize fnd.length = y at *
      simp only [Nat.add_mul] at hl hl'
      have hk : k * y ≤ k * x := Nat.mul_le_mul_left k (by omega)
      omega
    · intro hc
      rw [hp] at hlen ⊢
      have hb : (pieces fnd b).length = 1 := by
        have := List.length_pos_iff.2 (pieces_ne_nil hf b)
        simp only [List.length_cons] at hlen
        omega
      have hb' : pieces fnd b = [b] := by
        have hj := join_pieces hf b
        obtain ⟨q, hq⟩ := List.length_eq_one_iff.1 hb
        rw [hq, join_singleton] at hj
        rw [hq, hj]
      rw [hb', join_cons_cons, join_singleton]

/-- C107 fails for `replace_any_of` with the string itself as the replacement: only the first character listed is
replaced. -/
theorem C107_fails_any_of (s set : List α) :
    (∀ a c b, s = a ++ c :: b → (∀ x ∈ a, x ∉ set) → c ∈ set →
      Alias.replaceAnyOf s (.other set) .self = .ok (a ++ s ++ b)) ∧
      (Alias.replaceAnyOf s (.other set) .self = Str.replaceAnyOf s set s ↔ s.countP (· ∈ set) ≤ 1) := by
  have hfirst : ∀ a c b, s = a ++ c :: b → (∀ x ∈ a, x ∉ set) → c ∈ set →
      Alias.replaceAnyOf s (.other set) .self = .ok (a ++ s ++ b) :=
    fun a c b hs ha hc => replaceAnyLoop_self (.other set) s a b c hs ha hc
  refine ⟨hfirst, ?_⟩
  have hid : ∀ t : List α, (∀ c ∈ t, c ∉ set) → (t.flatMap fun c => if c ∈ set then s else [c]) = t := by
    intro t
    induction t with
    | nil => intro _; rfl
    | cons c t ih =>
      intro h
      rw [List.flatMap_cons, if_neg (h c (by simp)), ih fun d hd => h d (by simp [hd])]
      rfl
  have hl : ∀ t : List α, (t.flatMap fun c => if c ∈ set then s else [c]).length + t.countP (· ∈ set) =
      t.length + t.countP (· ∈ set) * s.length := by
    intro t
    induction t with
    | nil => simp
    | cons c t ih =>
      rw [List.flatMap_cons, List.length_append, List.countP_cons]
      by_cases hc : c ∈ set
      · simp only [hc, if_true, decide_true, List.length_cons, Nat.add_mul]
        omega
      · simp only [hc, if_false, decide_false, List.length_cons, List.length_nil, Bool.false_eq_true,
          Nat.add_zero]
        omega
  rw [C56_replace_any_of]
  rcases span_cases (fun c => decide (c ∈ set)) s with hn | ⟨a, c, b, hs, ha, hc⟩
  · have hn' : ∀ c ∈ s, c ∉ set := by simpa using hn
    have h0 : s.countP (· ∈ set) = 0 := List.countP_eq_zero.2 (by simpa using hn')
    have hself : Alias.replaceAnyOf s (.other set) .self = .ok s := by
      unfold Alias.replaceAnyOf
      have := firstP_none (p := fun c => set.contains c) (d := []) (s := s) (by simpa using hn')
      rw [Alias.replaceAnyLoop.eq_def, findFirstOf_eq]
      simp only [List.nil_append, List.length_nil] at this
      simp only [Ref.value]
      rw [this]
      rfl
    rw [hself, hid s hn', h0]
    simp
  · have ha' : ∀ x ∈ a, x ∉ set := by simpa using ha
    have hc' : c ∈ set := by simpa using hc
    rw [hfirst a c b hs ha' hc']
    have ha0 : a.countP (· ∈ set) = 0 := List.countP_eq_zero.2 (by simpa using ha')
    have hcount : s.countP (· ∈ set) = b.countP (· ∈ set) + 1 := by
      conv_lhs => rw [hs]
      rw [List.countP_append, List.countP_cons, ha0]
      simp [hc']
    have hflat : (s.flatMap fun c => if c ∈ set then s else [c]) =
        a ++ s ++ b.flatMap fun c => if c ∈ set then s else [c] := by
      conv_lhs =>
        arg 2
        rw [hs]
      rw [List.flatMap_append, List.flatMap_cons, hid a ha', if_pos hc', List.append_assoc]
    rw [hflat, hcount]
    constructor
    · intro heq
      have heq : a ++ s ++ b = a ++ s ++ b.flatMap fun c => if c ∈ set then s else [c] := by injection heq
      have := congrArg List.length (List.append_cancel_left heq)
      have hlb := hl b
      have hs' := congrArg List.length hs
      simp only [List.length_append, List.length_cons] at hs'
      refine Nat.le_of_not_lt fun hgt => ?_
      generalize hm : b.countP (· ∈ set) = m at *
      obtain ⟨k, rfl⟩ : ∃ k, m = k + 1 := ⟨m - 1, by omega⟩
      have hb : 0 < b.length := by
        refine Nat.pos_of_ne_zero fun h0 => ?_
        rw [List.length_eq_zero_iff.1 h0] at hm
        simp at hm
      have hx : (k + 1) * 2 ≤ (k + 1) * s.length := Nat.mul_le_mul_left _ (by omega)
      omega
    · intro hle
      have hb0 : b.countP (· ∈ set) = 0 := by omega
      rw [hid b (by simpa using List.countP_eq_zero.1 hb0)]

/-- C107 fails, for the empty string sought: the string is put before itself once. With the string for both parameters
`replace` does nothing, as it should; `replace_any_of` replaces the first character only. -/
theorem C107_fails_further (s : List α) :
    Alias.replace s (.other []) .self = .ok (s ++ s) ∧ Alias.replace s .self .self = .ok s ∧
      ∀ c t, s = c :: t → Alias.replaceAnyOf s .self .self = .ok (s ++ t) := by
  refine ⟨?_, replace_find_self s .self, fun c t h => ?_⟩
  · have he : Alias.replace s (.other []) .self = replaceSelf s [] := replaceLoop_self [] _ s 0
    rw [he]
    unfold replaceSelf
    rw [replaceSelfLoop.eq_def, find_drop (by omega), List.drop_zero, first_nil]
    simp only [Option.map_some, Nat.add_zero]
    rw [replaceAt_append [] s [] s s 0 ([] : List α).length rfl rfl (by simp), ok_bind]
    simp only [List.isEmpty_nil, if_true]
    rw [replaceSelfLoop.eq_def, find_beyond (by omega)]
    rfl
  · have := replaceAnyLoop_self .self s [] t c h (by simp) (by simp [Ref.value, h])
    simpa using this

/-- Two occurrences, and two characters that are listed: `replace(s, "a", s)` is `"aaa"` for `s = "aa"`, and so is
`replace_any_of(s, "a", s)`; with a copy of `s` both are `"aaaa"`. -/
example : Alias.replace "aa".toList (.other "a".toList) .self = .ok "aaa".toList ∧
    Alias.replaceAnyOf "aa".toList (.other "a".toList) .self = .ok "aaa".toList ∧
    Str.replaceAnyOf "aa".toList "a".toList "aa".toList = .ok "aaaa".toList ∧
    ¬ count "a".toList "aa".toList ≤ 1 ∧ count "b".toList "abc".toList ≤ 1 :=
  ⟨by rfl, by rfl, by rfl, by simp [count], by simp [count]⟩

end Pluto.Props
