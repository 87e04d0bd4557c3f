import Verif.Props.Str

/-! # Laws of replacements (C162) -/

namespace Pluto.Props

open Str StrSpec

variable {α : Type} [DecidableEq α]

omit [DecidableEq α] in
/-- If no piece contains the first character of the separator, the pieces can be read back. -/
theorem readable_head {c : α} {b : List α} {ps : List (List α)} (hp : ps ≠ []) (h : ∀ p ∈ ps, c ∉ p) :
    Readable (c :: b) ps := by
  have key : ∀ p : List α, c ∉ p → ∀ t i, Occurs (c :: b) (p ++ t) i → p.length ≤ i := by
    rintro p hc t i ⟨x, y, hxy, rfl⟩
    by_contra hlt
    have hlt : x.length < p.length := by omega
    have h1 : (p ++ t)[x.length]? = some c := by
      rw [hxy, List.append_assoc, List.getElem?_append_right (Nat.le_refl _)]
      simp
    rw [List.getElem?_append_left hlt] at h1
    exact hc (List.mem_of_getElem? h1)
  induction ps with
  | nil => exact absurd rfl hp
  | cons p ps ih =>
    have hc := h p List.mem_cons_self
    cases ps with
    | nil =>
      rintro ⟨i, hi⟩
      have h1 := key p hc [] i (by simpa using hi)
      obtain ⟨x, y, hxy, rfl⟩ := hi
      have := congrArg List.length hxy
      simp at this
      omega
    | cons q ps =>
      refine ⟨fun i hi => ?_, ih (by simp) fun p hm => h p (List.mem_cons_of_mem _ hm)⟩
      have h1 := key p hc _ i hi
      obtain ⟨x, y, hxy, rfl⟩ := hi
      have := congrArg List.length hxy
      simp at this
      omega

omit [DecidableEq α] in
theorem mem_join {c : α} {p : List α} {ps : List (List α)} (sep : List α) (hp : p ∈ ps) (hc : c ∈ p) :
    c ∈ join ps sep := by
  induction ps with
  | nil => cases hp
  | cons q ps ih =>
    rw [join_cons]
    rcases List.mem_cons.1 hp with rfl | hp
    · exact List.mem_append_left _ hc
    · refine List.mem_append_right _ (List.mem_flatten.2 ⟨sep ++ p, List.mem_map.2 ⟨p, hp, rfl⟩, ?_⟩)
      exact List.mem_append_right _ hc

/-- C162. A replacement can be undone if its text can be told from what is around it: if the pieces between the
replaced occurrences can be read back. -/
theorem C162_undo (s a b : List α) (ha : a ≠ []) (hb : b ≠ [])
    (h : ∀ ps, split s a = .ok ps → Readable b ps) :
    ∃ r, replace s a b = .ok r ∧ replace r b a = .ok s := by
  obtain ⟨ps, h1, h2⟩ := C54_replace s a b ha
  obtain ⟨qs, h3, h4⟩ := C54_replace (join ps b) b a hb
  rw [(C52_split_join_iff ps b hb).2 (h ps h1)] at h3
  cases h3
  obtain ⟨ps', h5, h6⟩ := C51_join_split s a
  rw [h1] at h5
  cases h5
  exact ⟨_, h2, by rw [h4, h6]⟩

/-- C162. In particular if it begins with a character that does not occur in the string, or if it begins with the
replaced character (as when quotation marks are doubled). -/
theorem C162_undo_char (s a b : List α) (c : α) (ha : a ≠ []) (h : c ∉ s ∨ a = [c]) :
    ∃ r, replace s a (c :: b) = .ok r ∧ replace r (c :: b) a = .ok s := by
  refine C162_undo s a (c :: b) ha (by simp) fun ps hps => ?_
  have hne : ps ≠ [] := by
    rintro rfl
    rw [split_eq ha] at hps
    exact pieces_ne_nil ha s (by simpa using hps)
  refine readable_head hne fun p hp hc => ?_
  rcases h with h | rfl
  · obtain ⟨ps', h5, h6⟩ := C51_join_split s a
    rw [hps] at h5
    cases h5
    exact h (h6 ▸ mem_join a hp hc)
  · obtain ⟨ps', h5, h6, -⟩ := C53_pieces s [c] (by simp)
    rw [hps] at h5
    cases h5
    obtain ⟨x, y, hxy⟩ := List.append_of_mem hc
    exact h6 p hp ⟨x.length, x, y, by simp [hxy], rfl⟩

/-- C162. Then different strings have different results. -/
theorem C162_injective (s t a b : List α) (c : α) (ha : a ≠ []) (hs : c ∉ s ∨ a = [c]) (ht : c ∉ t ∨ a = [c])
    (h : replace s a (c :: b) = replace t a (c :: b)) : s = t := by
  obtain ⟨r, h1, h2⟩ := C162_undo_char s a b c ha hs
  obtain ⟨r', h3, h4⟩ := C162_undo_char t a b c ha ht
  rw [h1, h3] at h
  cases h
  rw [h2] at h4
  cases h4
  rfl

/-- `"say \"\"\"` with doubled quotation marks. -/
example : replace "a\"\"b\"".toList "\"".toList "\"\"".toList = .ok "a\"\"\"\"b\"\"".toList ∧
    replace "a\"\"\"\"b\"\"".toList "\"\"".toList "\"".toList = .ok "a\"\"b\"".toList := ⟨by rfl, by rfl⟩

/-- C162. It is not enough that the new text does not occur in the string. -/
theorem C162_undo_needs : ¬ Contains "bb".toList "ba".toList ∧
    replace "ba".toList "a".toList "bb".toList = .ok "bbb".toList ∧
    replace "bbb".toList "bb".toList "a".toList = .ok "ab".toList := by
  refine ⟨?_, by rfl, by rfl⟩
  rintro ⟨i, x, y, hxy, -⟩
  have h := congrArg (List.count 'b') hxy
  simp only [List.count_append] at h
  have h1 : List.count 'b' "ba".toList = 1 := by decide
  have h2 : List.count 'b' "bb".toList = 2 := by decide
  omega

/-- Replacing a character. -/
theorem replace_char (s w : List α) (c : α) :
    replace s [c] w = .ok (s.flatMap fun x => if x = c then w else [x]) := by
  obtain ⟨ps, h1, h2⟩ := C54_replace s [c] w (by simp)
  obtain ⟨ps', h3, h4⟩ := C51_join_split s [c]
  rw [h1] at h3
  cases h3
  obtain ⟨ps', h5, h6, -⟩ := C53_pieces s [c] (by simp)
  rw [h1] at h5
  cases h5
  rw [h2, ← h4]
  clear h1 h2 h4
  congr 1
  have hid : ∀ p ∈ ps, (p.flatMap fun x => if x = c then w else [x]) = p := by
    intro p hp
    have hc : c ∉ p := by
      intro hc
      obtain ⟨x, y, hxy⟩ := List.append_of_mem hc
      exact h6 p hp ⟨x.length, x, y, by simp [hxy], rfl⟩
    clear hp
    induction p with
    | nil => rfl
    | cons x p ih =>
      rw [List.mem_cons, not_or] at hc
      rw [List.flatMap_cons, if_neg (Ne.symm hc.1), ih hc.2]
      rfl
  induction ps with
  | nil => rfl
  | cons p ps ih =>
    rw [join_cons, join_cons, List.flatMap_append, hid p List.mem_cons_self]
    congr 1
    clear ih h6
    replace hid := fun q hq => hid q (List.mem_cons_of_mem p hq)
    induction ps with
    | nil => rfl
    | cons q ps ih =>
      simp only [List.map_cons, List.flatten_cons, List.flatMap_append, List.flatMap_cons, List.flatMap_nil, if_true,
        List.append_nil]
      rw [hid q List.mem_cons_self, ih fun q hq => hid q (List.mem_cons_of_mem _ hq)]

/-- C162. After a character has been replaced by a text without it, it does not occur any more, and replacing it again
changes nothing. The same for the characters of `replace_any_of`. -/
theorem C162_repeat (s w : List α) (c : α) (hc : c ∉ w) :
    ∃ r, replace s [c] w = .ok r ∧ c ∉ r ∧ replace r [c] w = .ok r := by
  have h : c ∉ s.flatMap fun x => if x = c then w else [x] := by
    intro hm
    obtain ⟨x, -, hx⟩ := List.mem_flatMap.1 hm
    split at hx
    · exact hc hx
    · rename_i hne
      exact hne (List.mem_singleton.1 hx).symm
  refine ⟨_, replace_char s w c, h, C54_absent _ _ _ ?_⟩
  rintro ⟨i, x, y, hxy, -⟩
  exact h (hxy ▸ by simp)

theorem C162_repeat_any_of (s set w : List α) (hc : ∀ c ∈ set, c ∉ w) :
    ∃ r, replaceAnyOf s set w = .ok r ∧ (∀ c ∈ set, c ∉ r) ∧ replaceAnyOf r set w = .ok r := by
  have h : ∀ c ∈ set, c ∉ s.flatMap fun x => if x ∈ set then w else [x] := by
    intro c hcs hm
    obtain ⟨x, -, hx⟩ := List.mem_flatMap.1 hm
    split at hx
    · exact hc c hcs hx
    · rename_i hne
      exact hne (List.mem_singleton.1 hx ▸ hcs)
  refine ⟨_, C56_replace_any_of s set w, h, ?_⟩
  rw [C56_replace_any_of]
  congr 1
  generalize (s.flatMap fun x => if x ∈ set then w else [x]) = r at h
  induction r with
  | nil => rfl
  | cons x r ih =>
    have hx : x ∉ set := fun hx => h x hx List.mem_cons_self
    rw [List.flatMap_cons, if_neg hx, ih fun c hcs hm => h c hcs (List.mem_cons_of_mem _ hm)]
    rfl

/-- C162. That is so only for single characters: removing a text can make it appear anew. -/
theorem C162_repeat_needs : replace "aabb".toList "ab".toList [] = .ok "ab".toList ∧
    replace "ab".toList "ab".toList [] = .ok [] := ⟨by rfl, by rfl⟩

/-- C162. Two characters can be replaced in any order, if neither occurs in the text for the other. -/
theorem C162_commute (s v w : List α) (c d : α) (hcd : c ≠ d) (hw : d ∉ v) (hv : c ∉ w) :
    (replace s [c] v >>= fun r => replace r [d] w) = (replace s [d] w >>= fun r => replace r [c] v) := by
  have hid : ∀ (p w : List α) (c : α), c ∉ p → (p.flatMap fun x => if x = c then w else [x]) = p := by
    intro p w c hc
    induction p with
    | nil => rfl
    | cons x p ih =>
      rw [List.mem_cons, not_or] at hc
      rw [List.flatMap_cons, if_neg (Ne.symm hc.1), ih hc.2]
      rfl
  rw [replace_char, replace_char, ok_bind, ok_bind, replace_char, replace_char]
  congr 1
  rw [List.flatMap_assoc, List.flatMap_assoc]
  congr 1
  funext x
  by_cases hx : x = c
  · subst hx
    rw [if_pos rfl, if_neg hcd, hid v w d hw]
    simp
  · by_cases hy : x = d
    · subst hy
      rw [if_neg hx, if_pos rfl, hid w v c hv]
      simp
    · simp [hx, hy]

example : (replace "x-y_z".toList ['-'] "+".toList >>= fun r => replace r ['_'] "__".toList) =
    .ok "x+y__z".toList := by rfl

/-- C162. Otherwise the order matters. -/
theorem C162_commute_needs :
    (replace "ab".toList ['a'] "b".toList >>= fun r => replace r ['b'] "a".toList) = .ok "aa".toList ∧
    (replace "ab".toList ['b'] "a".toList >>= fun r => replace r ['a'] "b".toList) = .ok "bb".toList := ⟨by rfl, by rfl⟩

/-- Escaping: first the escape character `q` is doubled, then `n` is replaced by `q` and the letter `x`. -/
def escape (s : List α) (q n x : α) : Res (List α) := replace s [q] [q, q] >>= fun r => replace r [n] [q, x]

/-- C162. Two replacements, first of the escape character, then of another one, keep different strings different. -/
theorem C162_escape (s t : List α) (q n x : α) (hn : n ≠ q) (hx : x ≠ q) (h : escape s q n x = escape t q n x) :
    s = t := by
  have key : ∀ s : List α, escape s q n x = .ok (s.flatMap fun c => if c = q then [q, q] else if c = n then [q, x] else [c]) := by
    intro s
    unfold escape
    rw [replace_char, ok_bind, replace_char]
    congr 1
    rw [List.flatMap_assoc]
    congr 1
    funext c
    by_cases h1 : c = q
    · subst h1; simp [Ne.symm hn]
    · simp [h1]
  rw [key, key] at h
  injection h with h
  induction s generalizing t with
  | nil =>
    cases t with
    | nil => rfl
    | cons d t =>
      rw [List.flatMap_nil, List.flatMap_cons] at h
      exfalso
      split at h
      · simp at h
      · split at h <;> simp at h
  | cons c s ih =>
    cases t with
    | nil =>
      rw [List.flatMap_nil, List.flatMap_cons] at h
      exfalso
      split at h
      · simp at h
      · split at h <;> simp at h
    | cons d t =>
      rw [List.flatMap_cons, List.flatMap_cons] at h
      by_cases c1 : c = q
      · by_cases d1 : d = q
        · rw [if_pos c1, if_pos d1] at h
          rw [c1, d1, ih t (List.append_cancel_left h)]
        · by_cases d2 : d = n
          · rw [if_pos c1, if_neg d1, if_pos d2] at h
            simp at h
            exact absurd h.1.symm hx
          · rw [if_pos c1, if_neg d1, if_neg d2] at h
            simp at h
            exact absurd h.1.symm d1
      · by_cases c2 : c = n
        · by_cases d1 : d = q
          · rw [if_neg c1, if_pos c2, if_pos d1] at h
            simp at h
            exact absurd h.1 hx
          · by_cases d2 : d = n
            · rw [if_neg c1, if_pos c2, if_neg d1, if_pos d2] at h
              rw [c2, d2, ih t (List.append_cancel_left h)]
            · rw [if_neg c1, if_pos c2, if_neg d1, if_neg d2] at h
              simp at h
              exact absurd h.1.symm d1
        · by_cases d1 : d = q
          · rw [if_neg c1, if_neg c2, if_pos d1] at h
            simp at h
            exact absurd h.1 c1
          · by_cases d2 : d = n
            · rw [if_neg c1, if_neg c2, if_neg d1, if_pos d2] at h
              simp at h
              exact absurd h.1 c1
            · rw [if_neg c1, if_neg c2, if_neg d1, if_neg d2] at h
              simp at h
              rw [h.1, ih t h.2]

/-- C162. But two replacements do not undo it, in neither order. -/
theorem C162_unescape_needs : escape "\\n".toList '\\' '\n' 'n' = .ok "\\\\n".toList ∧
    (replace "\\\\n".toList "\\n".toList "\n".toList >>= fun r => replace r "\\\\".toList "\\".toList) =
      .ok "\\\n".toList ∧
    (replace "\\\\n".toList "\\\\".toList "\\".toList >>= fun r => replace r "\\n".toList "\n".toList) =
      .ok "\n".toList := ⟨by rfl, by rfl, by rfl⟩

end Pluto.Props
