import Verif.Model.Alias
import Verif.Proofs.Str

/-! # Lemmas about strings passed for several parameters -/

namespace Pluto.Alias
open Pluto.Str Pluto.StrSpec

variable {α : Type} [DecidableEq α]

theorem replaceLoop_other (f w : List α) : ∀ (fuel : Nat) (s : List α) (start : Nat),
    replaceLoop (.other f) (.other w) fuel s start = Str.replaceLoop f w fuel s start := by
  intro fuel
  induction fuel with
  | zero => intro s start; rw [replaceLoop.eq_def, Str.replaceLoop.eq_def]; rfl
  | succ fuel ih =>
    intro s start
    rw [replaceLoop.eq_def, Str.replaceLoop.eq_def]
    simp only [Ref.value, ih]
    cases find s f start <;> rfl

theorem replaceAnyLoop_other (f w : List α) : ∀ (fuel : Nat) (s : List α) (start : Nat),
    replaceAnyLoop (.other f) (.other w) fuel s start = Str.replaceAnyLoop f w fuel s start := by
  intro fuel
  induction fuel with
  | zero => intro s start; rw [replaceAnyLoop.eq_def, Str.replaceAnyLoop.eq_def]; rfl
  | succ fuel ih =>
    intro s start
    rw [replaceAnyLoop.eq_def, Str.replaceAnyLoop.eq_def]
    simp only [Ref.value, ih]
    cases findFirstOf s f start <;> rfl

theorem replaceLoop_self (f : List α) : ∀ (fuel : Nat) (s : List α) (start : Nat),
    replaceLoop (.other f) .self fuel s start = replaceSelfLoop f fuel s start := by
  intro fuel
  induction fuel with
  | zero => intro s start; rw [replaceLoop.eq_def, replaceSelfLoop.eq_def]; rfl
  | succ fuel ih =>
    intro s start
    rw [replaceLoop.eq_def, replaceSelfLoop.eq_def]
    simp only [Ref.value, ih]
    cases find s f start <;> rfl

theorem find_self_zero (s : List α) : find s s 0 = some 0 := by
  rw [find_drop (by omega), List.drop_zero]
  have : first s s = some 0 := first_some.2 ⟨⟨[], [], by simp, rfl⟩, by simp⟩
  rw [this]; rfl

theorem find_self_pos (s : List α) {pos : Nat} (h : 0 < pos) : find s s pos = none := by
  unfold find
  rw [find?_range_none]
  intro i hi
  by_cases hp : pos ≤ i
  · have : s.isPrefixOf (s.drop i) = false := by
      rw [Bool.eq_false_iff, Ne, List.isPrefixOf_iff_prefix]
      intro hpre
      have := hpre.length_le
      simp at this
      omega
    simp [this]
  · simp [hp]

/-- The next search in the replaced string finds nothing. -/
theorem find_self_next (w : List α) :
    find w w (if w.isEmpty then 0 + w.length + 1 else 0 + w.length) = none := by
  apply find_self_pos
  split
  · omega
  · rename_i h
    have : w ≠ [] := by simpa using h
    have := List.length_pos_iff.2 this
    omega

theorem replaceLoop_find_self_ends (w : Ref α) (fuel : Nat) (t : List α) (n : Nat)
    (h : find t t n = none) : replaceLoop .self w fuel t n = .ok t := by
  rw [replaceLoop.eq_def]
  show (match find t t n with | some _ => _ | none => _) = _
  rw [h]
  rfl

theorem replace_find_self (s : List α) (w : Ref α) :
    replace s .self w = .ok (w.value s) := by
  unfold replace
  rw [replaceLoop.eq_def]
  show (match find s s 0 with | some _ => _ | none => _) = _
  rw [find_self_zero]
  have h : replaceAt s 0 s.length (w.value s) = .ok (w.value s) := by
    rw [replaceAt_append [] s s (w.value s) [] 0 s.length rfl rfl (by simp)]
    simp
  show (replaceAt s 0 s.length (w.value s) >>= _) = _
  rw [h, ok_bind]
  have hw : w.value (w.value s) = w.value s := by cases w <;> rfl
  apply replaceLoop_find_self_ends
  show find _ _ (if (w.value s).isEmpty then 0 + (w.value (w.value s)).length + 1 else
    0 + (w.value (w.value s)).length) = none
  rw [hw]
  exact find_self_next _

theorem replaceAnyLoop_find_self (w : List α) :
    ∀ (s d : List α) (fuel : Nat), s.length ≤ fuel →
      replaceAnyLoop .self (.other w) fuel (d ++ s) d.length = .ok (d ++ s.flatMap fun _ => w) := by
  intro s
  induction s with
  | nil =>
    intro d fuel _
    rw [replaceAnyLoop.eq_def, findFirstOf_eq, firstP_none (by simp)]
    simp [pure, Except.pure]
  | cons c s ih =>
    intro d fuel hf
    cases fuel with
    | zero => simp at hf
    | succ fuel =>
      have := firstP_some (p := fun x => (d ++ c :: s).contains x) (d := d) (a := []) (c := c) (b := s) (by simp)
        (by simp)
      rw [replaceAnyLoop.eq_def, findFirstOf_eq]
      simp only [Ref.value]
      rw [List.nil_append] at this
      rw [this]
      simp only [List.length_nil, Nat.add_zero]
      rw [replaceAt_append d (d ++ c :: s) [c] w s d.length 1 rfl rfl (by simp), ok_bind]
      have hl : d.length + w.length = (d ++ w).length := by simp
      rw [hl, ih (d ++ w) fuel (by simp at hf; omega)]
      simp

/-- Replacing by the string itself ends after the first character. -/
theorem replaceAnyLoop_self (fnd : Ref α) (s a b : List α) (c : α) (hs : s = a ++ c :: b)
    (ha : ∀ x ∈ a, x ∉ fnd.value s) (hc : c ∈ fnd.value s) :
    replaceAnyOf s fnd .self = .ok (a ++ s ++ b) := by
  unfold replaceAnyOf
  have h := firstP_some (p := fun x => (fnd.value s).contains x) (d := []) (a := a) (c := c) (b := b)
    (fun x hx => by simpa using ha x hx) (by simpa using hc)
  rw [replaceAnyLoop.eq_def, findFirstOf_eq]
  rw [List.nil_append, ← hs] at h
  simp only [List.length_nil] at h
  rw [h]
  have hl : s.length = (a ++ b).length + 1 := by rw [hs]; simp; omega
  rw [hl]
  simp only [Ref.value, Nat.zero_add]
  rw [replaceAt_append a s [c] s b a.length 1 rfl rfl (by rw [hs]; simp), ok_bind, replaceAnyLoop.eq_def, findFirstOf_eq]
  have : ∀ (p : α → Bool) (t : List α) (n : Nat), t.length ≤ n → firstP p t n = none := by
    intro p t n hn
    unfold firstP
    rw [find?_range_none]
    intro i hi
    have : ¬ n ≤ i := by omega
    simp [this]
  rw [this _ _ _ (by omega)]
  rfl

omit [DecidableEq α] in
/-- The length of joined pieces. -/
theorem length_join (sep : List α) : ∀ ps : List (List α), ps ≠ [] →
    (join ps sep).length = (ps.map List.length).sum + (ps.length - 1) * sep.length := by
  intro ps
  induction ps with
  | nil => simp
  | cons p ps ih =>
    intro _
    cases ps with
    | nil => simp [join_singleton]
    | cons q ps =>
      rw [join_cons_cons, List.length_append, List.length_append, ih (by simp)]
      simp only [List.map_cons, List.sum_cons, List.length_cons, Nat.add_sub_cancel]
      rw [Nat.add_mul]
      omega

end Pluto.Alias
