import Verif.Model.Value
import Verif.Spec.Seq
import Mathlib.Order.Defs.LinearOrder
import Mathlib.Order.Lattice
import Mathlib.Tactic.ByContra
import Mathlib.Algebra.Order.Group.Unbundled.Int

/-! # Properties of ranges, values and file names (C70-C74) -/

namespace Pluto.Props

open Value

variable {α : Type} [LinearOrder α]

/-! ## C70: the order of ranges -/

/-- C70.  `<` is the lexicographic order of (begin, end), `==` is equality and the other
operators are those that belong to them. -/
theorem C70_operators (r s : Range α) :
    (opLt r s = true ↔ r.first < s.first ∨ (r.first = s.first ∧ r.last < s.last)) ∧
      (opEq r s = true ↔ r = s) ∧ (opNe r s = true ↔ r ≠ s) ∧
      (opGt r s = true ↔ opLt s r = true) ∧
      (opLe r s = true ↔ opLt r s = true ∨ r = s) ∧
      (opGe r s = true ↔ opLt s r = true ∨ r = s) := by
  have lex : ∀ r s : Range α, isLess r s = true ↔
      r.first < s.first ∨ (r.first = s.first ∧ r.last < s.last) := by
    intro r s
    unfold isLess
    by_cases h : r.first = s.first
    · rw [if_pos (by simpa using h)]
      simp [h]
    · rw [if_neg (by simpa using h)]
      simp [h]
  have heq : isEqual r s = true ↔ r = s := by
    cases r; cases s; simp [isEqual]
  have hle : ∀ r s : Range α, (!isLess s r) = true ↔ isLess r s = true ∨ r = s := by
    intro r s
    rw [Bool.not_eq_true', ← Bool.not_eq_true, lex, lex]
    obtain ⟨a, b⟩ := r
    obtain ⟨c, d⟩ := s
    simp only [Range.mk.injEq]
    rcases lt_trichotomy a c with h | h | h
    · simp [h, h.not_gt, h.ne']
    · subst h
      rcases lt_trichotomy b d with h | h | h
      · simp [h, h.not_gt]
      · simp [h]
      · simp [h, h.not_gt, h.ne']
    · simp [h, h.not_gt, h.ne']
  refine ⟨lex r s, heq, ?_, Iff.rfl, hle r s, ?_⟩
  · unfold opNe; rw [Bool.not_eq_true', ← Bool.not_eq_true, heq]
  · unfold opGe; rw [hle s r]
    exact or_congr_right eq_comm

/-- C70.  So `<` is a strict total order. -/
theorem C70_total :
    (∀ r : Range α, opLt r r = false) ∧
      (∀ r s t : Range α, opLt r s = true → opLt s t = true → opLt r t = true) ∧
      ∀ r s : Range α, opLt r s = true ∨ r = s ∨ opLt s r = true := by
  have lex := fun r s : Range α => (C70_operators r s).1
  refine ⟨fun r => ?_, fun r s t h1 h2 => ?_, fun r s => ?_⟩
  · rw [← Bool.not_eq_true, lex]; simp
  · rw [lex] at *
    rcases h1 with h1 | ⟨h1, h1'⟩ <;> rcases h2 with h2 | ⟨h2, h2'⟩
    · exact .inl (lt_trans h1 h2)
    · exact .inl (h2 ▸ h1)
    · exact .inl (h1 ▸ h2)
    · exact .inr ⟨h1.trans h2, lt_trans h1' h2'⟩
  · rw [lex, lex]
    obtain ⟨a, b⟩ := r
    obtain ⟨c, d⟩ := s
    simp only [Range.mk.injEq]
    rcases lt_trichotomy a c with h | h | h
    · exact .inl (.inl h)
    · subst h
      rcases lt_trichotomy b d with h | h | h
      · exact .inl (.inr ⟨rfl, h⟩)
      · exact .inr (.inl ⟨rfl, h⟩)
      · exact .inr (.inr (.inr ⟨rfl, h⟩))
    · exact .inr (.inr (.inl h))

example : opLt (⟨1, 5⟩ : Range Int) ⟨2, 0⟩ = true ∧ opLt (⟨1, 5⟩ : Range Int) ⟨1, 6⟩ = true := by
  decide

/-! ## C71: overlapping ranges -/

/-- C71, partial: of two well-formed ranges either the first lies before the second, or
the second before the first, or they overlap, and exactly one of the three.  What is
missing is ranges whose end lies before their beginning: see `C71_malformed`. -/
theorem C71_trichotomy_partial (r s : Range α) (hr : r.first ≤ r.last) (hs : s.first ≤ s.last) :
    (isLessNoOverlap r s = true ∧ isLessNoOverlap s r = false ∧ isOverlapping r s = false) ∨
      (isLessNoOverlap r s = false ∧ isLessNoOverlap s r = true ∧ isOverlapping r s = false) ∨
      (isLessNoOverlap r s = false ∧ isLessNoOverlap s r = false ∧ isOverlapping r s = true) := by
  obtain ⟨a, b⟩ := r
  obtain ⟨c, d⟩ := s
  simp only at hr hs
  simp only [isLessNoOverlap, isOverlapping, bne, Bool.and_eq_true, Bool.not_eq_true',
    Bool.and_eq_false_iff, Bool.or_eq_true, Bool.or_eq_false_iff, beq_iff_eq, decide_eq_true_eq,
    decide_eq_false_iff_not, not_lt, not_le, beq_eq_false_iff_ne, Bool.not_eq_false']
  rcases lt_trichotomy a c with h | h | h
  · have had : a < d := lt_of_lt_of_le h hs
    rcases le_or_gt b c with h' | h'
    · exact .inl ⟨⟨h.ne, h'⟩, .inr had, h.ne, .inr h'⟩
    · exact .inr (.inr ⟨.inr h', .inr had, .inr ⟨had, h'⟩⟩)
  · exact .inr (.inr ⟨.inl h, .inl h.symm, .inl h⟩)
  · have hcb : c < b := lt_of_lt_of_le h hr
    rcases le_or_gt d a with h' | h'
    · exact .inr (.inl ⟨.inr hcb, ⟨h.ne, h'⟩, h.ne', .inl h'⟩)
    · exact .inr (.inr ⟨.inr hcb, .inr h', .inr ⟨h', hcb⟩⟩)

/-- C71.  Two non-empty ranges overlap exactly if some value lies in both; overlap is
symmetric for all ranges. -/
theorem C71_overlap (r s : Range α) :
    isOverlapping r s = isOverlapping s r ∧
      (r.first < r.last → s.first < s.last →
        (isOverlapping r s = true ↔
          ∃ x, r.first ≤ x ∧ x < r.last ∧ s.first ≤ x ∧ x < s.last)) := by
  constructor
  · unfold isOverlapping
    rw [Bool.and_comm, Bool.beq_comm]
  · intro hr hs
    obtain ⟨a, b⟩ := r
    obtain ⟨c, d⟩ := s
    simp only at hr hs
    simp only [isOverlapping, Bool.or_eq_true, Bool.and_eq_true, beq_iff_eq, decide_eq_true_eq]
    constructor
    · rintro (h | ⟨h1, h2⟩)
      · subst h; exact ⟨a, le_refl _, hr, le_refl _, hs⟩
      · rcases le_total a c with h | h
        · exact ⟨c, h, h2, le_refl _, hs⟩
        · exact ⟨a, le_refl _, hr, h, h1⟩
    · rintro ⟨x, h1, h2, h3, h4⟩
      exact .inr ⟨lt_of_le_of_lt h1 h4, lt_of_le_of_lt h3 h2⟩

/-- C71.  For well-formed ranges `is_less_no_overlap` is irreflexive and transitive, and
it orders the elements: everything in the first range is less than everything in the
second. -/
theorem C71_order (r s t : Range α) :
    isLessNoOverlap r r = false ∧
      (r.first ≤ r.last → s.first ≤ s.last → t.first ≤ t.last →
        isLessNoOverlap r s = true → isLessNoOverlap s t = true → isLessNoOverlap r t = true) ∧
      (isLessNoOverlap r s = true → ∀ x y, r.first ≤ x → x < r.last → s.first ≤ y → y < s.last →
        x < y) := by
  refine ⟨by simp [isLessNoOverlap], fun hr hs ht h1 h2 => ?_, fun h x y _ hx hy _ => ?_⟩
  · simp only [isLessNoOverlap, bne, Bool.and_eq_true, Bool.not_eq_true', beq_eq_false_iff_ne,
      decide_eq_true_eq] at *
    have hst : s.first < t.first := lt_of_le_of_ne (le_trans hs h2.2) h2.1
    have hrt : r.first < t.first := lt_of_le_of_lt (le_trans hr h1.2) hst
    exact ⟨hrt.ne, le_trans h1.2 hst.le⟩
  · simp only [isLessNoOverlap, Bool.and_eq_true, decide_eq_true_eq] at h
    exact lt_of_lt_of_le hx (le_trans h.2 hy)

/-- C71 fails for malformed ranges: each of these is "less without overlap" than the
other. -/
theorem C71_malformed :
    isLessNoOverlap (⟨5, 1⟩ : Range Int) ⟨4, 2⟩ = true ∧
      isLessNoOverlap (⟨4, 2⟩ : Range Int) ⟨5, 1⟩ = true := by decide

/-- An empty range inside another overlaps it although they share no value. -/
theorem C71_empty_range :
    isOverlapping (⟨3, 3⟩ : Range Int) ⟨1, 5⟩ = true ∧
      ¬ ∃ x : Int, 3 ≤ x ∧ x < 3 ∧ 1 ≤ x ∧ x < 5 := by
  refine ⟨by decide, ?_⟩
  rintro ⟨x, h1, h2, -⟩
  omega

/-- C71.  `size` of a well-formed range of a signed type of at least 32 bits is the
difference if it can be represented, and otherwise undefined; for unsigned types it is
always the difference. -/
theorem C71_size (r : Range Int) (h : r.first ≤ r.last) (b : Nat) (hb : 32 ≤ b) :
    (r.last - r.first < 2 ^ (b - 1) → rangeSize ⟨b, true⟩ r = .ok (r.last - r.first)) ∧
      (2 ^ (b - 1) ≤ r.last - r.first → rangeSize ⟨b, true⟩ r = .error .undefined) ∧
      (0 ≤ r.first → r.last < 2 ^ b → rangeSize ⟨b, false⟩ r = .ok (r.last - r.first)) := by
  have hp : ∀ s, promote ⟨b, s⟩ = ⟨b, s⟩ := by
    intro s; unfold promote; rw [if_neg]; simp only; omega
  have h2 : (0 : Int) < 2 ^ (b - 1) := Int.pow_pos (by omega)
  refine ⟨fun hlt => ?_, fun hge => ?_, fun h0 hl => ?_⟩
  · simp only [rangeSize, hp, arith, IntTy.holds, if_true]
    rw [if_pos (by omega)]
  · simp only [rangeSize, hp, arith, IntTy.holds, if_true]
    rw [if_neg (by omega)]
  · simp only [rangeSize, hp, arith]
    rw [if_neg (by simp), Int.emod_eq_of_lt (by omega) (by omega)]

/-- C71.  `size` of any range of a signed type of at least 32 bits, also if its bounds are in the wrong order, is the
difference if that is a value of the type, and otherwise undefined; for a narrower type it is the difference. -/
theorem C71_size_any (r : Range Int) (b : Nat) :
    (32 ≤ b → rangeSize ⟨b, true⟩ r =
      if -2 ^ (b - 1) ≤ r.last - r.first ∧ r.last - r.first < 2 ^ (b - 1) then .ok (r.last - r.first)
      else .error .undefined) ∧
    (∀ s, 0 < b → b < 32 → IntTy.holds ⟨b, s⟩ r.first → IntTy.holds ⟨b, s⟩ r.last →
      rangeSize ⟨b, s⟩ r = .ok (r.last - r.first)) := by
  constructor
  · intro hb
    simp only [rangeSize, promote, arith, IntTy.holds, show ¬ b < 32 by omega, if_false, if_true]
  · intro s h0 hb h1 h2
    have hle : (2 : Int) ^ b ≤ 2 ^ 31 := by
      exact_mod_cast Nat.pow_le_pow_right (show 0 < 2 by omega) (show b ≤ 31 by omega)
    have hdbl : (2 : Int) ^ b = 2 * 2 ^ (b - 1) := by
      obtain ⟨n, rfl⟩ : ∃ n, b = n + 1 := ⟨b - 1, by omega⟩
      rw [Int.pow_succ]; simp; omega
    have hr : -2 ^ 31 ≤ r.last - r.first ∧ r.last - r.first < 2 ^ 31 := by
      cases s <;> simp only [IntTy.holds, if_true, if_false, Bool.false_eq_true] at h1 h2 <;> omega
    simp only [rangeSize, promote, arith, IntTy.holds, hb, if_true]
    rw [if_pos (by simpa using hr)]

example : rangeSize ⟨8, false⟩ ⟨200, 10⟩ = .ok (-190) ∧ rangeSize ⟨32, true⟩ ⟨1, -2 ^ 31⟩ = .error .undefined := by
  decide

/-! ## C72: abs -/

/-- C72, partial: for every integer type and every value except the most negative of a
signed type, `abs` is the absolute value.  What is missing is that
value: see `C72_most_negative`. -/
theorem C72_abs_partial (t : IntTy) (ht : 0 < t.bits) (v : Int) (hv : t.holds v)
    (hmin : t.signed = true → v ≠ -2 ^ (t.bits - 1)) :
    Value.abs t v = .ok v.natAbs := by
  obtain ⟨b, s⟩ := t
  simp only at ht hmin
  obtain ⟨n, rfl⟩ : ∃ n, b = n + 1 := ⟨b - 1, by omega⟩
  have hpos : (0 : Int) < 2 ^ n := Int.pow_pos (by omega)
  have hdbl : (2 : Int) ^ (n + 1) = 2 * 2 ^ n := by rw [Int.pow_succ]; omega
  have conv : ∀ w : Int, IntTy.holds ⟨n + 1, s⟩ w → convertTo ⟨n + 1, s⟩ w = w := by
    intro w hw
    unfold convertTo
    unfold IntTy.holds at hw
    cases s
    · simp only [Bool.false_eq_true, if_false] at hw ⊢
      exact Int.emod_eq_of_lt hw.1 hw.2
    · simp only [if_true, Nat.add_sub_cancel] at hw ⊢
      rw [Int.emod_eq_of_lt (by omega) (by omega)]
      omega
  unfold Value.abs
  by_cases hneg : v < 0
  · rw [if_pos hneg]
    have hs : s = true := by
      cases s
      · simp only [IntTy.holds, Bool.false_eq_true, if_false] at hv; omega
      · rfl
    subst hs
    have hne := hmin rfl
    simp only [Nat.add_sub_cancel] at hne
    have hv' := hv
    simp only [IntTy.holds, if_true, Nat.add_sub_cancel] at hv
    have hw : IntTy.holds ⟨n + 1, true⟩ (-v) := by
      simp only [IntTy.holds, if_true, Nat.add_sub_cancel]; omega
    have har : arith (promote ⟨n + 1, true⟩) (-v) = .ok (-v) := by
      unfold promote arith
      split
      · rename_i h32
        simp only at h32
        have h31 : n ≤ 31 := by omega
        have : (2 : Int) ^ n ≤ 2 ^ 31 := by
          have := Nat.pow_le_pow_right (n := 2) (by omega) h31
          exact_mod_cast this
        rw [if_pos rfl, if_pos]
        simp only [IntTy.holds, if_true, Nat.reduceSub]
        omega
      · simp
    rw [har]
    show Except.ok _ = _
    rw [conv _ hw]
    congr 1; omega
  · rw [if_neg hneg]
    show Except.ok _ = _
    rw [conv _ hv]
    congr 1; omega

/-- C72 fails for the most negative value of every signed type: undefined from 32 bits on,
and the negative value itself for narrower types. -/
theorem C72_most_negative (bits : Nat) (h0 : 0 < bits) :
    Value.abs ⟨bits, true⟩ (-2 ^ (bits - 1)) = if bits < 32 then .ok (-2 ^ (bits - 1)) else .error .undefined := by
  obtain ⟨b, rfl⟩ : ∃ b, bits = b + 1 := ⟨bits - 1, by omega⟩
  rw [Nat.add_sub_cancel]
  have hp : (0 : Int) < 2 ^ b := Int.pow_pos (by decide)
  unfold Value.abs
  rw [if_pos (by omega), Int.neg_neg]
  by_cases hb : b + 1 < 32
  · rw [if_pos hb, show promote ⟨b + 1, true⟩ = ⟨32, true⟩ from if_pos hb]
    have hlt : (2 : Int) ^ b < 2 ^ 31 := Int.pow_lt_pow_of_lt (by decide) (by omega)
    have ha : arith ⟨32, true⟩ (2 ^ b) = .ok (2 ^ b) := by
      unfold arith IntTy.holds
      simp only [if_true]
      rw [if_pos ⟨by omega, by omega⟩]
    rw [ha]
    show Except.ok (convertTo ⟨b + 1, true⟩ (2 ^ b)) = _
    unfold convertTo
    simp only [if_true, Nat.add_sub_cancel]
    rw [show (2 : Int) ^ b + 2 ^ b = 2 ^ (b + 1) by rw [Int.pow_succ]; omega, Int.emod_self, Int.zero_sub]
  · rw [if_neg hb, show promote ⟨b + 1, true⟩ = ⟨b + 1, true⟩ from if_neg hb]
    have ha : arith ⟨b + 1, true⟩ (2 ^ b) = .error .undefined := by
      unfold arith IntTy.holds
      simp only [if_true, Nat.add_sub_cancel]
      rw [if_neg (by omega)]
    rw [ha]
    rfl

example : Value.abs ⟨32, true⟩ (-7) = .ok 7 ∧ Value.abs ⟨8, true⟩ (-127) = .ok 127 := by decide

/-! ## C73: minimum and maximum of two values -/

/-- C73.  For every strict weak order `min` is not greater and `max` not less than either
argument, both give the left argument if the arguments are equivalent, and if they are
not, `min` and `max` refer to different arguments. -/
theorem C73_min_max {β : Type} (less : β → β → Bool) (h : SeqSpec.StrictWeakOrder less) (a b : β) :
    let lo := (Value.min less a b).get a b
    let hi := (Value.max less a b).get a b
    less a lo = false ∧ less b lo = false ∧ less hi a = false ∧ less hi b = false ∧
      (less a b = false → less b a = false →
        Value.min less a b = .left ∧ Value.max less a b = .left) ∧
      (less a b = true ∨ less b a = true → Value.min less a b ≠ Value.max less a b) := by
  have asym : ∀ x y, less x y = true → less y x = false := by
    intro x y hxy
    by_contra hyx
    rw [Bool.not_eq_false] at hyx
    have := h.trans x y x hxy hyx
    rw [h.irrefl] at this; cases this
  simp only [Value.min, Value.max]
  have ha := h.irrefl a
  have hb := h.irrefl b
  cases hab : less a b <;> cases hba : less b a
  · simp [Arg.get, *]
  · simp [Arg.get, *]
  · simp [Arg.get, *]
  · exact absurd (asym a b hab) (by simp [hba])

/-! ## C74: file names -/

theorem fileNameLoop_spec (mem rest : List Char) (hnul : '\x00' ∉ mem) (p name : Nat) :
    ∃ k, fileNameLoop (mem ++ '\x00' :: rest) p name = .ok k ∧
      ((k = name ∧ ∀ c ∈ mem, c ≠ '/' ∧ c ≠ '\\') ∨
        ∃ i, k = p + i + 1 ∧ i < mem.length ∧ (mem[i]? = some '/' ∨ mem[i]? = some '\\') ∧
          ∀ c ∈ mem.drop (i + 1), c ≠ '/' ∧ c ≠ '\\') := by
  induction mem generalizing p name with
  | nil => exact ⟨name, by simp [fileNameLoop], .inl ⟨rfl, by simp⟩⟩
  | cons c mem ih =>
    simp only [List.mem_cons, not_or] at hnul
    have hc : c ≠ '\x00' := fun h => hnul.1 h.symm
    rw [List.cons_append, fileNameLoop, if_neg hc]
    obtain ⟨k, hk, hcase⟩ := ih hnul.2 (p + 1) (if c = '\\' ∨ c = '/' then p + 1 else name)
    refine ⟨k, hk, ?_⟩
    rcases hcase with ⟨h1, h2⟩ | ⟨i, h1, h2, h3, h4⟩
    · by_cases hs : c = '\\' ∨ c = '/'
      · rw [if_pos hs] at h1
        refine .inr ⟨0, by omega, by simp, ?_, by simpa using h2⟩
        rcases hs with rfl | rfl <;> simp
      · rw [if_neg hs] at h1
        refine .inl ⟨h1, ?_⟩
        intro x hx
        rcases List.mem_cons.1 hx with rfl | hx
        · exact ⟨fun h => hs (.inr h), fun h => hs (.inl h)⟩
        · exact h2 x hx
    · exact .inr ⟨i + 1, by omega, by simpa using h2, by simpa using h3, by simpa using h4⟩

/-- C74.  For every path (a string before the terminating null), `file_name` returns a
pointer to the part after the last slash or backslash, or the whole path if there is
none; nothing behind the terminating null is read. -/
theorem C74_file_name (path rest : List Char) (hnul : '\x00' ∉ path) :
    ∃ k, fileName (path ++ '\x00' :: rest) = .ok k ∧ k ≤ path.length ∧
      (∀ c ∈ path.drop k, c ≠ '/' ∧ c ≠ '\\') ∧
      (k = 0 ∨ ∃ dir sep, path.take k = dir ++ [sep] ∧ (sep = '/' ∨ sep = '\\')) := by
  obtain ⟨k, hk, h⟩ := fileNameLoop_spec path rest hnul 0 0
  refine ⟨k, hk, ?_⟩
  rcases h with ⟨rfl, h⟩ | ⟨i, rfl, h1, h2, h3⟩
  · exact ⟨by omega, by simpa using h, .inl rfl⟩
  · refine ⟨by omega, by simpa using h3, .inr ?_⟩
    rcases h2 with h2 | h2
    · refine ⟨path.take i, '/', ?_, .inl rfl⟩
      rw [Nat.zero_add, List.take_add_one, h2]; rfl
    · refine ⟨path.take i, '\\', ?_, .inr rfl⟩
      rw [Nat.zero_add, List.take_add_one, h2]; rfl

example : fileName ("/usr/lib/x.so".toList ++ ['\x00']) = .ok 9 := by decide

end Pluto.Props
