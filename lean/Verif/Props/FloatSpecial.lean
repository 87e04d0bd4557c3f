import Verif.Proofs.FloatSpecial
import Verif.Props.Seq
import Verif.Props.Float
import Verif.Props.FloatText

/-!
# Zeros, infinities and NaN (C126)
-/

namespace Pluto.Props
open Pluto.FloatSpecial

/-- C126. Values that are not NaN are compared like the numbers they denote; a comparison with a NaN is false. -/
theorem C126_compare (a b : Fl) :
    ((a < b) ↔ ∃ x y, number a = some x ∧ number b = some y ∧ x < y) ∧
      ((a ≤ b) ↔ ∃ x y, number a = some x ∧ number b = some y ∧ x ≤ y) ∧
      ((a == b) = true ↔ ∃ x, number a = some x ∧ number b = some x) := by
  by_cases ha : a = .nan
  · subst ha
    refine ⟨iff_of_false ?_ ?_, iff_of_false ?_ ?_, iff_of_false ?_ ?_⟩
    · show ¬ less .nan b = true
      rw [(less_nan b).2]; simp
    · rintro ⟨x, y, h, -⟩; cases h
    · show ¬ (less .nan b = true ∨ equal .nan b = true)
      rw [(less_nan b).2, (equal_nan b).2]; simp
    · rintro ⟨x, y, h, -⟩; cases h
    · show ¬ equal .nan b = true
      rw [(equal_nan b).2]; simp
    · rintro ⟨x, h, -⟩; cases h
  by_cases hb : b = .nan
  · subst hb
    refine ⟨iff_of_false ?_ ?_, iff_of_false ?_ ?_, iff_of_false ?_ ?_⟩
    · show ¬ less a .nan = true
      rw [(less_nan a).1]; simp
    · rintro ⟨x, y, -, h, -⟩; cases h
    · show ¬ (less a .nan = true ∨ equal a .nan = true)
      rw [(less_nan a).1, (equal_nan a).1]; simp
    · rintro ⟨x, y, -, h, -⟩; cases h
    · show ¬ equal a .nan = true
      rw [(equal_nan a).1]; simp
    · rintro ⟨x, -, h⟩; cases h
  obtain ⟨x, hx⟩ := number_some ha
  obtain ⟨y, hy⟩ := number_some hb
  have h1 : (a < b) ↔ x < y := less_iff hx hy
  have h2 : (a == b) = true ↔ x = y := equal_iff hx hy
  have h3 : (a ≤ b) ↔ x ≤ y := by
    show (less a b = true ∨ equal a b = true) ↔ _
    rw [less_iff hx hy, equal_iff hx hy, le_iff_lt_or_eq]
  rw [h1, h2, h3, hx, hy]
  simp [eq_comm]

/-- C126. `abs` gives the absolute value, of infinities too, and NaN for a NaN; but the sign bit of the result is set
if the argument is the negative zero (and only then). -/
theorem C126_abs (a : Fl) :
    number (abs a) = (number a).map absolute ∧ ((abs a).neg = true ↔ a = .fin true 0) := by
  have hlt : ∀ b : Fl, (b < .fin false 0) ↔ less b (.fin false 0) = true := fun _ => Iff.rfl
  cases a with
  | nan => exact ⟨rfl, by decide⟩
  | inf n => cases n <;> exact ⟨rfl, by decide⟩
  | fin n m =>
    unfold FloatSpecial.abs
    cases n with
    | false =>
      rw [if_neg (by rw [hlt]; simp [less])]
      refine ⟨?_, by simp [Fl.neg]⟩
      show _ = some ((((|(m : ℤ)| : ℤ) : WithTop ℤ) : Ext))
      rw [abs_of_nonneg (by omega)]; rfl
    | true =>
      by_cases hm : m = 0
      · subst hm
        exact ⟨rfl, by decide⟩
      · rw [if_pos (by rw [hlt]; simp [less, hm])]
        refine ⟨?_, by simp [negate, Fl.neg, hm]⟩
        show _ = some ((((|-(m : ℤ)| : ℤ) : WithTop ℤ) : Ext))
        rw [abs_neg, abs_of_nonneg (by omega)]; rfl

/-- C126 (partial: NaN is missing, see `C126_min_nan`). `min` and `max` denote the less and the greater number. -/
theorem C126_min_partial (a b : Fl) (x y : Ext) (ha : number a = some x) (hb : number b = some y) :
    number (FloatSpecial.min a b) = some (Min.min x y) ∧ number (FloatSpecial.max a b) = some (Max.max x y) := by
  unfold FloatSpecial.min FloatSpecial.max Value.min Value.max
  refine ⟨?_, ?_⟩
  · split
    · rename_i h
      rw [less_iff hb ha] at h
      rw [min_eq_right h.le]; exact hb
    · rename_i h
      rw [less_iff hb ha] at h
      rw [min_eq_left (not_lt.1 h)]; exact ha
  · split
    · rename_i h
      rw [less_iff ha hb] at h
      rw [max_eq_right h.le]; exact hb
    · rename_i h
      rw [less_iff ha hb] at h
      rw [max_eq_left (not_lt.1 h)]; exact ha

/-- C126. If one of the arguments of `min` or `max` is a NaN, the result is the first argument: it depends on the
order whether NaN is ignored. -/
theorem C126_min_nan (a b : Fl) (h : a = .nan ∨ b = .nan) :
    FloatSpecial.min a b = a ∧ FloatSpecial.max a b = a := by
  unfold FloatSpecial.min FloatSpecial.max Value.min Value.max
  rcases h with rfl | rfl
  · rw [(less_nan b).1, (less_nan b).2]
    exact ⟨rfl, rfl⟩
  · rw [(less_nan a).1, (less_nan a).2]
    exact ⟨rfl, rfl⟩

/-- C126 (partial: a NaN as the first element is missing, see `C126_first_nan`). `min` of a container refers to the first
element that denotes the least number, `max` to the first that denotes the greatest; NaN elements are ignored. -/
theorem C126_container_partial (a : Fl) (as : List Fl) (ha : a ≠ .nan) :
    (∃ i m x, Seq.minOf less (a :: as) = .ok (i, m) ∧ (a :: as)[i]? = some m ∧ number m = some x ∧
        (∀ b ∈ a :: as, ∀ y, number b = some y → x ≤ y) ∧
        ∀ j < i, ∀ b y, (a :: as)[j]? = some b → number b = some y → x < y) ∧
      ∃ i m x, Seq.maxOf less (a :: as) = .ok (i, m) ∧ (a :: as)[i]? = some m ∧ number m = some x ∧
        (∀ b ∈ a :: as, ∀ y, number b = some y → y ≤ x) ∧
        ∀ j < i, ∀ b y, (a :: as)[j]? = some b → number b = some y → y < x := by
  refine ⟨?_, ?_⟩
  · obtain ⟨i, m, h1, h2, h3, h4⟩ := C66_min ascending.lt ascending.swo (a :: as) (by simp)
    have hm : m ≠ .nan := by
      rintro rfl
      have := h3 a (List.mem_cons_self ..)
      simp only [Keyed.lt, decide_eq_false_iff_not, (ascending.top .nan).2 rfl] at this
      exact ha ((ascending.top a).1 (not_lt_top_iff.1 this))
    obtain ⟨x, hx⟩ := number_some hm
    refine ⟨i, m, x, by rw [ascending.minOf a as ha, h1], h2, hx, fun b hb y hy => ?_, fun j hj b y hb hy => ?_⟩
    · have := h3 b hb
      simp only [Keyed.lt, decide_eq_false_iff_not] at this
      rw [← ascending.less b m hm, less_iff hy hx] at this
      exact not_lt.1 this
    · have := h4 j b hj hb
      simp only [Keyed.lt, decide_eq_true_eq] at this
      rw [← ascending.less m b (by rintro rfl; cases hy), less_iff hx hy] at this
      exact this
  · obtain ⟨i, m, h1, h2, h3, h4⟩ := C66_min descending.lt descending.swo (a :: as) (by simp)
    have hm : m ≠ .nan := by
      rintro rfl
      have := h3 a (List.mem_cons_self ..)
      simp only [Keyed.lt, decide_eq_false_iff_not, (descending.top .nan).2 rfl] at this
      exact ha ((descending.top a).1 (not_lt_top_iff.1 this))
    obtain ⟨x, hx⟩ := number_some hm
    refine ⟨i, m, x, by rw [maxOf_flip, descending.minOf a as ha, h1], h2, hx, fun b hb y hy => ?_,
      fun j hj b y hb hy => ?_⟩
    · have := h3 b hb
      simp only [Keyed.lt, decide_eq_false_iff_not] at this
      rw [← descending.less b m hm, less_iff hx hy] at this
      exact not_lt.1 this
    · have := h4 j b hj hb
      simp only [Keyed.lt, decide_eq_true_eq] at this
      rw [← descending.less m b (by rintro rfl; cases hy), less_iff hy hx] at this
      exact this

/-- C126. If the first element is a NaN, `min` and `max` of the container refer to it. -/
theorem C126_first_nan (as : List Fl) :
    Seq.minOf less (.nan :: as) = .ok (0, .nan) ∧ Seq.maxOf less (.nan :: as) = .ok (0, .nan) :=
  ⟨minOf_nan _ (fun a => (less_nan a).1) as, by rw [maxOf_flip]; exact minOf_nan _ (fun a => (less_nan a).2) as⟩

/-- C126. Sorting a container is defined exactly if it has no NaN, or no two different numbers. -/
theorem C126_sort (as : List Fl) :
    Sortable less as ↔ .nan ∉ as ∨ ∀ a ∈ as, ∀ b ∈ as, less a b = false := by
  constructor
  · intro h
    by_cases hn : Fl.nan ∈ as
    · refine .inr fun a ha b hb => ?_
      exact (h.incomp a ha .nan hn b hb (less_nan a).1 (less_nan a).2 (less_nan b).2 (less_nan b).1).1
    · exact .inl hn
  · intro h
    rcases h with h | h
    · have hne : ∀ a ∈ as, a ≠ .nan := by rintro a ha rfl; exact h ha
      refine ⟨fun a ha => ?_, fun a ha b hb c hc => ?_, fun a ha b hb c hc => ?_⟩
      · obtain ⟨x, hx⟩ := number_some (hne a ha)
        rw [← Bool.not_eq_true, less_iff hx hx]
        exact lt_irrefl x
      · obtain ⟨x, hx⟩ := number_some (hne a ha)
        obtain ⟨y, hy⟩ := number_some (hne b hb)
        obtain ⟨z, hz⟩ := number_some (hne c hc)
        rw [less_iff hx hy, less_iff hy hz, less_iff hx hz]
        exact lt_trans
      · obtain ⟨x, hx⟩ := number_some (hne a ha)
        obtain ⟨y, hy⟩ := number_some (hne b hb)
        obtain ⟨z, hz⟩ := number_some (hne c hc)
        simp only [← Bool.not_eq_true, less_iff hx hy, less_iff hy hx, less_iff hy hz, less_iff hz hy, less_iff hx hz,
          less_iff hz hx, not_lt]
        exact fun h1 h2 h3 h4 => ⟨h3.trans h1, h2.trans h4⟩
    · exact ⟨fun a ha => h a ha a ha, fun a ha b hb c hc h1 => (by rw [h a ha b hb] at h1; cases h1),
        fun a ha b hb c hc _ _ _ _ => ⟨h a ha c hc, h c hc a ha⟩⟩

/-- C126. `contains`, `find` and `count` look for elements that denote the same number (the zeros are the same), and
never find a NaN; a container equals itself exactly if it has no NaN. -/
theorem C126_search (as : List Fl) (v : Fl) :
    (Seq.containsElem as v = true ↔ ∃ a ∈ as, ∃ x, number a = some x ∧ number v = some x) ∧
      SeqSpec.FirstOr (fun i => ∃ a x, as[i]? = some a ∧ number a = some x ∧ number v = some x) as.length
        (Seq.findElem as v) ∧
      Seq.count as v = (if v = .nan then 0 else (as.filter fun a => number a = number v).length) ∧
      (Seq.equals (fun a b => a == b) as as = true ↔ .nan ∉ as) := by
  have hf₀ := (C63_find_elem (fun a => a == v) as v).1
  have he : SeqSpec.ElemAt (fun a => a == v) as =
      fun i => ∃ a x, as[i]? = some a ∧ number a = some x ∧ number v = some x := by
    funext i
    simp only [SeqSpec.ElemAt, (C126_compare _ v).2.2, eq_iff_iff]
    constructor
    · rintro ⟨a, h, x, hx, hv⟩; exact ⟨a, x, h, hx, hv⟩
    · rintro ⟨a, x, h, hx, hv⟩; exact ⟨a, h, x, hx, hv⟩
  rw [he] at hf₀
  have hf : SeqSpec.FirstOr (fun i => ∃ a x, as[i]? = some a ∧ number a = some x ∧ number v = some x) as.length
      (Seq.findElem as v) := hf₀
  refine ⟨?_, hf, ?_, ?_⟩
  · unfold Seq.containsElem
    rw [bne_iff_ne]
    rcases hf with ⟨⟨a, x, h1, h2, h3⟩, -⟩ | ⟨h1, h2⟩
    · refine iff_of_true ?_ ⟨a, List.mem_of_getElem? h1, x, h2, h3⟩
      intro h
      rw [h] at h1
      simp at h1
    · refine iff_of_false (fun h => h h1) ?_
      rintro ⟨a, ha, x, hx, hv⟩
      obtain ⟨i, hi⟩ := List.getElem?_of_mem ha
      exact h2 i ⟨a, x, hi, hx, hv⟩
  · unfold Seq.count
    rw [Seq.countIfLoop_eq, List.countP_eq_length_filter, Nat.zero_add]
    split
    · rename_i h
      subst h
      rw [List.filter_eq_nil_iff.2]
      · rfl
      · intro a _
        show ¬ equal a .nan = true
        rw [(equal_nan a).1]; simp
    · rename_i h
      obtain ⟨x, hx⟩ := number_some h
      congr 1
      refine List.filter_congr fun a _ => ?_
      rw [Bool.eq_iff_iff, (C126_compare a v).2.2, hx]
      simp
  · clear hf hf₀ he
    unfold Seq.equals Seq.stdEqual4
    induction as with
    | nil => simp [Seq.allMatch]
    | cons a as ih =>
      simp only [Seq.allMatch, Bool.and_eq_true, List.mem_cons, not_or, (C126_compare a a).2.2]
      refine and_congr ?_ ih
      constructor
      · rintro ⟨x, hx, -⟩ rfl; cases hx
      · intro h
        obtain ⟨x, hx⟩ := number_some (Ne.symm h)
        exact ⟨x, hx, hx⟩

/-- C126. Ranges with a NaN are not equal to themselves, and `<=` and `>=` hold for any two of them although they
are not equal. -/
theorem C126_range (r s : Value.Range Fl) (hr : r.first = .nan) :
    Value.opEq r s = false ∧ Value.opLe r s = true ∧ Value.opGe r s = true ∧ Value.opLt r s = false ∧
      Value.opGt r s = false := by
  have h1 : (r.first == s.first) = false := by rw [hr]; exact (equal_nan _).2
  have h2 : (s.first == r.first) = false := by rw [hr]; exact (equal_nan _).1
  have h3 : decide (r.first < s.first) = false := by
    rw [decide_eq_false_iff_not, hr]
    show ¬ less .nan s.first = true
    rw [(less_nan _).2]; simp
  have h4 : decide (s.first < r.first) = false := by
    rw [decide_eq_false_iff_not, hr]
    show ¬ less s.first .nan = true
    rw [(less_nan _).1]; simp
  simp [Value.opEq, Value.opLe, Value.opGe, Value.opLt, Value.opGt, Value.isEqual, Value.isLess, h1, h2, h3, h4]

/-- C126. Ranges whose bounds are numbers are compared as the numbers are: zeros of both signs are the same bound. -/
theorem C126_range_numbers (r s : Value.Range Fl) (a b c d : Ext) (ha : number r.first = some a)
    (hb : number r.last = some b) (hc : number s.first = some c) (hd : number s.last = some d) :
    (Value.opEq r s = true ↔ a = c ∧ b = d) ∧ (Value.opLt r s = true ↔ a < c ∨ (a = c ∧ b < d)) ∧
      (Value.opLe r s = true ↔ a < c ∨ (a = c ∧ b ≤ d)) ∧
      (Value.isOverlapping r s = true ↔ a = c ∨ (a < d ∧ c < b)) ∧
      (Value.isLessNoOverlap r s = true ↔ a ≠ c ∧ b ≤ c) := by
  have e1 : (r.first == s.first) = decide (a = c) := by
    rw [Bool.eq_iff_iff, decide_eq_true_eq]; exact equal_iff ha hc
  have e1' : (s.first == r.first) = decide (c = a) := by
    rw [Bool.eq_iff_iff, decide_eq_true_eq]; exact equal_iff hc ha
  have e2 : (r.last == s.last) = decide (b = d) := by
    rw [Bool.eq_iff_iff, decide_eq_true_eq]; exact equal_iff hb hd
  have l1 : r.first < s.first ↔ a < c := FloatSpecial.less_iff ha hc
  have l1' : s.first < r.first ↔ c < a := FloatSpecial.less_iff hc ha
  have l2 : r.last < s.last ↔ b < d := FloatSpecial.less_iff hb hd
  have l2' : s.last < r.last ↔ d < b := FloatSpecial.less_iff hd hb
  have l3 : r.first < s.last ↔ a < d := FloatSpecial.less_iff ha hd
  have l4 : s.first < r.last ↔ c < b := FloatSpecial.less_iff hc hb
  have l5 : r.last ≤ s.first ↔ b ≤ c := by
    show less r.last s.first = true ∨ equal r.last s.first = true ↔ _
    rw [FloatSpecial.less_iff hb hc, equal_iff hb hc, le_iff_lt_or_eq]
  refine ⟨?_, ?_, ?_, ?_, ?_⟩
  · simp [Value.opEq, Value.isEqual, e1, e2]
  · simp only [Value.opLt, Value.isLess, e1, l1, l2, decide_eq_true_eq]
    by_cases h : a = c
    · rw [if_pos h]; simp [h]
    · rw [if_neg h]; simp [h]
  · simp only [Value.opLe, Value.isLess, e1', l1', l2', decide_eq_true_eq]
    by_cases h : a = c
    · rw [if_pos h.symm]; simp [h]
    · rw [if_neg (Ne.symm h)]; simp [h, le_iff_lt_or_eq]
  · simp [Value.isOverlapping, e1, l3, l4]
  · simp [Value.isLessNoOverlap, bne, e1, l5]

example : Value.opEq (⟨.fin true 0, .fin false 5⟩ : Value.Range Fl) ⟨.fin false 0, .fin false 5⟩ = true ∧
    Value.isOverlapping (⟨.inf true, .fin false 5⟩ : Value.Range Fl) ⟨.fin false 4, .inf false⟩ = true := by decide

/-- C126. A range that begins with a NaN overlaps no range, itself included; of it and itself neither is less without
overlap either, so that a `std::set` ordered by `is_less_no_overlap` takes it for equal to a range it does not
overlap. -/
theorem C126_range_overlap (r : Value.Range Fl) (hr : r.first = .nan) :
    (∀ s, Value.isOverlapping r s = false ∧ Value.isOverlapping s r = false) ∧
      Value.isLessNoOverlap r r = false := by
  have e : ∀ a : Fl, (a == r.first) = false ∧ (r.first == a) = false := by
    intro a; rw [hr]; exact equal_nan a
  have l : ∀ a : Fl, ¬ a < r.first ∧ ¬ r.first < a := by
    intro a; rw [hr]
    refine ⟨?_, ?_⟩
    · show ¬ less a .nan = true
      rw [(less_nan a).1]; simp
    · show ¬ less .nan a = true
      rw [(less_nan a).2]; simp
  have k : ¬ r.last ≤ r.first := by
    rintro (h | h)
    · exact (l _).1 h
    · have := (e r.last).1
      rw [show (r.last == r.first) = equal r.last r.first from rfl, h] at this; cases this
  refine ⟨fun s => ?_, ?_⟩
  · simp [Value.isOverlapping, e, l]
  · simp [Value.isLessNoOverlap, k]

/-- C126. `round` of a finite number is the nearest integer, halfway cases away from zero, with the sign of the
argument; infinities and NaN stay what they are. -/
theorem C126_round (u : Nat) (a : Fl) :
    (FloatSpecial.round u a).neg = a.neg ∧ ((∀ n m, a ≠ .fin n m) → FloatSpecial.round u a = a) ∧
      ∀ n m, a = .fin n m → ∃ k : ℕ, FloatSpecial.round u a = .fin n (k * 2 ^ u) ∧ FloatSpec.IsRound m u k := by
  refine ⟨by cases a <;> rfl, fun h => ?_, fun n m h => ?_⟩
  · cases a with
    | fin n m => exact absurd rfl (h n m)
    | _ => rfl
  · subst h
    exact ⟨_, rfl, Float.isRound_nat m u⟩

/-- C126. The texts of infinities and of NaN; `str_to` of each of them is 0. -/
theorem C126_text (p u : Nat) :
    FloatSpecial.str u (.inf true) = "-inf".toList ∧ FloatSpecial.str u (.inf false) = "inf".toList ∧
      FloatSpecial.str u .nan = "nan".toList ∧
      (∀ n, FloatText.strToFloat p (FloatSpecial.str u (.inf n)) = .ok 0) ∧
      FloatText.strToFloat p (FloatSpecial.str u .nan) = .ok 0 := by
  refine ⟨by simp [FloatSpecial.str], by simp [FloatSpecial.str], by simp [FloatSpecial.str], fun n => ?_, ?_⟩
  · cases n <;> simp [FloatSpecial.str, FloatText.strToFloat, FloatText.readNumber, Num.isSpace, FloatText.readSign, FloatText.readDecimal,
      FloatText.readFraction, FloatText.toBinary]
  · simp [FloatSpecial.str, FloatText.strToFloat, FloatText.readNumber, Num.isSpace, FloatText.readSign, FloatText.readDecimal,
      FloatText.readFraction, FloatText.toBinary]

/-- C126. The texts of the zeros differ in the sign; those of other finite numbers are as in C103. -/
theorem C126_text_finite (u : Nat) (n : Bool) (m : Nat) (hm : m ≠ 0) :
    FloatSpecial.str u (.fin true 0) = ['-', '0'] ∧ FloatSpecial.str u (.fin false 0) = ['0'] ∧
      FloatSpecial.str u (.fin n m) = FloatText.strFloat ((if n then -1 else 1) * (m / 2 ^ u)) := by
  have hpos : (0 : ℚ) < m / 2 ^ u := div_pos (by exact_mod_cast Nat.pos_of_ne_zero hm) (by positivity)
  refine ⟨by simp [FloatSpecial.str, FloatText.strFloat], by simp [FloatSpecial.str, FloatText.strFloat], ?_⟩
  cases n with
  | false => simp [FloatSpecial.str]
  | true =>
    have h1 : ¬ ((m : ℚ) / 2 ^ u = 0) := hpos.ne'
    have h2 : ¬ ((m : ℚ) / 2 ^ u < 0) := not_lt.2 hpos.le
    have h3 : -((m : ℚ) / 2 ^ u) < 0 := by linarith
    simp only [FloatSpecial.str, FloatText.strFloat, if_true, neg_one_mul, neg_eq_zero, neg_neg]
    rw [if_neg h1, if_neg h2, if_neg h1, if_pos h3]
    rfl

/-- A number, zeros, infinities and a NaN. -/
example : FloatSpecial.abs (.fin true 3) = .fin false 3 ∧ FloatSpecial.abs (.fin true 0) = .fin true 0 ∧
    FloatSpecial.min .nan (.fin false 1) = .nan ∧ FloatSpecial.min (.fin false 1) .nan = .fin false 1 ∧
    Seq.minOf less [.fin false 1, .nan, .inf true] = .ok (2, .inf true) ∧
    Seq.minOf less [.nan, .fin false 1, .inf true] = .ok (0, .nan) ∧
    Seq.containsElem [Fl.nan, .fin true 0] .nan = false ∧ Seq.containsElem [Fl.nan, .fin true 0] (.fin false 0) = true ∧
    FloatSpecial.round 1 (.fin true 3) = .fin true 4 ∧ FloatSpecial.round 2 (.fin true 1) = .fin true 0 := by decide

/-- Sorting is not defined. -/
example : ¬ Sortable less [.fin false 1, .nan, .fin false 2] := by
  rw [C126_sort]
  rintro (h | h)
  · exact h (by simp)
  · exact absurd (h (.fin false 1) (by simp) (.fin false 2) (by simp)) (by decide)

end Pluto.Props
