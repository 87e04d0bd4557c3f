import Verif.Proofs.RangeTable
import Mathlib.Data.Int.Order.Basic

/-! # A table of ranges ordered by `is_less_no_overlap` (C147) -/

namespace Pluto.Props

open Value RangeTable

variable {α : Type} [LinearOrder α]

/-- C147.  The ranges in a table do not overlap, so no value lies in two of them; they are visited in increasing order:
all values of one before all values of the next, and none begins before or where an earlier one does. -/
theorem C147_disjoint (t : Tree (Range α)) (h : Reach WellFormed t) :
    t.toList.Pairwise (fun r s => ¬ Overlap r s ∧ r.first < s.first ∧ ∀ x y, Holds r x → Holds s y → x < y) ∧
      ∀ x, ∀ r ∈ t.toList, ∀ s ∈ t.toList, Holds r x → Holds s x → r = s := by
  have hs := h.sorted
  have hp : t.toList.Pairwise (fun r s => ¬ Overlap r s ∧ r.first < s.first ∧ ∀ x y, Holds r x → Holds s y → x < y) := by
    refine hs.lt.imp_of_mem ?_
    intro r s hr _ hrs
    refine ⟨?_, ?_, ?_⟩
    · rw [overlap_iff, hrs]; simp
    · rw [RangeTable.less_iff] at hrs
      exact lt_of_le_of_ne ((hs.wf r hr).trans hrs.2) hrs.1
    · intro x y hx hy
      rw [RangeTable.less_iff] at hrs
      exact lt_of_lt_of_le hx.2 (hrs.2.trans hy.1)
  refine ⟨hp, ?_⟩
  intro x r hr s hs' hx hy
  by_contra c
  rcases List.mem_iff_getElem.mp hr with ⟨i, hi, rfl⟩
  rcases List.mem_iff_getElem.mp hs' with ⟨j, hj, rfl⟩
  rcases Nat.lt_trichotomy i j with hij | rfl | hij
  · exact lt_irrefl x ((List.pairwise_iff_getElem.mp hp i j hi hj hij).2.2 x x hx hy)
  · exact c rfl
  · exact lt_irrefl x ((List.pairwise_iff_getElem.mp hp j i hj hi hij).2.2 x x hy hx)

/-- C147.  `insert` inserts a range exactly if it overlaps none in the table; the table then has it and what it had. -/
theorem C147_insert (t : Tree (Range α)) (h : Reach WellFormed t) (k : Range α) (hk : WellFormed k) :
    (inserted t k = none ↔ ∃ r ∈ t.toList, Overlap r k) ∧
      ∀ L, inserted t k = some L → L.Perm (k :: t.toList) := by
  rcases inserted_spec k hk t h.sorted with ⟨A, B, e, ha, hb, hi⟩ | ⟨hn, v, hv, ho⟩
  · refine ⟨?_, ?_⟩
    · rw [hi]
      refine iff_of_false (by simp) ?_
      rintro ⟨r, hr, ho⟩
      rw [overlap_iff] at ho
      rw [e] at hr
      rcases List.mem_append.mp hr with hr | hr
      · rw [ha r hr] at ho; cases ho.1
      · rw [hb r hr] at ho; cases ho.2
    · intro L hL
      rw [hi] at hL
      cases hL
      rw [e]
      exact List.perm_middle
  · refine ⟨iff_of_true hn ⟨v, hv, ho⟩, ?_⟩
    intro L hL
    rw [hn] at hL; cases hL

/-- C147.  `find` of a range yields the first range in the table that overlaps it, and nothing exactly if there is
none. -/
theorem C147_find (t : Tree (Range α)) (h : Reach WellFormed t) (k : Range α) (hk : WellFormed k) :
    (find t k = none ↔ ∀ r ∈ t.toList, ¬ Overlap r k) ∧
      ∀ r, find t k = some r → Overlap r k ∧ ∃ A B, t.toList = A ++ r :: B ∧ ∀ a ∈ A, ¬ Overlap a k := by
  have hs := h.sorted
  obtain ⟨A, B, e, n, ha, hb⟩ := lowerBound_spec k t hs
  have hA : ∀ a ∈ A, ¬ Overlap a k := by
    intro a hm ho
    rw [overlap_iff, ha a hm] at ho
    cases ho.1
  have hg : t.toList[lowerBound k t]? = B.head? := by
    rw [e, ← n, List.getElem?_append_right (Nat.le_refl _), Nat.sub_self, List.head?_eq_getElem?]
  unfold find
  rw [hg]
  cases B with
  | nil =>
    refine ⟨iff_of_true rfl ?_, by simp⟩
    intro r hr
    rw [e, List.append_nil] at hr
    exact hA r hr
  | cons v B =>
    have hlt := hs.lt
    rw [e, List.pairwise_append, List.pairwise_cons] at hlt
    have hv : WellFormed v := hs.wf v (by rw [e]; simp)
    by_cases c : isLessNoOverlap k v = true
    · have hf : (Option.filter (fun v => !isLessNoOverlap k v) (v :: B).head?) = none := by simp [c]
      rw [hf]
      refine ⟨iff_of_true rfl ?_, by simp⟩
      intro r hr ho
      rw [e] at hr
      rcases List.mem_append.mp hr with hr | hr
      · exact hA r hr ho
      · rw [overlap_iff] at ho
        rcases List.mem_cons.mp hr with rfl | hr
        · rw [c] at ho; cases ho.2
        · rw [less_trans hk hv c (hlt.2.1.1 r hr)] at ho; cases ho.2
    · have c' := Bool.eq_false_iff.mpr c
      have hf : (Option.filter (fun v => !isLessNoOverlap k v) (v :: B).head?) = some v := by simp [c']
      have ho : Overlap v k := (overlap_iff _ _).mpr ⟨hb v (by simp), c'⟩
      rw [hf]
      refine ⟨iff_of_false (by simp) (fun hall => hall v (by rw [e]; simp) ho), ?_⟩
      intro r hr
      cases hr
      exact ⟨ho, A, B, e, hA⟩

/-- C147.  `find` of the empty range at a value yields the range in which the value lies; if there is none, it yields
the empty range at the value, if the table has that, and otherwise nothing. -/
theorem C147_value (t : Tree (Range α)) (h : Reach WellFormed t) (x : α) :
    (∀ r ∈ t.toList, Holds r x → find t ⟨x, x⟩ = some r) ∧
      ∀ r, find t ⟨x, x⟩ = some r → r ∈ t.toList ∧ (Holds r x ∨ r = ⟨x, x⟩) := by
  have hk : WellFormed (⟨x, x⟩ : Range α) := le_refl x
  have key : ∀ r ∈ t.toList, (Overlap r ⟨x, x⟩ ↔ Holds r x ∨ r = ⟨x, x⟩) := by
    rintro ⟨a, b⟩ hr
    have hw : a ≤ b := h.sorted.wf _ hr
    simp only [Overlap, Holds, Range.mk.injEq]
    constructor
    · rintro (rfl | ⟨h1, h2⟩)
      · rcases hw.lt_or_eq with h1 | h1
        · exact .inl ⟨le_refl _, h1⟩
        · exact .inr ⟨rfl, h1.symm⟩
      · exact .inl ⟨h1.le, h2⟩
    · rintro (⟨h1, h2⟩ | ⟨h1, h2⟩)
      · rcases h1.lt_or_eq with h1 | h1
        · exact .inr ⟨h1, h2⟩
        · exact .inl h1
      · exact .inl h1
  obtain ⟨f1, f2⟩ := C147_find t h ⟨x, x⟩ hk
  have mem : ∀ r, find t ⟨x, x⟩ = some r → r ∈ t.toList ∧ Overlap r ⟨x, x⟩ := by
    intro r hr
    obtain ⟨ho, A, B, e, -⟩ := f2 r hr
    exact ⟨by rw [e]; simp, ho⟩
  refine ⟨?_, fun r hr => ⟨(mem r hr).1, (key r (mem r hr).1).mp (mem r hr).2⟩⟩
  intro r hr hx
  have ho := (key r hr).mpr (.inl hx)
  cases hf : find t ⟨x, x⟩ with
  | none => exact absurd ho (f1.mp hf r hr)
  | some s =>
    obtain ⟨hs, ho'⟩ := mem s hf
    rcases (key s hs).mp ho' with hx' | rfl
    · rw [(C147_disjoint t h).2 x s hs r hr hx' hx]
    · by_contra c
      have c : r ≠ ⟨x, x⟩ := fun e => c (by rw [e])
      rcases List.mem_iff_getElem.mp hr with ⟨i, hi, rfl⟩
      rcases List.mem_iff_getElem.mp hs with ⟨j, hj, ej⟩
      have hp := List.pairwise_iff_getElem.mp (C147_disjoint t h).1
      rcases Nat.lt_trichotomy i j with hij | rfl | hij
      · refine (hp i j hi hj hij).1 ?_
        rw [ej]; exact ho
      · exact c ej
      · refine (hp j i hj hi hij).1 ?_
        rw [ej]; exact ho.symm

/-- C147.  `erase` of a range takes out exactly the ranges that overlap it and keeps the others in order. -/
theorem C147_erase (t : Tree (Range α)) (h : Reach WellFormed t) (k : Range α) (hk : WellFormed k) :
    (erased t k).Sublist t.toList ∧ ∀ r ∈ t.toList, (r ∈ erased t k ↔ ¬ Overlap r k) := by
  obtain ⟨A, M, B, e, e', ha, hb, hm⟩ := erased_spec k hk t h.sorted
  have hA : ∀ a ∈ A, ¬ Overlap a k := by
    intro a h1 ho
    rw [overlap_iff, ha a h1] at ho; cases ho.1
  have hB : ∀ b ∈ B, ¬ Overlap b k := by
    intro b h1 ho
    rw [overlap_iff, hb b h1] at ho; cases ho.2
  rw [e, e']
  refine ⟨List.Sublist.append (List.Sublist.refl _) (List.sublist_append_right _ _), ?_⟩
  intro r hr
  simp only [List.mem_append] at hr ⊢
  constructor
  · rintro (h1 | h1)
    · exact hA r h1
    · exact hB r h1
  · intro hn
    rcases hr with h1 | h1 | h1
    · exact .inl h1
    · exact absurd (hm r h1) hn
    · exact .inr h1

/-- The tree after inserting three ranges, each before the other, and the rotation that a red-black tree then makes. -/
def exampleTable (a b c : Range Int) : Tree (Range Int) := .node (.node .leaf c .leaf) b (.node .leaf a .leaf)

/-- The hypotheses of C147 are met: 10-20, 5-10 and 0-3 are inserted in this order; 7 is found in 5-10 and 4 in none,
8-12 is not inserted, and erasing 2-6 takes two ranges out. -/
example : ∃ t : Tree (Range Int), Reach WellFormed t ∧ t.toList = [⟨0, 3⟩, ⟨5, 10⟩, ⟨10, 20⟩] ∧
    find t ⟨7, 7⟩ = some ⟨5, 10⟩ ∧ find t ⟨4, 4⟩ = none ∧ inserted t ⟨8, 12⟩ = none ∧ erased t ⟨2, 6⟩ = [⟨10, 20⟩] := by
  have h1 : Reach WellFormed (.node .leaf (⟨10, 20⟩ : Range Int) .leaf) :=
    .insert ⟨10, 20⟩ .empty (by simp [WellFormed]) (by decide)
  have h2 : Reach WellFormed (.node (.node .leaf ⟨5, 10⟩ .leaf) (⟨10, 20⟩ : Range Int) .leaf) :=
    .insert ⟨5, 10⟩ h1 (by simp [WellFormed]) (by decide)
  have h3 : Reach WellFormed (exampleTable ⟨10, 20⟩ ⟨5, 10⟩ ⟨0, 3⟩) :=
    .insert ⟨0, 3⟩ h2 (by simp [WellFormed]) (by decide)
  exact ⟨_, h3, by decide, by decide, by decide, by decide, by decide⟩

/-- C147 needs that ranges do not end before they begin: after 5-1, 4-2 and 0-0 the table takes 5-1 a second time. -/
theorem C147_malformed : ∃ t : Tree (Range Int), Reach (fun _ => True) t ∧
    t.toList = [⟨0, 0⟩, ⟨4, 2⟩, ⟨5, 1⟩] ∧ inserted t ⟨5, 1⟩ = some [⟨0, 0⟩, ⟨5, 1⟩, ⟨4, 2⟩, ⟨5, 1⟩] := by
  have h1 : Reach (fun _ => True) (.node .leaf (⟨5, 1⟩ : Range Int) .leaf) :=
    .insert ⟨5, 1⟩ .empty trivial (by decide)
  have h2 : Reach (fun _ => True) (.node (.node .leaf ⟨4, 2⟩ .leaf) (⟨5, 1⟩ : Range Int) .leaf) :=
    .insert ⟨4, 2⟩ h1 trivial (by decide)
  have h3 : Reach (fun _ => True) (exampleTable ⟨5, 1⟩ ⟨4, 2⟩ ⟨0, 0⟩) :=
    .insert ⟨0, 0⟩ h2 trivial (by decide)
  exact ⟨_, h3, by decide, by decide⟩

end Pluto.Props
