import Verif.Model.RangeTable
import Verif.Spec.RangeTable
import Mathlib.Order.Defs.LinearOrder
import Mathlib.Tactic.Common

/-! # Lemmas about tables of ranges -/

namespace Pluto.RangeTable

open Value

variable {α : Type} [LinearOrder α]

theorem less_iff (r s : Range α) : isLessNoOverlap r s = true ↔ r.first ≠ s.first ∧ r.last ≤ s.first := by
  simp [isLessNoOverlap]

theorem less_trans {r s t : Range α} (hr : WellFormed r) (hs : WellFormed s)
    (h1 : isLessNoOverlap r s = true) (h2 : isLessNoOverlap s t = true) : isLessNoOverlap r t = true := by
  rw [less_iff] at *
  have a : r.first < s.first := lt_of_le_of_ne (le_trans hr h1.2) h1.1
  have b : s.first < t.first := lt_of_le_of_ne (le_trans hs h2.2) h2.1
  exact ⟨(a.trans b).ne, h1.2.trans b.le⟩

theorem less_asymm {r s : Range α} (hr : WellFormed r) (hs : WellFormed s)
    (h1 : isLessNoOverlap r s = true) : isLessNoOverlap s r = false := by
  rw [Bool.eq_false_iff]
  intro h2
  have := less_trans hr hs h1 h2
  rw [less_iff] at this
  exact this.1 rfl

theorem overlap_iff (r s : Range α) :
    Overlap r s ↔ isLessNoOverlap r s = false ∧ isLessNoOverlap s r = false := by
  rw [Bool.eq_false_iff, Bool.eq_false_iff, Ne, Ne, less_iff, less_iff]
  unfold Overlap
  constructor
  · rintro (h | ⟨h1, h2⟩)
    · exact ⟨fun c => c.1 h, fun c => c.1 h.symm⟩
    · exact ⟨fun c => absurd h2 (not_lt.mpr c.2), fun c => absurd h1 (not_lt.mpr c.2)⟩
  · rintro ⟨h1, h2⟩
    by_cases h : r.first = s.first
    · exact .inl h
    · refine .inr ⟨?_, ?_⟩
      · by_contra c
        exact h2 ⟨fun e => h e.symm, not_lt.mp c⟩
      · by_contra c
        exact h1 ⟨h, not_lt.mp c⟩

theorem Overlap.symm {r s : Range α} (h : Overlap r s) : Overlap s r := by
  rcases h with h | ⟨h1, h2⟩
  · exact .inl h.symm
  · exact .inr ⟨h2, h1⟩

/-- The invariant: the elements are well-formed and increase. -/
structure Sorted (L : List (Range α)) : Prop where
  wf : ∀ v ∈ L, WellFormed v
  lt : L.Pairwise fun a b => isLessNoOverlap a b = true

theorem Sorted.node {l r : Tree (Range α)} {v : Range α} (h : Sorted (Tree.node l v r).toList) :
    Sorted l.toList ∧ Sorted r.toList ∧ WellFormed v ∧ (∀ a ∈ l.toList, isLessNoOverlap a v = true) ∧
      ∀ b ∈ r.toList, isLessNoOverlap v b = true := by
  obtain ⟨hw, hl⟩ := h
  simp only [Tree.toList, List.pairwise_append, List.pairwise_cons, List.mem_append, List.mem_cons] at hw hl
  exact ⟨⟨fun a ha => hw a (.inl ha), hl.1⟩, ⟨fun a ha => hw a (.inr (.inr ha)), hl.2.1.2⟩, hw v (.inr (.inl rfl)),
    fun a ha => hl.2.2 a ha v (.inl rfl), hl.2.1.1⟩

theorem lowerBound_spec (k : Range α) (t : Tree (Range α)) (h : Sorted t.toList) :
    ∃ A B, t.toList = A ++ B ∧ A.length = lowerBound k t ∧ (∀ a ∈ A, isLessNoOverlap a k = true) ∧
      ∀ b ∈ B, isLessNoOverlap b k = false := by
  induction t with
  | leaf => exact ⟨[], [], rfl, rfl, by simp, by simp⟩
  | node l v r ihl ihr =>
    obtain ⟨hl, hr, hv, hlv, hvr⟩ := h.node
    by_cases c : isLessNoOverlap v k = true
    · obtain ⟨A, B, e, n, ha, hb⟩ := ihr hr
      refine ⟨l.toList ++ v :: A, B, by simp [Tree.toList, e], ?_, ?_, hb⟩
      · rw [lowerBound, if_pos c, ← n]; simp; omega
      · intro a hm
        rcases List.mem_append.mp hm with hm | hm
        · exact less_trans (hl.wf a hm) hv (hlv a hm) c
        · rcases List.mem_cons.mp hm with rfl | hm
          · exact c
          · exact ha a hm
    · obtain ⟨A, B, e, n, ha, hb⟩ := ihl hl
      refine ⟨A, B ++ v :: r.toList, by simp [Tree.toList, e], ?_, ha, ?_⟩
      · rw [lowerBound, if_neg c, ← n]
      · intro b hm
        rcases List.mem_append.mp hm with hm | hm
        · exact hb b hm
        · rcases List.mem_cons.mp hm with rfl | hm
          · exact Bool.eq_false_iff.mpr c
          · rw [Bool.eq_false_iff]
            exact fun d => c (less_trans hv (hr.wf b hm) (hvr b hm) d)

theorem upperBound_spec (k : Range α) (hk : WellFormed k) (t : Tree (Range α)) (h : Sorted t.toList) :
    ∃ A B, t.toList = A ++ B ∧ A.length = upperBound k t ∧ (∀ a ∈ A, isLessNoOverlap k a = false) ∧
      ∀ b ∈ B, isLessNoOverlap k b = true := by
  induction t with
  | leaf => exact ⟨[], [], rfl, rfl, by simp, by simp⟩
  | node l v r ihl ihr =>
    obtain ⟨hl, hr, hv, hlv, hvr⟩ := h.node
    by_cases c : isLessNoOverlap k v = true
    · obtain ⟨A, B, e, n, ha, hb⟩ := ihl hl
      refine ⟨A, B ++ v :: r.toList, by simp [Tree.toList, e], ?_, ha, ?_⟩
      · rw [upperBound, if_pos c, ← n]
      · intro b hm
        rcases List.mem_append.mp hm with hm | hm
        · exact hb b hm
        · rcases List.mem_cons.mp hm with rfl | hm
          · exact c
          · exact less_trans hk hv c (hvr b hm)
    · obtain ⟨A, B, e, n, ha, hb⟩ := ihr hr
      refine ⟨l.toList ++ v :: A, B, by simp [Tree.toList, e], ?_, ?_, hb⟩
      · rw [upperBound, if_neg c, ← n]; simp; omega
      · intro a hm
        rcases List.mem_append.mp hm with hm | hm
        · rw [Bool.eq_false_iff]
          exact fun d => c (less_trans hk (hl.wf a hm) d (hlv a hm))
        · rcases List.mem_cons.mp hm with rfl | hm
          · exact Bool.eq_false_iff.mpr c
          · exact ha a hm

theorem inserted_spec (k : Range α) (hk : WellFormed k) (t : Tree (Range α)) (h : Sorted t.toList) :
    (∃ A B, t.toList = A ++ B ∧ (∀ a ∈ A, isLessNoOverlap a k = true) ∧ (∀ b ∈ B, isLessNoOverlap k b = true) ∧
        inserted t k = some (A ++ k :: B)) ∨
      (inserted t k = none ∧ ∃ v ∈ t.toList, Overlap v k) := by
  obtain ⟨A, B, e, n, ha, hb⟩ := upperBound_spec k hk t h
  have ht : t.toList.take (upperBound k t) = A := by rw [e, ← n]; simp
  have hd : t.toList.drop (upperBound k t) = B := by rw [e, ← n]; simp
  have hlt := h.lt
  rw [e, List.pairwise_append] at hlt
  unfold inserted
  simp only [ht, hd]
  rcases List.eq_nil_or_concat A with rfl | ⟨A', v, rfl⟩
  · exact .inl ⟨[], B, e, by simp, hb, by simp⟩
  · rw [List.concat_eq_append] at *
    have hv : WellFormed v := h.wf v (by rw [e]; simp)
    by_cases c : isLessNoOverlap v k = true
    · refine .inl ⟨A' ++ [v], B, e, ?_, hb, by simp [c]⟩
      intro a hm
      rcases List.mem_append.mp hm with hm | hm
      · have := (List.pairwise_append.mp hlt.1).2.2 a hm v (by simp)
        exact less_trans (h.wf a (by rw [e]; simp [hm])) hv this c
      · rw [List.mem_singleton.mp hm]; exact c
    · refine .inr ⟨by simp [c], v, by rw [e]; simp, ?_⟩
      rw [overlap_iff]
      exact ⟨Bool.eq_false_iff.mpr c, ha v (by simp)⟩

theorem erased_spec (k : Range α) (hk : WellFormed k) (t : Tree (Range α)) (h : Sorted t.toList) :
    ∃ A M B, t.toList = A ++ (M ++ B) ∧ erased t k = A ++ B ∧ (∀ a ∈ A, isLessNoOverlap a k = true) ∧
      (∀ b ∈ B, isLessNoOverlap k b = true) ∧ ∀ m ∈ M, Overlap m k := by
  obtain ⟨A, B, e, n, ha, hb⟩ := lowerBound_spec k t h
  obtain ⟨C, D, e', n', hc, hd⟩ := upperBound_spec k hk t h
  have hlen : A.length ≤ C.length := by
    by_contra c
    have c' : C.length < A.length := by omega
    have hm : A[C.length] ∈ A := List.getElem_mem _
    have hD : A[C.length] ∈ D := by
      have h1 : (A ++ B)[C.length]? = (C ++ D)[C.length]? := by rw [← e, ← e']
      rw [List.getElem?_append_left c', List.getElem?_append_right (Nat.le_refl _), Nat.sub_self] at h1
      rw [List.getElem?_eq_getElem c'] at h1
      exact List.mem_of_getElem? h1.symm
    have hw : WellFormed A[C.length] := h.wf _ (by rw [e]; exact List.mem_append_left _ hm)
    have := less_asymm hw hk (ha _ hm)
    rw [hd _ hD] at this
    cases this
  obtain ⟨M, rfl⟩ : ∃ M, C = A ++ M := by
    refine ⟨C.drop A.length, ?_⟩
    have : C.take A.length = A := by
      have h1 : (C ++ D).take A.length = (A ++ B).take A.length := by rw [← e, ← e']
      rwa [List.take_append_of_le_length hlen, List.take_left'] at h1
      rfl
    conv_lhs => rw [← List.take_append_drop A.length C, this]
  have hB : B = M ++ D := by
    have : A ++ B = A ++ (M ++ D) := by rw [← e, e', List.append_assoc]
    exact List.append_cancel_left this
  refine ⟨A, M, D, by rw [e', List.append_assoc], ?_, ha, hd, ?_⟩
  · unfold erased
    rw [← n, ← n', e']
    simp
  · intro m hm
    rw [overlap_iff]
    exact ⟨hb m (by rw [hB]; simp [hm]), hc m (by simp [hm])⟩

theorem Reach.sorted {t : Tree (Range α)} (h : Reach WellFormed t) : Sorted t.toList := by
  induction h with
  | empty => exact ⟨by simp [Tree.toList], by simp [Tree.toList]⟩
  | @insert t t' k _ hk hi ih =>
    rcases inserted_spec k hk t ih with ⟨A, B, e, ha, hb, hi'⟩ | ⟨hn, -⟩
    · rw [hi] at hi'
      obtain ⟨hw, hl⟩ := ih
      rw [e] at hw hl
      rw [Option.some.inj hi']
      rw [List.pairwise_append] at hl
      refine ⟨?_, ?_⟩
      · intro v hv
        simp only [List.mem_append, List.mem_cons] at hv hw
        rcases hv with hv | rfl | hv
        · exact hw v (.inl hv)
        · exact hk
        · exact hw v (.inr hv)
      · rw [List.pairwise_append, List.pairwise_cons]
        refine ⟨hl.1, ⟨hb, hl.2.1⟩, ?_⟩
        intro a hm b hb'
        rcases List.mem_cons.mp hb' with rfl | hb'
        · exact ha a hm
        · exact hl.2.2 a hm b hb'
    · rw [hi] at hn; cases hn
  | @erase t t' k _ hk he ih =>
    obtain ⟨A, M, B, e, e', -⟩ := erased_spec k hk t ih
    have hs : (A ++ B).Sublist t.toList := by
      rw [e]
      exact List.Sublist.append (List.Sublist.refl _) (List.sublist_append_right _ _)
    rw [he, e']
    exact ⟨fun v hv => ih.wf v (hs.subset hv), ih.lt.sublist hs⟩

end Pluto.RangeTable
