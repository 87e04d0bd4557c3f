import Verif.Model.MapInto
import Verif.Proofs.Seq

/-! # `map` into multisets, multimaps and the source -/

namespace Pluto.MapInto
open Pluto.Seq Pluto.SeqSpec

variable {α β : Type}

/-- In order, if equivalent elements are allowed. -/
def InOrder (less : β → β → Bool) (d : List β) : Prop := d.Pairwise fun a b => less b a = false

theorem neg_trans {less : β → β → Bool} (hl : StrictWeakOrder less) {a b c : β} (h1 : less b a = false)
    (h2 : less c b = false) : less c a = false := by
  cases h : less c a with
  | false => rfl
  | true =>
    exfalso
    cases hab : less a b with
    | true => have := hl.trans _ _ _ h hab; rw [h2] at this; cases this
    | false =>
      cases hbc : less b c with
      | true => have := hl.trans _ _ _ hbc h; rw [h1] at this; cases this
      | false => have := (hl.incomp a b c hab h1 hbc h2).2; rw [h] at this; cases this

theorem less_of_equiv {less : β → β → Bool} (hl : StrictWeakOrder less) {a b c : β} (h1 : less a b = true)
    (h2 : Equivalent less b c) : less a c = true := by
  cases h : less a c with
  | true => rfl
  | false =>
    have := neg_trans hl h2.2 h
    rw [h1] at this; cases this

theorem of_takeWhile {p : β → Bool} {d : List β} {i : Nat} (hi : i ≤ (d.takeWhile p).length) : ∀ x ∈ d.take i, p x = true := by
  intro x hx
  have : d.take i = (d.takeWhile p).take i := by
    conv_lhs => rw [← List.takeWhile_append_dropWhile (p := p) (l := d)]
    rw [List.take_append_of_le_length hi]
  rw [this] at hx
  exact List.all_eq_true.1 List.all_takeWhile x (List.mem_of_mem_take hx)

theorem takeWhile_all {p : β → Bool} {d : List β} (h : ∀ x ∈ d, p x = true) : d.takeWhile p = d := by
  induction d with
  | nil => rfl
  | cons x d ih => rw [List.takeWhile_cons, h x (by simp), if_pos rfl, ih fun y hy => h y (by simp [hy])]

theorem not_less_from {less : β → β → Bool} (hl : StrictWeakOrder less) {d : List β} (hd : InOrder less d) (v : β) {i : Nat}
    (hi : lowerBound less v d ≤ i) : ∀ y ∈ d.drop i, less y v = false := by
  unfold InOrder at hd
  induction d generalizing i with
  | nil => simp
  | cons x d ih =>
    have hd' := List.pairwise_cons.1 hd
    unfold lowerBound at hi ih
    rw [List.takeWhile_cons] at hi
    cases hx : less x v with
    | true =>
      rw [hx] at hi
      simp only [if_true, List.length_cons] at hi
      obtain ⟨j, rfl⟩ : ∃ j, i = j + 1 := ⟨i - 1, by omega⟩
      rw [List.drop_succ_cons]
      exact ih hd'.2 (by omega)
    | false =>
      intro y hy
      rcases List.mem_cons.1 (List.mem_of_mem_drop hy) with rfl | hy
      · exact hx
      · exact neg_trans hl hx (hd'.1 y hy)

theorem lower_le_upper {less : β → β → Bool} (hl : StrictWeakOrder less) {d : List β} (v : β) :
    lowerBound less v d ≤ upperBound less v d := by
  unfold lowerBound upperBound
  induction d with
  | nil => simp
  | cons x d ih =>
    rw [List.takeWhile_cons, List.takeWhile_cons]
    cases h : less x v with
    | false => simp
    | true =>
      have : less v x = false := by
        cases h' : less v x with
        | false => rfl
        | true => have := hl.trans _ _ _ h h'; rw [hl.irrefl] at this; cases this
      simp [this, ih]

theorem upper_le (less : β → β → Bool) (v : β) (d : List β) : upperBound less v d ≤ d.length :=
  (List.takeWhile_sublist _).length_le

/-- Where a value is inserted. -/
theorem multi_cases {less : β → β → Bool} (hl : StrictWeakOrder less) {d : List β} (hd : InOrder less d) (v : β)
    (hint : Nat) : ∃ A B, d = A ++ B ∧ stdMultiInsert less v d hint = (A ++ v :: B, A.length + 1) ∧
      (∀ x ∈ A, less v x = false) ∧ ∀ y ∈ B, less y v = false := by
  have h1 := lower_le_upper hl (d := d) v
  have h2 := upper_le less v d
  unfold stdMultiInsert
  simp only
  generalize hi : (if hint < lowerBound less v d then lowerBound less v d
    else if upperBound less v d < hint then upperBound less v d else hint) = i
  have h3 : lowerBound less v d ≤ i ∧ i ≤ upperBound less v d := by
    rw [← hi]
    split
    · omega
    · split <;> omega
  refine ⟨d.take i, d.drop i, (List.take_append_drop ..).symm, ?_, ?_, not_less_from hl hd v h3.1⟩
  · rw [List.length_take, Nat.min_eq_left (by omega)]
  · intro x hx
    have := of_takeWhile (p := fun x => !less v x) h3.2 x hx
    simpa using this

theorem inOrder_insert {less : β → β → Bool} (hl : StrictWeakOrder less) {d : List β} (hd : InOrder less d) (v : β)
    (hint : Nat) : InOrder less (stdMultiInsert less v d hint).1 ∧ (stdMultiInsert less v d hint).1.Perm (d ++ [v]) := by
  obtain ⟨A, B, h1, h2, h3, h4⟩ := multi_cases hl hd v hint
  rw [h2]
  subst h1
  unfold InOrder at *
  rw [List.pairwise_append] at hd
  refine ⟨List.pairwise_append.2 ⟨hd.1, List.pairwise_cons.2 ⟨h4, hd.2.1⟩, ?_⟩, ?_⟩
  · intro a ha b hb
    rcases List.mem_cons.1 hb with rfl | hb
    · exact h3 a ha
    · exact hd.2.2 a ha b hb
  · simp only [List.append_assoc]
    exact (List.perm_append_left_iff A).2 (List.perm_append_comm (l₁ := [v]) (l₂ := B))

theorem multiLoop_spec {less : β → β → Bool} (hl : StrictWeakOrder less) (f : α → β) (xs : List α) :
    ∀ {d : List β}, InOrder less d → ∀ hint, InOrder less (mapIntoMultiLoop less f xs (d, hint)) ∧
      (mapIntoMultiLoop less f xs (d, hint)).Perm (d ++ xs.map f) := by
  induction xs with
  | nil => intro d hd hint; exact ⟨hd, by simp [mapIntoMultiLoop]⟩
  | cons x xs ih =>
    intro d hd hint
    obtain ⟨h1, h2⟩ := inOrder_insert hl hd (f x) hint
    rw [mapIntoMultiLoop]
    rcases hs : stdMultiInsert less (f x) d hint with ⟨d', hint'⟩
    rw [hs] at h1 h2
    obtain ⟨h3, h4⟩ := ih h1 hint'
    refine ⟨h3, h4.trans ?_⟩
    rw [List.map_cons, List.append_cons d]
    exact h2.append_right _

/-- Values in order are put one after the other at the end. -/
theorem multiLoop_inOrder {less : β → β → Bool} (f : α → β) (xs : List α) :
    ∀ d, InOrder less (d ++ xs.map f) → mapIntoMultiLoop less f xs (d, d.length) = d ++ xs.map f := by
  induction xs with
  | nil => intro d _; simp [mapIntoMultiLoop]
  | cons x xs ih =>
    intro d hd
    rw [List.map_cons, List.append_cons] at hd ⊢
    have hu : upperBound less (f x) d = d.length := by
      unfold upperBound
      rw [takeWhile_all]
      intro y hy
      unfold InOrder at hd
      have := (List.pairwise_append.1 (List.pairwise_append.1 hd).1).2.2 y hy (f x) (by simp)
      simp [this]
    have hlow : lowerBound less (f x) d ≤ d.length := (List.takeWhile_sublist _).length_le
    have hs : stdMultiInsert less (f x) d d.length = (d ++ [f x], (d ++ [f x]).length) := by
      unfold stdMultiInsert
      simp only [hu]
      rw [if_neg (by omega), if_neg (by omega)]
      simp
    rw [mapIntoMultiLoop, hs]
    exact ih _ hd

theorem selfLoop_list (f : β → β) (fuel : Nat) : ∀ (d : List β) (i : Nat), i < d.length →
    selfLoop .nodes f fuel d i true = .error .outOfFuel := by
  induction fuel with
  | zero =>
    intro d i hi
    rw [selfLoop]
    simp [List.getElem?_eq_getElem hi]
  | succ fuel ih =>
    intro d i hi
    rw [selfLoop]
    simp only [Bool.not_true, Bool.false_eq_true, if_false, List.getElem?_eq_getElem hi, decide_true]
    exact ih _ _ (by simp; omega)

theorem mem_mapIntoSet {less : β → β → Bool} (hl : StrictWeakOrder less) (f : α → β) (xs : List α) :
    ∀ {d : List β}, d.Pairwise (fun a b => less a b = true) →
      (∀ e ∈ d, e ∈ mapIntoSet less d f xs) ∧ ∀ e ∈ mapIntoSet less d f xs, e ∈ d ∨ ∃ x ∈ xs, e = f x := by
  induction xs with
  | nil => intro d _; exact ⟨fun e h => h, fun e h => .inl h⟩
  | cons x xs ih =>
    intro d hd
    obtain ⟨h1, h2⟩ := ih (sorted_setInsert (v := f x) hl hd)
    rw [mapIntoSet]
    refine ⟨fun e he => h1 e ((mem_setInsert hl hd e).2 (.inl he)), fun e he => ?_⟩
    rcases h2 e he with h | ⟨y, hy, h⟩
    · rcases (mem_setInsert hl hd e).1 h with h | ⟨h, -⟩
      · exact .inl h
      · exact .inr ⟨x, by simp, h⟩
    · exact .inr ⟨y, by simp [hy], h⟩

theorem mapIntoSet_append (less : β → β → Bool) (f : α → β) (xs ys : List α) (d : List β) :
    mapIntoSet less d f (xs ++ ys) = mapIntoSet less (mapIntoSet less d f xs) f ys := by
  induction xs generalizing d with
  | nil => rfl
  | cons x xs ih => exact ih _

/-- If no result is greater than the element it comes from, the elements that were there are visited, and no others. -/
theorem selfSetLoop_spec {less : β → β → Bool} (hl : StrictWeakOrder less) (f : β → β) {d : List β}
    (hd : d.Pairwise fun a b => less a b = true) (hf : ∀ x ∈ d, less x (f x) = false) (todo : List β) :
    ∀ done, d = done ++ todo → ∀ fuel, todo.length ≤ fuel →
      selfSetLoop less f fuel (mapIntoSet less d f done) todo.head? = .ok (mapIntoSet less d f d) := by
  induction todo with
  | nil =>
    intro done hdone fuel _
    rw [List.append_nil] at hdone
    subst hdone
    rw [List.head?_nil, selfSetLoop]
  | cons x todo ih =>
    intro done hdone fuel hfuel
    obtain ⟨fuel, rfl⟩ : ∃ k, fuel = k + 1 := ⟨fuel - 1, by simp at hfuel; omega⟩
    have hstep : stdSetInsert less (f x) (mapIntoSet less d f done) = mapIntoSet less d f (done ++ [x]) := by
      rw [mapIntoSet_append]; rfl
    rw [List.head?_cons, selfSetLoop, hstep]
    have hnext : (mapIntoSet less d f (done ++ [x])).find? (fun y => less x y) = todo.head? := by
      rw [← List.head?_filter]
      congr 1
      have hsort := (mapIntoSet_spec hl f hd (done ++ [x])).1
      obtain ⟨hm1, hm2⟩ := mem_mapIntoSet hl f (done ++ [x]) hd
      have hd' := hd
      rw [hdone, List.pairwise_append, List.pairwise_cons] at hd'
      obtain ⟨-, ⟨hx1, ht⟩, hdn⟩ := hd'
      refine List.Perm.eq_of_pairwise (le := fun a b => less a b = true) ?_ (hsort.filter _) ht ?_
      · intro a b _ _ h1 h2
        have := hl.trans a b a h1 h2
        rw [hl.irrefl] at this; cases this
      · have nodup : ∀ {l : List β}, l.Pairwise (fun a b => less a b = true) → l.Nodup := fun h =>
          h.imp fun {a b} h1 h2 => by subst h2; rw [hl.irrefl] at h1; cases h1
        refine (List.perm_ext_iff_of_nodup (nodup (hsort.filter _)) (nodup ht)).2 fun e => ?_
        rw [List.mem_filter]
        constructor
        · rintro ⟨he, hlt⟩
          have hlt : less x e = true := by simpa using hlt
          rcases hm2 e he with h | ⟨y, hy, rfl⟩
          · rw [hdone] at h
            rcases List.mem_append.1 h with h | h
            · have := hl.trans _ _ _ (hdn e h x (by simp)) hlt
              rw [hl.irrefl] at this; cases this
            · rcases List.mem_cons.1 h with rfl | h
              · rw [hl.irrefl] at hlt; cases hlt
              · exact h
          · exfalso
            rcases List.mem_append.1 hy with h | h
            · have := hl.trans _ _ _ (hdn y h x (by simp)) hlt
              rw [hf y (by rw [hdone]; simp [h])] at this; cases this
            · rw [List.mem_singleton] at h
              subst h
              rw [hf y (by rw [hdone]; simp)] at hlt; cases hlt
        · intro he
          exact ⟨hm1 e (by rw [hdone]; simp [he]), by simpa using hx1 e he⟩
    rw [hnext]
    exact ih (done ++ [x]) (by rw [hdone]; simp) fuel (by simp at hfuel; omega)

/-- If every result is greater than the element it comes from, there is always a next element. -/
theorem selfSetLoop_forever {less : β → β → Bool} (hl : StrictWeakOrder less) (f : β → β)
    (hf : ∀ x, less x (f x) = true) (fuel : Nat) : ∀ {d : List β}, d.Pairwise (fun a b => less a b = true) → ∀ x,
      selfSetLoop less f fuel d (some x) = .error .outOfFuel := by
  induction fuel with
  | zero => intro d _ x; rw [selfSetLoop]
  | succ fuel ih =>
    intro d hd x
    rw [selfSetLoop]
    cases h : (stdSetInsert less (f x) d).find? fun y => less x y with
    | some y => exact ih (sorted_setInsert hl hd) y
    | none =>
      exfalso
      have h := List.find?_eq_none.1 h
      by_cases hm : ∀ y ∈ d, ¬ Equivalent less y (f x)
      · exact h (f x) ((mem_setInsert hl hd _).2 (.inr ⟨rfl, hm⟩)) (hf x)
      · obtain ⟨y, hy⟩ := Classical.not_forall.1 hm
        obtain ⟨hy, he⟩ := Classical.not_imp.1 hy
        have he := Classical.not_not.1 he
        exact h y ((mem_setInsert hl hd _).2 (.inl hy)) (less_of_equiv hl (hf x) ⟨he.2, he.1⟩)

end Pluto.MapInto
