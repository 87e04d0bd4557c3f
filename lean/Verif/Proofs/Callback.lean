import Verif.Model.Callback
import Verif.Spec.Callback

/-!
# Proofs about calls of a function of the user
-/

namespace Pluto.CallbackProofs
open Pluto.Callback Pluto.CallbackSpec

theorem ran_nil {f : Fun α β σ} {ys : List β} {s s' : σ} : Ran f [] ys s s' ↔ ys = [] ∧ s' = s := by
  constructor
  · intro h; cases h; exact ⟨rfl, rfl⟩
  · rintro ⟨rfl, rfl⟩; exact .nil _

theorem ran_cons {f : Fun α β σ} {x : α} {xs : List α} {ys : List β} {s s' : σ} :
    Ran f (x :: xs) ys s s' ↔ ∃ y t zs, ys = y :: zs ∧ f x s = (some y, t) ∧ Ran f xs zs t s' := by
  constructor
  · intro h
    cases h with
    | cons hc hr => exact ⟨_, _, _, rfl, hc, hr⟩
  · rintro ⟨y, t, zs, rfl, hc, hr⟩
    exact .cons hc hr

theorem ran_length {f : Fun α β σ} {xs : List α} {ys : List β} {s s' : σ} (h : Ran f xs ys s s') : ys.length = xs.length := by
  induction h with
  | nil => rfl
  | cons _ _ ih => simp [ih]

theorem ran_snoc {f : Fun α β σ} {xs : List α} {ys : List β} {s s' : σ} (h : Ran f xs ys s s') {x : α} {y : β} {t : σ}
    (hc : f x s' = (some y, t)) : Ran f (xs ++ [x]) (ys ++ [y]) s t := by
  induction h with
  | nil => exact .cons hc (.nil _)
  | cons hd _ ih => exact .cons hd (ih hc)

theorem not_stopped_nil {f : Fun α β σ} {P : β → Prop} {b : List α} {ys : List β} {s s' : σ} {l : Option β} :
    ¬Stopped f P [] b ys s l s' := by
  rintro ⟨x, a, s1, h, -⟩
  cases b <;> simp at h

theorem stopped_cons {f : Fun α β σ} {P : β → Prop} {x : α} {xs b : List α} {ys : List β} {s s' : σ} {l : Option β} :
    Stopped f P (x :: xs) b ys s l s' ↔
      (b = [] ∧ ys = [] ∧ f x s = (l, s')) ∨
      ∃ b' y zs t, b = x :: b' ∧ ys = y :: zs ∧ f x s = (some y, t) ∧ P y ∧ Stopped f P xs b' zs t l s' := by
  constructor
  · rintro ⟨z, a, s1, hx, hr, hP, hc⟩
    cases b with
    | nil =>
      obtain ⟨rfl, rfl⟩ := ran_nil.1 hr
      simp only [List.nil_append, List.cons.injEq] at hx
      obtain ⟨rfl, rfl⟩ := hx
      exact .inl ⟨rfl, rfl, hc⟩
    | cons w b =>
      simp only [List.cons_append, List.cons.injEq] at hx
      obtain ⟨rfl, rfl⟩ := hx
      obtain ⟨y, t, zs, rfl, hc', hr⟩ := ran_cons.1 hr
      exact .inr ⟨b, y, zs, t, rfl, rfl, hc', hP _ (by simp), z, a, s1, rfl, hr, fun y hy => hP y (by simp [hy]), hc⟩
  · rintro (⟨rfl, rfl, hc⟩ | ⟨b', y, zs, t, rfl, rfl, hc, hp, z, a, s1, rfl, hr, hP, hl⟩)
    · exact ⟨x, xs, s, rfl, .nil _, by simp, hc⟩
    · refine ⟨z, a, s1, rfl, .cons hc hr, ?_, hl⟩
      intro w hw
      rcases List.mem_cons.1 hw with rfl | hw
      · exact hp
      · exact hP w hw

/-- One of three things happens. -/
theorem any_cases (p : Fun α Bool σ) (xs : List α) (s : σ) :
    (∃ ys s', any p xs s = (some false, s') ∧ Ran p xs ys s s' ∧ ∀ y ∈ ys, y = false) ∨
    (∃ b ys s', any p xs s = (some true, s') ∧ Stopped p (· = false) xs b ys s (some true) s') ∨
    ∃ b ys s', any p xs s = (none, s') ∧ Stopped p (· = false) xs b ys s none s' := by
  induction xs generalizing s with
  | nil => exact .inl ⟨[], s, rfl, .nil _, by simp⟩
  | cons x xs ih =>
    rw [any]
    rcases hp : p x s with ⟨_ | (_ | _), t⟩
    · exact .inr (.inr ⟨[], [], t, rfl, stopped_cons.2 (.inl ⟨rfl, rfl, hp⟩)⟩)
    · rcases ih t with ⟨ys, s', h, hr, ha⟩ | ⟨b, ys, s', h, hs⟩ | ⟨b, ys, s', h, hs⟩
      · exact .inl ⟨false :: ys, s', h, .cons hp hr, by simpa using ha⟩
      · exact .inr (.inl ⟨x :: b, false :: ys, s', h, stopped_cons.2 (.inr ⟨b, _, ys, t, rfl, rfl, hp, rfl, hs⟩)⟩)
      · exact .inr (.inr ⟨x :: b, false :: ys, s', h, stopped_cons.2 (.inr ⟨b, _, ys, t, rfl, rfl, hp, rfl, hs⟩)⟩)
    · exact .inr (.inl ⟨[], [], t, rfl, stopped_cons.2 (.inl ⟨rfl, rfl, hp⟩)⟩)

theorem all_cases (p : Fun α Bool σ) (xs : List α) (s : σ) :
    (∃ ys s', all p xs s = (some true, s') ∧ Ran p xs ys s s' ∧ ∀ y ∈ ys, y = true) ∨
    (∃ b ys s', all p xs s = (some false, s') ∧ Stopped p (· = true) xs b ys s (some false) s') ∨
    ∃ b ys s', all p xs s = (none, s') ∧ Stopped p (· = true) xs b ys s none s' := by
  induction xs generalizing s with
  | nil => exact .inl ⟨[], s, rfl, .nil _, by simp⟩
  | cons x xs ih =>
    rw [all]
    rcases hp : p x s with ⟨_ | (_ | _), t⟩
    · exact .inr (.inr ⟨[], [], t, rfl, stopped_cons.2 (.inl ⟨rfl, rfl, hp⟩)⟩)
    · exact .inr (.inl ⟨[], [], t, rfl, stopped_cons.2 (.inl ⟨rfl, rfl, hp⟩)⟩)
    · rcases ih t with ⟨ys, s', h, hr, ha⟩ | ⟨b, ys, s', h, hs⟩ | ⟨b, ys, s', h, hs⟩
      · exact .inl ⟨true :: ys, s', h, .cons hp hr, by simpa using ha⟩
      · exact .inr (.inl ⟨x :: b, true :: ys, s', h, stopped_cons.2 (.inr ⟨b, _, ys, t, rfl, rfl, hp, rfl, hs⟩)⟩)
      · exact .inr (.inr ⟨x :: b, true :: ys, s', h, stopped_cons.2 (.inr ⟨b, _, ys, t, rfl, rfl, hp, rfl, hs⟩)⟩)

theorem countIf_cases (p : Fun α Bool σ) (xs : List α) (n : Nat) (s : σ) :
    (∃ ys s', countIfLoop p xs n s = (some (n + ys.count true), s') ∧ Ran p xs ys s s') ∨
    ∃ b ys s', countIfLoop p xs n s = (none, s') ∧ Stopped p (fun _ => True) xs b ys s none s' := by
  induction xs generalizing s n with
  | nil => exact .inl ⟨[], s, rfl, .nil _⟩
  | cons x xs ih =>
    rw [countIfLoop]
    rcases hp : p x s with ⟨_ | y, t⟩
    · exact .inr ⟨[], [], t, rfl, stopped_cons.2 (.inl ⟨rfl, rfl, hp⟩)⟩
    · rcases ih (if y then n + 1 else n) t with ⟨ys, s', h, hr⟩ | ⟨b, ys, s', h, hs⟩
      · refine .inl ⟨y :: ys, s', ?_, .cons hp hr⟩
        show countIfLoop p xs (if y then n + 1 else n) t = _
        rw [h]
        cases y <;> simp <;> omega
      · exact .inr ⟨x :: b, y :: ys, s', h, stopped_cons.2 (.inr ⟨b, _, ys, t, rfl, rfl, hp, trivial, hs⟩)⟩

theorem findIf_cases (p : Fun α Bool σ) (xs : List α) (i : Nat) (s : σ) :
    (∃ ys s', findIf p xs i s = (some (i + xs.length), s') ∧ Ran p xs ys s s' ∧ ∀ y ∈ ys, y = false) ∨
    (∃ b ys s', findIf p xs i s = (some (i + b.length), s') ∧ Stopped p (· = false) xs b ys s (some true) s') ∨
    ∃ b ys s', findIf p xs i s = (none, s') ∧ Stopped p (· = false) xs b ys s none s' := by
  induction xs generalizing s i with
  | nil => exact .inl ⟨[], s, rfl, .nil _, by simp⟩
  | cons x xs ih =>
    rw [findIf]
    rcases hp : p x s with ⟨_ | (_ | _), t⟩
    · exact .inr (.inr ⟨[], [], t, rfl, stopped_cons.2 (.inl ⟨rfl, rfl, hp⟩)⟩)
    · rcases ih (i + 1) t with ⟨ys, s', h, hr, ha⟩ | ⟨b, ys, s', h, hs⟩ | ⟨b, ys, s', h, hs⟩
      · refine .inl ⟨false :: ys, s', ?_, .cons hp hr, by simpa using ha⟩
        show findIf p xs (i + 1) t = _
        rw [h]
        simp; omega
      · refine .inr (.inl ⟨x :: b, false :: ys, s', ?_, stopped_cons.2 (.inr ⟨b, _, ys, t, rfl, rfl, hp, rfl, hs⟩)⟩)
        show findIf p xs (i + 1) t = _
        rw [h]
        simp; omega
      · exact .inr (.inr ⟨x :: b, false :: ys, s', h, stopped_cons.2 (.inr ⟨b, _, ys, t, rfl, rfl, hp, rfl, hs⟩)⟩)
    · exact .inr (.inl ⟨[], [], t, rfl, stopped_cons.2 (.inl ⟨rfl, rfl, hp⟩)⟩)

theorem mapInto_cases (f : Fun α β σ) (d : List β) (xs : List α) (s : σ) :
    (∃ ys s', mapInto f d xs s = ((d ++ ys, false), s') ∧ Ran f xs ys s s') ∨
    ∃ b ys s', mapInto f d xs s = ((d ++ ys, true), s') ∧ Stopped f (fun _ => True) xs b ys s none s' := by
  induction xs generalizing s d with
  | nil => exact .inl ⟨[], s, by simp [mapInto], .nil _⟩
  | cons x xs ih =>
    rw [mapInto]
    rcases hp : f x s with ⟨_ | y, t⟩
    · exact .inr ⟨[], [], t, by simp, stopped_cons.2 (.inl ⟨rfl, rfl, hp⟩)⟩
    · rcases ih (d ++ [y]) t with ⟨ys, s', h, hr⟩ | ⟨b, ys, s', h, hs⟩
      · refine .inl ⟨y :: ys, s', ?_, .cons hp hr⟩
        show mapInto f (d ++ [y]) xs t = _
        rw [h]
        simp
      · refine .inr ⟨x :: b, y :: ys, s', ?_, stopped_cons.2 (.inr ⟨b, _, ys, t, rfl, rfl, hp, trivial, hs⟩)⟩
        show mapInto f (d ++ [y]) xs t = _
        rw [h]
        simp

/-! ### `remove_if` in place -/

theorem negate_some {p : Fun α Bool σ} {x : α} {s s' : σ} {b : Bool} :
    negate p x s = (some b, s') ↔ p x s = (some !b, s') := by
  unfold negate
  rcases p x s with ⟨_ | c, t⟩
  · simp
  · cases b <;> cases c <;> simp

theorem negate_none {p : Fun α Bool σ} {x : α} {s s' : σ} : negate p x s = (none, s') ↔ p x s = (none, s') := by
  unfold negate
  rcases p x s with ⟨_ | c, t⟩ <;> simp

theorem chosen_snoc {xs : List α} {ys : List Bool} (h : ys.length = xs.length) (x : α) (y : Bool) :
    chosen (xs ++ [x]) (ys ++ [y]) = chosen xs ys ++ if y then [x] else [] := by
  induction xs generalizing ys with
  | nil =>
    cases ys with
    | nil => cases y <;> simp [chosen]
    | cons => simp at h
  | cons a xs ih =>
    cases ys with
    | nil => simp at h
    | cons b ys =>
      have := ih (ys := ys) (by simpa using h)
      cases b <;> simp [chosen, this]

theorem emptied_snoc {xs : List α} {ys : List Bool} (h : ys.length = xs.length) (x : α) (y : Bool) :
    emptied (xs ++ [x]) (ys ++ [y]) = emptied xs ys ++ [if y then none else some x] := by
  induction xs generalizing ys with
  | nil =>
    cases ys with
    | nil => cases y <;> simp [emptied]
    | cons => simp at h
  | cons a xs ih =>
    cases ys with
    | nil => simp at h
    | cons b ys =>
      have := ih (ys := ys) (by simpa using h)
      cases b <;> simp [emptied, this]

theorem emptied_length {xs : List α} {ys : List Bool} (h : ys.length = xs.length) : (emptied xs ys).length = xs.length := by
  induction xs generalizing ys with
  | nil => simp [emptied]
  | cons a xs ih =>
    cases ys with
    | nil => simp at h
    | cons b ys => simp [emptied, ih (ys := ys) (by simpa using h)]

theorem chosen_le {xs : List α} {ys : List Bool} : (chosen xs ys).length ≤ xs.length := by
  induction xs generalizing ys with
  | nil => simp [chosen]
  | cons a xs ih =>
    cases ys with
    | nil => simp [chosen]
    | cons b ys =>
      have := ih (ys := ys)
      cases b <;> simp [chosen] <;> omega

theorem chosen_lt {xs : List α} {ys : List Bool} (h : ys.length = xs.length) (hf : false ∈ ys) :
    (chosen xs ys).length < xs.length := by
  induction xs generalizing ys with
  | nil =>
    cases ys with
    | nil => simp at hf
    | cons => simp at h
  | cons a xs ih =>
    cases ys with
    | nil => simp at h
    | cons b ys =>
      have hl : ys.length = xs.length := by simpa using h
      cases b with
      | false =>
        have := chosen_le (xs := xs) (ys := ys)
        simp [chosen]
        omega
      | true =>
        have := ih hl (by simpa using hf)
        simp [chosen]
        omega

theorem chosen_all {xs : List α} {ys : List Bool} (h : ys.length = xs.length) (ha : ∀ y ∈ ys, y = true) : chosen xs ys = xs := by
  induction xs generalizing ys with
  | nil => simp [chosen]
  | cons a xs ih =>
    cases ys with
    | nil => simp at h
    | cons b ys =>
      have hb : b = true := ha b (by simp)
      subst hb
      simp [chosen, ih (ys := ys) (by simpa using h) (fun y hy => ha y (by simp [hy]))]

/-- What the elements are after `remove_if` has looked at `xs`, of which it has removed at least one. -/
def cellsAfter (xs : List α) (ys : List Bool) (rest : List α) : List (Option α) :=
  (chosen xs ys).map some ++ (emptied xs ys).drop (chosen xs ys).length ++ rest.map some

theorem cells_get {xs : List α} {ys : List Bool} (h : ys.length = xs.length) (x : α) (rest : List α) :
    (cellsAfter xs ys (x :: rest))[xs.length]? = some (some x) := by
  have h1 := chosen_le (xs := xs) (ys := ys)
  have h2 := emptied_length h
  unfold cellsAfter
  rw [List.getElem?_append_right (by simp; omega)]
  have : xs.length - ((chosen xs ys).map some ++ (emptied xs ys).drop (chosen xs ys).length).length = 0 := by
    simp; omega
  rw [this]
  rfl

theorem cells_drop {xs : List α} {ys : List Bool} (h : ys.length = xs.length) (x : α) (rest : List α) :
    cellsAfter (xs ++ [x]) (ys ++ [false]) rest = cellsAfter xs ys (x :: rest) := by
  have h1 := chosen_le (xs := xs) (ys := ys)
  have h2 := emptied_length h
  unfold cellsAfter
  rw [chosen_snoc h, emptied_snoc h]
  simp only [Bool.false_eq_true, if_false, List.append_nil]
  rw [List.drop_append_of_le_length (by omega)]
  simp

theorem cells_keep {xs : List α} {ys : List Bool} (h : ys.length = xs.length) (hf : false ∈ ys) (x : α) (rest : List α) :
    cellsAfter (xs ++ [x]) (ys ++ [true]) rest =
      ((cellsAfter xs ys (x :: rest)).set (chosen xs ys).length (some x)).set xs.length none := by
  have h1 := chosen_lt h hf
  have h2 := emptied_length h
  unfold cellsAfter
  rw [chosen_snoc h, emptied_snoc h]
  simp only [if_true]
  have hd : ∃ a l, (emptied xs ys).drop (chosen xs ys).length = a :: l ∧ l.length + 1 + (chosen xs ys).length = xs.length := by
    cases hh : (emptied xs ys).drop (chosen xs ys).length with
    | nil =>
      have := congrArg List.length hh
      simp at this
      omega
    | cons a l =>
      refine ⟨a, l, rfl, ?_⟩
      have := congrArg List.length hh
      simp at this
      omega
  obtain ⟨a, l, hl, hlen⟩ := hd
  have hd2 : (emptied xs ys ++ [none]).drop ((chosen xs ys ++ [x]).length) = l ++ [none] := by
    rw [List.length_append, List.length_singleton, ← List.drop_drop, List.drop_append_of_le_length (by omega), hl]
    rfl
  rw [hd2, hl]
  have e : (chosen xs ys).map some ++ (a :: l) ++ (x :: rest).map some =
      (chosen xs ys).map some ++ (a :: (l ++ some x :: rest.map some)) := by simp
  rw [e, List.set_append_right _ _ (by simp)]
  simp only [List.length_map, Nat.sub_self, List.set_cons_zero]
  rw [List.set_append_right _ _ (by simp; omega), List.length_map]
  obtain ⟨m, hm⟩ : ∃ m, xs.length - (chosen xs ys).length = m + 1 := ⟨xs.length - (chosen xs ys).length - 1, by omega⟩
  rw [hm, List.set_cons_succ, List.set_append_right _ _ (by omega)]
  have : m - l.length = 0 := by omega
  rw [this]
  simp

/-- The loop: all elements are looked at in order, or up to the one for which the predicate throws. -/
theorem removeLoop_cases (p : Fun α Bool σ) (rest xs : List α) (ys : List Bool) (s0 s : σ) (hf : false ∈ ys)
    (hr : Ran p xs ys s0 s) :
    (∃ zs s', removeLoop (negate p) rest.length (cellsAfter xs ys rest) (chosen xs ys).length xs.length s =
        (.returned (cellsAfter (xs ++ rest) zs []) (chosen (xs ++ rest) zs).length, s') ∧ Ran p (xs ++ rest) zs s0 s') ∨
    ∃ b x after zs s₁ s', removeLoop (negate p) rest.length (cellsAfter xs ys rest) (chosen xs ys).length xs.length s =
        (.threw (cellsAfter b zs (x :: after)), s') ∧ xs ++ rest = b ++ x :: after ∧ Ran p b zs s0 s₁ ∧ p x s₁ = (none, s') ∧
        false ∈ zs := by
  induction rest generalizing xs ys s with
  | nil =>
    refine .inl ⟨ys, s, ?_, by simpa using hr⟩
    simp [removeLoop]
  | cons x rest ih =>
    have hl := ran_length hr
    rw [List.length_cons, removeLoop, cells_get hl]
    dsimp only
    rcases hp : negate p x s with ⟨_ | (_ | _), t⟩
    · exact .inr ⟨xs, x, rest, ys, s, t, rfl, rfl, hr, negate_none.1 hp, hf⟩
    · have hp := negate_some.1 hp
      have := ih (xs ++ [x]) (ys ++ [true]) t (by simp [hf]) (ran_snoc hr hp)
      rw [cells_keep hl hf] at this
      simpa [chosen_snoc hl] using this
    · have hp := negate_some.1 hp
      have := ih (xs ++ [x]) (ys ++ [false]) t (by simp) (ran_snoc hr hp)
      rw [cells_drop hl] at this
      simpa [chosen_snoc hl] using this

theorem ran_negate {p : Fun α Bool σ} {xs : List α} {ys : List Bool} {s s' : σ} (h : Ran (negate p) xs ys s s') :
    Ran p xs (ys.map (!·)) s s' := by
  induction h with
  | nil => exact .nil _
  | cons hc _ ih => exact .cons (negate_some.1 hc) ih

theorem emptied_all {xs : List α} {ys : List Bool} (h : ys.length = xs.length) (ha : ∀ y ∈ ys, y = true) (rest : List α) :
    cellsAfter xs ys rest = (xs ++ rest).map some := by
  unfold cellsAfter
  rw [chosen_all h ha]
  have := emptied_length h
  rw [List.drop_of_length_le (by omega)]
  simp

theorem filter_cases (p : Fun α Bool σ) (xs : List α) (s : σ) :
    (∃ ys s', filter p xs s = (.returned ((chosen xs ys).map some) (chosen xs ys).length, s') ∧ Ran p xs ys s s') ∨
    ∃ b x after ys s₁ s', filter p xs s =
        (.threw (if false ∈ ys then cellsAfter b ys (x :: after) else xs.map some), s') ∧ xs = b ++ x :: after ∧ Ran p b ys s s₁ ∧ p x s₁ = (none, s') := by
  unfold filter removeIf
  rcases findIf_cases (negate p) xs 0 s with ⟨ys, s', h, hr, ha⟩ | ⟨b, ys, s', h, x, after, s1, rfl, hr, ha, hc⟩ |
    ⟨b, ys, s', h, x, after, s1, hx, hr, ha, hc⟩
  · left
    have hr := ran_negate hr
    have hl := ran_length hr
    have ha' : ∀ y ∈ ys.map (!·), y = true := by
      intro y hy
      obtain ⟨z, hz, rfl⟩ := List.mem_map.1 hy
      simp [ha z hz]
    refine ⟨_, s', ?_, hr⟩
    rw [h, chosen_all hl ha']
    simp [removeLoop, List.take_of_length_le]
  · have hr := ran_snoc (ran_negate hr) (negate_some.1 hc)
    have hl := ran_length (ran_negate ‹_›)
    have ha' : ∀ y ∈ ys.map (!·), y = true := by
      intro y hy
      obtain ⟨z, hz, rfl⟩ := List.mem_map.1 hy
      simp [ha z hz]
    rw [h]
    have key := removeLoop_cases p after (b ++ [x]) _ s s' (by simp) hr
    rw [Bool.not_true, cells_drop hl, emptied_all hl ha', chosen_snoc hl, chosen_all hl ha'] at key
    have e1 : (b ++ x :: after).length - b.length - 1 = after.length := by simp
    simp only [Nat.zero_add, e1]
    simp only [Bool.false_eq_true, if_false, List.append_nil, List.length_append, List.length_singleton,
      List.append_assoc, List.singleton_append] at key
    rcases key with ⟨zs, t, hk, hrk⟩ | ⟨b', x', after', zs, s1', t, hk, hx, hrk, hck, hfk⟩
    · left
      refine ⟨zs, t, ?_, hrk⟩
      rw [hk]
      simp only [cellsAfter, List.map_nil, List.append_nil]
      rw [List.take_append_of_le_length (by simp), List.take_of_length_le (by simp)]
    · right
      refine ⟨b', x', after', zs, s1', t, ?_, hx, hrk, hck⟩
      rw [hk, if_pos hfk]
  · right
    refine ⟨b, x, after, _, s1, s', ?_, hx, ran_negate hr, negate_none.1 hc⟩
    rw [h, if_neg]
    intro hm
    obtain ⟨z, hz, hz'⟩ := List.mem_map.1 hm
    simp [ha z hz] at hz'

end Pluto.CallbackProofs
