import Verif.Spec.Together
import Mathlib.Algebra.BigOperators.Group.List.Basic
import Mathlib.Data.Finset.Card
import Mathlib.Logic.Relation

namespace Pluto.Together

/-- What a thread has to do fits what it owns. -/
def Fits (rank : Mutex → Nat) : List (Mutex × Bool) → List Act → Prop
  | [], todo => ∃ c, Ordered rank 0 c ∧ todo = c.acts
  | h :: hs, todo => ∃ c rest, Ordered rank (rank h.1 + 1) c ∧ todo = c.acts ++ .unlock h.1 :: rest ∧ Fits rank hs rest ∧
      ∀ x ∈ hs, rank x.1 < rank h.1

theorem fits_lock {rank : Mutex → Nat} {held : List (Mutex × Bool)} {m : Mutex} {sh : Bool} {rest : List Act}
    (h : Fits rank held (.lock m sh :: rest)) : Fits rank ((m, sh) :: held) rest ∧ ∀ x ∈ held, rank x.1 < rank m := by
  cases held with
  | nil =>
    obtain ⟨c, hc, ht⟩ := h
    cases c with
    | done => simp [Code.acts] at ht
    | own m' sh' inner r =>
      simp only [Code.acts, List.cons.injEq, Act.lock.injEq] at ht
      obtain ⟨⟨rfl, rfl⟩, rfl⟩ := ht
      exact ⟨⟨inner, r.acts, hc.2.1, rfl, ⟨r, hc.2.2, rfl⟩, by simp⟩, by simp⟩
  | cons x hs =>
    obtain ⟨c, r0, hc, ht, hf, hx⟩ := h
    cases c with
    | done => simp [Code.acts] at ht
    | own m' sh' inner r =>
      simp only [Code.acts, List.cons_append, List.append_assoc, List.cons.injEq, Act.lock.injEq] at ht
      obtain ⟨⟨rfl, rfl⟩, rfl⟩ := ht
      have hlt : ∀ y ∈ x :: hs, rank y.1 < rank m := by
        intro y hy
        have h1 := hc.1
        rcases List.mem_cons.1 hy with rfl | hy
        · omega
        · have := hx y hy; omega
      exact ⟨⟨inner, r.acts ++ .unlock x.1 :: r0, hc.2.1, rfl, ⟨r, r0, hc.2.2, rfl, hf, hx⟩, hlt⟩, hlt⟩

theorem fits_unlock {rank : Mutex → Nat} {held : List (Mutex × Bool)} {m : Mutex} {rest : List Act}
    (h : Fits rank held (.unlock m :: rest)) : ∃ sh hs, held = (m, sh) :: hs ∧ Fits rank hs rest := by
  cases held with
  | nil =>
    obtain ⟨c, _, ht⟩ := h
    cases c <;> simp [Code.acts] at ht
  | cons x hs =>
    obtain ⟨c, r0, _, ht, hf, _⟩ := h
    cases c with
    | done =>
      simp only [Code.acts, List.nil_append, List.cons.injEq, Act.unlock.injEq] at ht
      obtain ⟨rfl, rfl⟩ := ht
      exact ⟨x.2, hs, rfl, hf⟩
    | own m' sh' inner r => simp [Code.acts] at ht

theorem fits_nil {rank : Mutex → Nat} {held : List (Mutex × Bool)} (h : Fits rank held []) : held = [] := by
  cases held with
  | nil => rfl
  | cons x hs =>
    obtain ⟨c, r0, _, ht, _⟩ := h
    cases c <;> simp [Code.acts] at ht

/-- All threads fit. -/
def Inv (rank : Mutex → Nat) (s : List Thread) : Prop := ∀ t ∈ s, Fits rank t.held t.todo

theorem inv_start {rank : Mutex → Nat} {cs : List Code} (h : ∀ c ∈ cs, Ordered rank 0 c) : Inv rank (start cs) := by
  intro t ht
  obtain ⟨c, hc, rfl⟩ := List.mem_map.1 ht
  exact ⟨c, h c hc, rfl⟩

theorem inv_set {rank : Mutex → Nat} {s : List Thread} {i : Nat} {t : Thread} (hs : Inv rank s) (ht : Fits rank t.held t.todo) :
    Inv rank (s.set i t) := by
  intro x hx
  rcases List.mem_or_eq_of_mem_set hx with hx | rfl
  · exact hs x hx
  · exact ht

theorem left_set {s : List Thread} {i : Nat} {t t' : Thread} (hi : s[i]? = some t)
    (hl : t.todo.length = t'.todo.length + 1) : left s = left (s.set i t') + 1 := by
  induction s generalizing i with
  | nil => simp at hi
  | cons x s ih =>
    cases i with
    | zero =>
      simp only [List.getElem?_cons_zero, Option.some.injEq] at hi
      subst hi
      simp only [left, List.map_cons, List.sum_cons, List.set_cons_zero]
      omega
    | succ i =>
      simp only [List.getElem?_cons_succ] at hi
      have := ih hi
      simp only [left, List.map_cons, List.sum_cons, List.set_cons_succ] at this ⊢
      omega

/-- A step keeps the order and leaves one action less. -/
theorem step_inv {rank : Mutex → Nat} {s : List Thread} {i : Nat} (hs : Inv rank s) :
    step s i ≠ .undefined ∧ ∀ s', step s i = .state s' → Inv rank s' ∧ left s = left s' + 1 := by
  unfold step
  cases hi : s[i]? with
  | none => simp
  | some t =>
    have hf := hs t (List.mem_of_getElem? hi)
    cases htodo : t.todo with
    | nil => simp [htodo]
    | cons a rest =>
      rw [htodo] at hf
      cases a with
      | lock m sh =>
        obtain ⟨h1, h2⟩ := fits_lock hf
        have hno : t.held.any (fun h => h.1 == m) = false := by
          rw [List.any_eq_false]
          intro x hx he
          have := h2 x hx
          rw [beq_iff_eq] at he
          rw [he] at this; omega
        simp only [htodo, hno]
        by_cases hfr : free s m sh = true
        · simp only [hfr, if_true]
          refine ⟨by simp, fun s' h => ?_⟩
          simp only [Bool.false_eq_true, if_false] at h
          cases h
          exact ⟨inv_set hs h1, left_set hi (by simp [htodo])⟩
        · simp [hfr]
      | unlock m =>
        obtain ⟨sh, hs', he, h1⟩ := fits_unlock hf
        simp only [htodo, he, if_true]
        refine ⟨by simp, fun s' h => ?_⟩
        cases h
        exact ⟨inv_set hs h1, left_set hi (by simp [htodo])⟩

/-- The mutex a thread is about to lock. -/
def wanted (t : Thread) : Option (Mutex × Bool) :=
  match t.todo with
  | .lock m sh :: _ => some (m, sh)
  | _ => none

theorem wanted_todo {t : Thread} {m : Mutex} {sh : Bool} (h : wanted t = some (m, sh)) :
    ∃ rest, t.todo = .lock m sh :: rest := by
  unfold wanted at h
  split at h
  · rename_i m' sh' rest heq
    cases h; exact ⟨rest, heq⟩
  · cases h

theorem exists_max {α : Type} (f : α → Nat) (l : List α) (h : l ≠ []) : ∃ x ∈ l, ∀ y ∈ l, f y ≤ f x := by
  induction l with
  | nil => exact absurd rfl h
  | cons a l ih =>
    by_cases hl : l = []
    · subst hl; exact ⟨a, by simp, by simp⟩
    · obtain ⟨x, hx, hm⟩ := ih hl
      by_cases hax : f a ≤ f x
      · refine ⟨x, List.mem_cons_of_mem _ hx, fun y hy => ?_⟩
        rcases List.mem_cons.1 hy with rfl | hy
        · exact hax
        · exact hm y hy
      · refine ⟨a, List.mem_cons_self, fun y hy => ?_⟩
        rcases List.mem_cons.1 hy with rfl | hy
        · exact Nat.le_refl _
        · have := hm y hy; omega

/-- If not all have finished, some thread can go on. -/
theorem progress {rank : Mutex → Nat} {s : List Thread} (hs : Inv rank s) (hn : ¬ Finished s) :
    ∃ i s', step s i = .state s' := by
  by_cases hu : ∃ t ∈ s, ∃ m rest, t.todo = .unlock m :: rest
  · obtain ⟨t, ht, m, rest, htodo⟩ := hu
    obtain ⟨i, hi⟩ := List.mem_iff_getElem?.1 ht
    have hf := hs t ht
    rw [htodo] at hf
    obtain ⟨sh, hs', he, _⟩ := fits_unlock hf
    refine ⟨i, s.set i { held := hs', todo := rest }, ?_⟩
    simp [step, hi, htodo, he]
  · have hw : ∀ t ∈ s, t.todo ≠ [] → ∃ m sh, wanted t = some (m, sh) := by
      intro t ht hne
      cases htodo : t.todo with
      | nil => exact absurd htodo hne
      | cons a rest =>
        cases a with
        | lock m sh => exact ⟨m, sh, by simp [wanted, htodo]⟩
        | unlock m => exact absurd ⟨t, ht, m, rest, htodo⟩ hu
    have hne : s.filter (fun t => (wanted t).isSome) ≠ [] := by
      intro he
      apply hn
      intro t ht
      have hnone : t.todo = [] := by
        by_contra hne
        obtain ⟨m, sh, hw'⟩ := hw t ht hne
        have : t ∈ s.filter (fun t => (wanted t).isSome) := by simp [ht, hw']
        rw [he] at this; cases this
      have hf := hs t ht
      rw [hnone] at hf
      exact ⟨hnone, fits_nil hf⟩
    obtain ⟨t, ht, hmax⟩ := exists_max (fun t => ((wanted t).map fun x => rank x.1).getD 0) _ hne
    rw [List.mem_filter] at ht
    obtain ⟨⟨m, sh⟩, hwt⟩ := Option.isSome_iff_exists.1 ht.2
    -- nobody owns it
    have hfree : ∀ x ∈ s, ∀ h ∈ x.held, h.1 ≠ m := by
      intro x hx h hh hm
      have hne' : x.todo ≠ [] := by
        intro he
        have hf := hs x hx
        rw [he] at hf
        rw [fits_nil hf] at hh; cases hh
      obtain ⟨m', sh', hw'⟩ := hw x hx hne'
      obtain ⟨rest, htodo⟩ := wanted_todo hw'
      have hf := hs x hx
      rw [htodo] at hf
      have h1 := (fits_lock hf).2 h hh
      have h2 := hmax x (by simp [hx, hw'])
      simp only [hw', hwt, Option.map_some, Option.getD_some] at h2
      rw [hm] at h1; omega
    have hex : ∀ sh, s.any (excludes m sh) = false := by
      intro sh
      rw [List.any_eq_false]
      intro x hx he
      simp only [excludes, List.any_eq_true, Bool.and_eq_true, beq_iff_eq] at he
      obtain ⟨h, hh, hm, _⟩ := he
      exact hfree x hx h hh hm
    have go : ∀ t sh, t ∈ s → wanted t = some (m, sh) → free s m sh = true → ∃ i s', step s i = .state s' := by
      intro t sh ht hwt hfr
      obtain ⟨i, hi⟩ := List.mem_iff_getElem?.1 ht
      obtain ⟨rest, htodo⟩ := wanted_todo hwt
      have hno : t.held.any (fun h => h.1 == m) = false := by
        rw [List.any_eq_false]
        intro x hx he
        exact hfree t ht x hx (by simpa using he)
      exact ⟨i, s.set i { held := (m, sh) :: t.held, todo := rest }, by simp [step, hi, htodo, hno, hfr]⟩
    by_cases ha : s.any (wantsAlone m) = true
    · obtain ⟨x, hx, hxa⟩ := List.any_eq_true.1 ha
      refine go x false hx ?_ (by simp [free, hex])
      unfold wantsAlone at hxa
      split at hxa
      · rename_i m' sh' rest heq
        simp only [Bool.and_eq_true, beq_iff_eq, Bool.not_eq_true'] at hxa
        simp [wanted, heq, hxa.1, hxa.2]
      · cases hxa
    · exact go t sh ht.1 hwt (by simp [free, hex, ha])

theorem run_inv {rank : Mutex → Nat} {s : List Thread} {is : List Nat} (hs : Inv rank s) :
    run s is ≠ .undefined ∧ ∀ s', run s is = .state s' → Inv rank s' ∧ left s = left s' + is.length := by
  induction is generalizing s with
  | nil => exact ⟨by simp [run], fun s' h => by simp only [run] at h; cases h; exact ⟨hs, by simp⟩⟩
  | cons i is ih =>
    obtain ⟨h1, h2⟩ := step_inv (i := i) hs
    rw [run]
    cases hst : step s i with
    | blocked => simp
    | undefined => exact absurd hst h1
    | state t =>
      obtain ⟨h3, h4⟩ := h2 t hst
      obtain ⟨h5, h6⟩ := ih h3
      refine ⟨h5, fun s' h => ?_⟩
      obtain ⟨h7, h8⟩ := h6 s' h
      exact ⟨h7, by simp only [List.length_cons]; omega⟩

theorem mem_le_sum (l : List Nat) (n : Nat) (h : n ∈ l) : n ≤ l.sum := by
  induction l with
  | nil => cases h
  | cons a l ih =>
    rw [List.sum_cons]
    rcases List.mem_cons.1 h with rfl | h
    · omega
    · have := ih h; omega

theorem left_zero {rank : Mutex → Nat} {s : List Thread} (hs : Inv rank s) : left s = 0 ↔ Finished s := by
  constructor
  · intro h t ht
    unfold left at h
    have hz : t.todo = [] := by
      have := mem_le_sum (s.map fun t => t.todo.length) t.todo.length (List.mem_map.2 ⟨t, ht, rfl⟩)
      exact List.length_eq_zero_iff.1 (by omega)
    have hf := hs t ht
    rw [hz] at hf
    exact ⟨hz, fits_nil hf⟩
  · intro h
    unfold left
    apply List.sum_eq_zero
    intro n hn
    obtain ⟨t, ht, rfl⟩ := List.mem_map.1 hn
    rw [(h t ht).1]; rfl

theorem ordered_plain {c : Code} (h : Plain c) (rank : Mutex → Nat) : Ordered rank 0 c := by
  induction c with
  | done => trivial
  | own m sh inner rest _ ih =>
    obtain ⟨h1, h2⟩ := h
    subst h1
    exact ⟨Nat.zero_le _, trivial, ih h2⟩

theorem ordered_andThen {rank : Mutex → Nat} {b : Nat} {c d : Code} :
    Ordered rank b (c.andThen d) ↔ Ordered rank b c ∧ Ordered rank b d := by
  induction c with
  | done => simp [Code.andThen, Ordered]
  | own m sh inner rest _ ih => simp only [Code.andThen, Ordered, ih]; tauto

theorem plain_andThen {c d : Code} : Plain (c.andThen d) ↔ Plain c ∧ Plain d := by
  induction c with
  | done => simp [Code.andThen, Plain]
  | own m sh inner rest _ ih => simp only [Code.andThen, Plain, ih]; tauto

theorem ordered_nested {rank : Mutex → Nat} {b : Nat} {c : Code} (h1 : ∀ x ∈ nested c, rank x.1 < rank x.2)
    (h2 : ∀ m ∈ tops c, b ≤ rank m) : Ordered rank b c := by
  induction c generalizing b with
  | done => trivial
  | own m sh inner rest ih1 ih2 =>
    simp only [nested, List.mem_append, List.mem_map] at h1
    simp only [tops, List.mem_cons] at h2
    refine ⟨h2 m (.inl rfl), ih1 (fun x hx => h1 x (.inl (.inr hx))) fun x hx => ?_,
      ih2 (fun x hx => h1 x (.inr hx)) fun x hx => h2 x (.inr hx)⟩
    exact h1 (m, x) (.inl (.inl ⟨x, hx, rfl⟩))

theorem nested_ordered {rank : Mutex → Nat} {b : Nat} {c : Code} (h : Ordered rank b c) :
    (∀ x ∈ nested c, rank x.1 < rank x.2) ∧ ∀ m ∈ tops c, b ≤ rank m := by
  induction c generalizing b with
  | done => simp [nested, tops]
  | own m sh inner rest ih1 ih2 =>
    obtain ⟨h1, h2, h3⟩ := h
    obtain ⟨a1, a2⟩ := ih1 h2
    obtain ⟨b1, b2⟩ := ih2 h3
    constructor
    · intro x hx
      simp only [nested, List.mem_append, List.mem_map] at hx
      rcases hx with (⟨y, hy, rfl⟩ | hx) | hx
      · have := a2 y hy; simp only; omega
      · exact a1 x hx
      · exact b1 x hx
    · intro x hx
      simp only [tops, List.mem_cons] at hx
      rcases hx with rfl | hx
      · exact h1
      · exact b2 x hx

open Classical in
theorem exists_rank (cs : List Code) (h : ∀ m, ¬ Relation.TransGen (Before cs) m m) :
    ∃ rank : Mutex → Nat, ∀ a b, Before cs a b → rank a < rank b := by
  refine ⟨fun m => (((cs.flatMap nested).map (·.1)).toFinset.filter fun x => Relation.TransGen (Before cs) x m).card, ?_⟩
  intro a b hab
  refine Finset.card_lt_card ?_
  rw [Finset.ssubset_iff_of_subset]
  · refine ⟨a, ?_, ?_⟩
    · obtain ⟨c, hc, hn⟩ := hab
      simp only [Finset.mem_filter, List.mem_toFinset, List.mem_map, List.mem_flatMap]
      exact ⟨⟨(a, b), ⟨c, hc, hn⟩, rfl⟩, .single ⟨c, hc, hn⟩⟩
    · simp only [Finset.mem_filter, not_and]
      exact fun _ => h a
  · intro x hx
    simp only [Finset.mem_filter] at hx ⊢
    exact ⟨hx.1, hx.2.tail hab⟩

/-- A mutex that a thread owns alone is owned by no other one. -/
def Excl (s : List Thread) : Prop :=
  ∀ (i j : Nat) (ti tj : Thread) (m : Mutex) (sh : Bool), i ≠ j → s[i]? = some ti → s[j]? = some tj → (m, false) ∈ ti.held → (m, sh) ∉ tj.held

theorem excl_set {s : List Thread} {i : Nat} {t t' : Thread} (hs : Excl s) (hi : s[i]? = some t)
    (hold : ∀ m sh, (m, sh) ∈ t'.held → (m, sh) ∈ t.held ∨ s.any (excludes m sh) = false) : Excl (s.set i t') := by
  have hno : ∀ {j : Nat} {u : Thread} {m : Mutex} {sh sh' : Bool}, s.any (excludes m sh) = false → s[j]? = some u →
      (m, sh') ∈ u.held → sh = true ∧ sh' = true := by
    intro j u m sh sh' h hj hm
    have := List.any_eq_false.1 h u (List.mem_of_getElem? hj)
    simp only [excludes, List.any_eq_true, not_exists, not_and] at this
    have h2 := this (m, sh') hm
    cases sh <;> cases sh' <;> simp_all
  intro a b ta tb m sh hab ha hb hma hmb
  by_cases hai : a = i
  · subst hai
    rw [List.getElem?_set_self (List.getElem?_eq_some_iff.1 hi).1] at ha
    rw [List.getElem?_set_ne hab] at hb
    cases ha
    rcases hold m false hma with h | h
    · exact hs a b t tb m sh hab hi hb h hmb
    · have := (hno h hb hmb).1; cases this
  · rw [List.getElem?_set_ne (Ne.symm hai)] at ha
    by_cases hbi : b = i
    · subst hbi
      rw [List.getElem?_set_self (List.getElem?_eq_some_iff.1 hi).1] at hb
      cases hb
      rcases hold m sh hmb with h | h
      · exact hs a b ta t m sh hab ha hi hma h
      · have := (hno h ha hma).2; cases this
    · rw [List.getElem?_set_ne (Ne.symm hbi)] at hb
      exact hs a b ta tb m sh hab ha hb hma hmb

theorem excl_step {s s' : List Thread} {i : Nat} (hs : Excl s) (h : step s i = .state s') : Excl s' := by
  unfold step at h
  cases hi : s[i]? with
  | none => simp [hi] at h
  | some t =>
    cases htodo : t.todo with
    | nil => simp [hi, htodo] at h
    | cons a rest =>
      cases a with
      | lock m sh =>
        simp only [hi, htodo] at h
        split at h
        · cases h
        · split at h
          · rename_i hfr
            cases h
            refine excl_set hs hi fun m' sh' hm => ?_
            rcases List.mem_cons.1 hm with hm | hm
            · cases hm
              simp only [free, Bool.and_eq_true, Bool.not_eq_true'] at hfr
              exact .inr hfr.1
            · exact .inl hm
          · cases h
      | unlock m =>
        simp only [hi, htodo] at h
        cases hh : t.held with
        | nil => simp [hh] at h
        | cons x hs' =>
          simp only [hh] at h
          split at h
          · cases h
            exact excl_set hs hi fun m' sh' hm => .inl (by rw [hh]; exact List.mem_cons_of_mem _ hm)
          · cases h

theorem excl_run {s s' : List Thread} {is : List Nat} (hs : Excl s) (h : run s is = .state s') : Excl s' := by
  induction is generalizing s with
  | nil => simp only [run] at h; cases h; exact hs
  | cons i is ih =>
    rw [run] at h
    cases hst : step s i with
    | blocked => simp [hst] at h
    | undefined => simp [hst] at h
    | state t => simp only [hst] at h; exact ih (excl_step hs hst) h

/-- Only mutexes of caches are or will be shared. -/
def CacheShared (s : List Thread) : Prop :=
  ∀ t ∈ s, (∀ m, (m, true) ∈ t.held → ∃ n, m = .cache n) ∧ ∀ m, .lock m true ∈ t.todo → ∃ n, m = .cache n

theorem acts_shared {c : Code} (h : OnlyCachesShared c) : ∀ m, .lock m true ∈ c.acts → ∃ n, m = .cache n := by
  induction c with
  | done => intro m hm; cases hm
  | own m sh inner rest ih1 ih2 =>
    obtain ⟨h1, h2, h3⟩ := h
    intro m' hm
    simp only [Code.acts, List.mem_cons, List.mem_append, Act.lock.injEq, reduceCtorEq, false_or] at hm
    rcases hm with ⟨rfl, hm⟩ | hm | hm
    · exact h1 hm.symm
    · exact ih1 h2 m' hm
    · exact ih2 h3 m' hm

theorem cacheShared_step {s s' : List Thread} {i : Nat} (hs : CacheShared s) (h : step s i = .state s') : CacheShared s' := by
  unfold step at h
  cases hi : s[i]? with
  | none => simp [hi] at h
  | some t =>
    have ht := hs t (List.mem_of_getElem? hi)
    have hset : ∀ t', ((∀ m, (m, true) ∈ t'.held → ∃ n, m = .cache n) ∧ ∀ m, .lock m true ∈ t'.todo → ∃ n, m = .cache n) →
        CacheShared (s.set i t') := by
      intro t' ht' x hx
      rcases List.mem_or_eq_of_mem_set hx with hx | rfl
      · exact hs x hx
      · exact ht'
    cases htodo : t.todo with
    | nil => simp [hi, htodo] at h
    | cons a rest =>
      rw [htodo] at ht
      cases a with
      | lock m sh =>
        simp only [hi, htodo] at h
        split at h
        · cases h
        · split at h
          · cases h
            refine hset _ ⟨fun m' hm => ?_, fun m' hm => ht.2 m' (List.mem_cons_of_mem _ hm)⟩
            rcases List.mem_cons.1 hm with hm | hm
            · cases hm; exact ht.2 _ List.mem_cons_self
            · exact ht.1 m' hm
          · cases h
      | unlock m =>
        simp only [hi, htodo] at h
        cases hh : t.held with
        | nil => simp [hh] at h
        | cons x hs' =>
          rw [hh] at ht
          simp only [hh] at h
          split at h
          · cases h
            exact hset _ ⟨fun m' hm => ht.1 m' (List.mem_cons_of_mem _ hm), fun m' hm => ht.2 m' (List.mem_cons_of_mem _ hm)⟩
          · cases h

theorem cacheShared_run {s s' : List Thread} {is : List Nat} (hs : CacheShared s) (h : run s is = .state s') :
    CacheShared s' := by
  induction is generalizing s with
  | nil => simp only [run] at h; cases h; exact hs
  | cons i is ih =>
    rw [run] at h
    cases hst : step s i with
    | blocked => simp [hst] at h
    | undefined => simp [hst] at h
    | state t => simp only [hst] at h; exact ih (cacheShared_step hs hst) h

theorem shared_andThen {c d : Code} : OnlyCachesShared (c.andThen d) ↔ OnlyCachesShared c ∧ OnlyCachesShared d := by
  induction c with
  | done => simp [Code.andThen, OnlyCachesShared]
  | own m sh inner rest _ ih => simp only [Code.andThen, OnlyCachesShared, ih]; tauto

end Pluto.Together
