import Verif.Model.SafeLru
import Verif.Spec.SafeLru
import Verif.Proofs.Lru
import Mathlib.Tactic.Tauto

/-! # The invariant of the concurrent cache -/

set_option linter.unusedSectionVars false

namespace Pluto.SafeLru
open Pluto.Spec.Lru
open Pluto.Lru (State Faults body faultyCall faultyCalls)
variable {K V : Type} [DecidableEq K] [DecidableEq V]

/-- A program that never changes the state. -/
inductive ReadOnly {σ ρ : Type} : Prog σ ρ → Prop
  | ret (r : ρ) : ReadOnly (.ret r)
  | throw : ReadOnly .throw
  | ub : ReadOnly .ub
  | step {u : σ → σ} {n : σ → Prog σ ρ} : (∀ s, u s = s) → (∀ s, ReadOnly (n s)) → ReadOnly (.step u n)

theorem shared_readOnly (f : Faults) (c : Call K V) (h : lockOf c = .shared) : ReadOnly (body f c) := by
  cases c with
  | contains k =>
    show ReadOnly (Lru.contains f k >>= fun b => pure (Ret.bool b))
    unfold Lru.contains Prog.orThrow
    split
    · exact .throw
    · exact .step (fun _ => rfl) (fun _ => .ret _)
  | _ =>
    simp only [lockOf, reduceCtorEq] at h
    try exact .step (fun _ => rfl) (fun _ => .ret _)

theorem faultyCalls_append (cs ds : List (Faults × Call K V)) (s : State K V) :
    faultyCalls (cs ++ ds) s = (faultyCalls cs s).bind fun p => (faultyCalls ds p.1).map fun q => (q.1, p.2 ++ q.2) := by
  induction cs generalizing s with
  | nil => cases h : faultyCalls ds s <;> simp [faultyCalls, h]
  | cons c cs ih =>
    simp only [List.cons_append, faultyCalls]
    cases h : faultyCall c.1 c.2 s with
    | none => rfl
    | some p =>
      simp only [ih]
      cases h1 : faultyCalls cs p.1 with
      | none => simp
      | some q =>
        simp only [Option.bind_some]
        cases h2 : faultyCalls ds q.1 <;> simp

theorem sublist_snoc {α : Type} {a b : α} {l : List α} {x : α} :
    [a, b].Sublist (l ++ [x]) ↔ [a, b].Sublist l ∨ (a ∈ l ∧ b = x) := by
  constructor
  · intro h
    rw [List.sublist_append_iff] at h
    obtain ⟨l1, l2, h1, h2, h3⟩ := h
    rcases l1 with _ | ⟨y, l1⟩
    · simp only [List.nil_append] at h1
      subst h1
      have := h3.length_le
      simp at this
    · rcases l1 with _ | ⟨z, l1⟩
      · simp only [List.cons_append, List.nil_append, List.cons.injEq] at h1
        obtain ⟨rfl, rfl⟩ := h1
        right
        exact ⟨by simpa using h2, by simpa using h3⟩
      · simp only [List.cons_append, List.cons.injEq] at h1
        obtain ⟨rfl, rfl, h1⟩ := h1
        have : l1 = [] ∧ l2 = [] := by simpa using h1.symm
        rw [this.1] at h2
        exact Or.inl h2
  · rintro (h | ⟨h, rfl⟩)
    · exact h.trans (List.sublist_append_left _ _)
    · have : [a, b] = [a] ++ [b] := rfl
      rw [this]
      exact List.Sublist.append (by simpa using h) (List.Sublist.refl _)

/-- The state of the sequential cache after the operations `lin`, if they are legal. -/
def Legal (n : Nat) (lin : List (Op K V)) (m : State K V) : Prop :=
  faultyCalls (lin.map fun op => (op.f, op.c)) (Pluto.Lru.init n) = some (m, lin.map (·.o))

/-- The status of a call once its operation is in the linearization. -/
def Done (st : Status K V) (op : Op K V) : Prop :=
  st = .ended op.f op.c op.o ∨ st = .leaving op.o ∨ st = .finished

/-- The invariant; `m` is the sequential state after the operations that have ended. -/
structure Inv (n : Nat) (tr : List (Event K V)) (s : Sys K V) (lin : List (Op K V)) (m : State K V) : Prop where
  legal : Legal n lin m
  nodup : (lin.map (·.id)).Nodup
  readersNodup : s.readers.Nodup
  /-- shared owners are inside or have just ended -/
  reader : ∀ i, i ∈ s.readers ↔
    ((∃ f c p, s.status i = .inside f c p ∧ lockOf c = .shared) ∨ (∃ f c o, s.status i = .ended f c o ∧ lockOf c = .shared))
  writer : ∀ i, s.writer = some i ↔
    ((∃ f c p, s.status i = .inside f c p ∧ lockOf c = .exclusive) ∨
      (∃ f c o, s.status i = .ended f c o ∧ lockOf c = .exclusive))
  excl : ∀ i, s.writer = some i → s.readers = []
  /-- the memory is the sequential state, unless a writer is in the middle of its body -/
  memEq : (∀ i f c p, s.status i = .inside f c p → lockOf c = .shared) → s.mem = m
  memWriter : ∀ i f c p, s.status i = .inside f c p → lockOf c = .exclusive → p.run s.mem = (body f c).run m
  memReader : ∀ i f c p, s.status i = .inside f c p → lockOf c = .shared → ReadOnly p ∧ p.run s.mem = (body f c).run m
  /-- history and status -/
  invoked : ∀ i, s.status i ≠ .idle ↔ ∃ f c, Event.invoke i f c ∈ tr
  invokedUnique : ∀ i f c f' c', Event.invoke i f c ∈ tr → Event.invoke i f' c' ∈ tr → f = f' ∧ c = c'
  statusCall : ∀ i f c, (s.status i = .waiting f c ∨ (∃ p, s.status i = .inside f c p) ∨ ∃ o, s.status i = .ended f c o) →
    Event.invoke i f c ∈ tr
  linInvoked : ∀ op ∈ lin, Event.invoke op.id op.f op.c ∈ tr
  linDone : ∀ op ∈ lin, Done (s.status op.id) op
  doneLin : ∀ i o, (∃ f c, s.status i = .ended f c o) ∨ s.status i = .leaving o ∨ Event.ret i o ∈ tr →
    ∃ op ∈ lin, op.id = i ∧ op.o = o
  retFinished : ∀ i, s.status i = .finished ↔ ∃ o, Event.ret i o ∈ tr
  order : ∀ i j o f c, [Event.ret i o, Event.invoke j f c].Sublist tr → j ∈ lin.map (·.id) →
    [i, j].Sublist (lin.map (·.id))

theorem inv_init (n : Nat) : Inv n ([] : List (Event K V)) (init n) [] (Pluto.Lru.init n) := by
  constructor <;> simp [init, Legal, faultyCalls]

theorem setStatus_same (s : Sys K V) (i : Nat) (x : Status K V) : (setStatus s i x).status i = x := by
  simp [setStatus]

theorem setStatus_other (s : Sys K V) {i j : Nat} (x : Status K V) (h : j ≠ i) :
    (setStatus s i x).status j = s.status j := by simp [setStatus, h]

theorem order_snoc {tr : List (Event K V)} {lin : List (Op K V)}
    (h : ∀ i j o f c, [Event.ret i o, Event.invoke j f c].Sublist tr → j ∈ lin.map (·.id) → [i, j].Sublist (lin.map (·.id)))
    (e : Event K V) (he : ∀ j f c, e = .invoke j f c → j ∉ lin.map (·.id)) :
    ∀ i j o f c, [Event.ret i o, Event.invoke j f c].Sublist (tr ++ [e]) → j ∈ lin.map (·.id) →
      [i, j].Sublist (lin.map (·.id)) := by
  intro i j o f c hs hj
  rcases sublist_snoc.1 hs with hs | ⟨_, hs⟩
  · exact h i j o f c hs hj
  · exact absurd hj (he j f c hs.symm)

theorem inv_invoke {n : Nat} {tr : List (Event K V)} {s : Sys K V} {lin : List (Op K V)} {m : State K V}
    (h : Inv n tr s lin m) {i : Nat} {f : Faults} {c : Call K V} (hi : s.status i = .idle) :
    Inv n (tr ++ [.invoke i f c]) (setStatus s i (.waiting f c)) lin m := by
  have hst : ∀ j, (setStatus s i (.waiting f c)).status j = if j = i then .waiting f c else s.status j := fun j => rfl
  have hnot : ∀ f c, Event.invoke i f c ∉ tr := by
    intro f c hm
    exact (h.invoked i).2 ⟨f, c, hm⟩ hi
  constructor
  · exact h.legal
  · exact h.nodup
  · exact h.readersNodup
  · intro j
    have := h.reader j
    rw [hst]
    split
    · subst_vars; rw [hi] at this; simpa [setStatus] using this
    · exact this
  · intro j
    have := h.writer j
    rw [hst]
    split
    · subst_vars; rw [hi] at this; simpa [setStatus] using this
    · exact this
  · exact h.excl
  · intro hall
    apply h.memEq
    intro j f' c' p' hj
    apply hall j f' c' p'
    rw [hst, if_neg]; exact hj
    rintro rfl; rw [hi] at hj; cases hj
  · intro j f' c' p' hj
    rw [hst] at hj
    split at hj
    · cases hj
    · exact h.memWriter j f' c' p' hj
  · intro j f' c' p' hj
    rw [hst] at hj
    split at hj
    · cases hj
    · exact h.memReader j f' c' p' hj
  · intro j
    rw [hst]
    split
    · subst_vars; simp only [ne_eq, reduceCtorEq, not_false_eq_true, true_iff]; exact ⟨f, c, by simp⟩
    · rename_i hne
      rw [h.invoked j]
      simp [hne]
  · intro j f1 c1 f2 c2 h1 h2
    simp only [List.mem_append, List.mem_singleton, Event.invoke.injEq] at h1 h2
    rcases h1 with h1 | ⟨rfl, rfl, rfl⟩
    · rcases h2 with h2 | ⟨rfl, rfl, rfl⟩
      · exact h.invokedUnique j f1 c1 f2 c2 h1 h2
      · exact absurd h1 (hnot _ _)
    · rcases h2 with h2 | ⟨_, rfl, rfl⟩
      · exact absurd h2 (hnot _ _)
      · exact ⟨rfl, rfl⟩
  · intro j f' c' hj
    rw [hst] at hj
    split at hj
    · rename_i he
      simp only [reduceCtorEq, exists_false, or_false, Status.waiting.injEq] at hj
      obtain ⟨rfl, rfl⟩ := hj
      subst he; simp
    · exact List.mem_append_left _ (h.statusCall j f' c' hj)
  · intro op hop
    exact List.mem_append_left _ (h.linInvoked op hop)
  · intro op hop
    rw [hst, if_neg]
    · exact h.linDone op hop
    · intro he
      have := h.linDone op hop
      rw [he, hi] at this
      simp [Done] at this
  · intro j o hj
    apply h.doneLin j o
    rw [hst] at hj
    split at hj
    · subst_vars
      simp only [reduceCtorEq, exists_false, false_or] at hj
      exact Or.inr (Or.inr (by simpa using hj))
    · simpa using hj
  · intro j
    rw [hst]
    have := h.retFinished j
    split
    · subst_vars
      rw [hi] at this
      simpa using this
    · simpa using this
  · apply order_snoc h.order
    rintro j f' c' he hj
    cases he
    obtain ⟨op, hop, he⟩ := List.mem_map.1 hj
    have := h.linDone op hop
    rw [he, hi] at this
    simp [Done] at this

/-- Steps after the invocation that neither end a body nor return. -/
theorem inv_ghost {n : Nat} {tr : List (Event K V)} {s s' : Sys K V} {lin : List (Op K V)} {m : State K V}
    (h : Inv n tr s lin m) {i : Nat} {e : Event K V} {f : Faults} {c : Call K V} {x : Status K V}
    (hst : s'.status = fun j => if j = i then x else s.status j)
    (he1 : ∀ j f c, e ≠ .invoke j f c) (he2 : ∀ j o, e ≠ .ret j o)
    (hold : s.status i = .waiting f c ∨ ∃ p, s.status i = .inside f c p)
    (hnew : ∃ p, x = .inside f c p)
    (h1 : s'.readers.Nodup)
    (h2 : ∀ i, i ∈ s'.readers ↔ ((∃ f c p, s'.status i = .inside f c p ∧ lockOf c = .shared) ∨
      (∃ f c o, s'.status i = .ended f c o ∧ lockOf c = .shared)))
    (h3 : ∀ i, s'.writer = some i ↔ ((∃ f c p, s'.status i = .inside f c p ∧ lockOf c = .exclusive) ∨
      (∃ f c o, s'.status i = .ended f c o ∧ lockOf c = .exclusive)))
    (h4 : ∀ i, s'.writer = some i → s'.readers = [])
    (h5 : (∀ i f c p, s'.status i = .inside f c p → lockOf c = .shared) → s'.mem = m)
    (h6 : ∀ i f c p, s'.status i = .inside f c p → lockOf c = .exclusive → p.run s'.mem = (body f c).run m)
    (h7 : ∀ i f c p, s'.status i = .inside f c p → lockOf c = .shared → ReadOnly p ∧ p.run s'.mem = (body f c).run m) :
    Inv n (tr ++ [e]) s' lin m := by
  obtain ⟨p, rfl⟩ := hnew
  have hinv : Event.invoke i f c ∈ tr := by
    apply h.statusCall i f c
    rcases hold with hold | ⟨p, hold⟩
    · exact Or.inl hold
    · exact Or.inr (Or.inl ⟨p, hold⟩)
  have hinvoke : ∀ j f c, Event.invoke j f c ∈ tr ++ [e] ↔ Event.invoke j f c ∈ tr := by
    intro j f c
    rw [List.mem_append, List.mem_singleton]
    exact ⟨fun hm => hm.resolve_right (fun hm => he1 j f c hm.symm), Or.inl⟩
  have hret : ∀ j o, Event.ret j o ∈ tr ++ [e] ↔ Event.ret j o ∈ tr := by
    intro j o
    rw [List.mem_append, List.mem_singleton]
    exact ⟨fun hm => hm.resolve_right (fun hm => he2 j o hm.symm), Or.inl⟩
  have hnd : ∀ op, ¬ Done (s.status i) op := by
    intro op hd
    rcases hold with hold | ⟨p, hold⟩ <;> rw [hold] at hd <;> simp [Done] at hd
  have hst' : ∀ j, s'.status j = if j = i then .inside f c p else s.status j := fun j => by rw [hst]
  refine ⟨h.legal, h.nodup, h1, h2, h3, h4, h5, h6, h7, ?_, ?_, ?_, ?_, ?_, ?_, ?_, ?_⟩
  · intro j
    rw [hst']
    simp only [hinvoke]
    split
    · subst_vars; simp only [ne_eq, reduceCtorEq, not_false_eq_true, true_iff]; exact ⟨f, c, hinv⟩
    · exact h.invoked j
  · intro j f1 c1 f2 c2 h1 h2
    rw [hinvoke] at h1 h2
    exact h.invokedUnique j f1 c1 f2 c2 h1 h2
  · intro j f' c' hj
    rw [hinvoke]
    rw [hst'] at hj
    split at hj
    · subst_vars
      simp only [reduceCtorEq, Status.inside.injEq, exists_false, or_false, false_or] at hj
      obtain ⟨_, rfl, rfl, _⟩ := hj
      exact hinv
    · exact h.statusCall j f' c' hj
  · intro op hop
    rw [hinvoke]; exact h.linInvoked op hop
  · intro op hop
    rw [hst', if_neg]
    · exact h.linDone op hop
    · intro he
      have := h.linDone op hop
      rw [he] at this
      exact hnd op this
  · intro j o hj
    rw [hret] at hj
    apply h.doneLin j o
    rw [hst'] at hj
    split at hj
    · simp only [reduceCtorEq, exists_false, false_or] at hj
      exact Or.inr (Or.inr hj)
    · exact hj
  · intro j
    simp only [hret]
    rw [hst']
    split
    · subst_vars
      rw [← h.retFinished]
      rcases hold with hold | ⟨p, hold⟩ <;> simp [hold]
    · exact h.retFinished j
  · apply order_snoc h.order
    intro j f c he
    exact absurd he (he1 j f c)

/-- Steps after the end of a body. -/
theorem inv_after {n : Nat} {tr : List (Event K V)} {s s' : Sys K V} {lin : List (Op K V)} {m : State K V}
    (h : Inv n tr s lin m) {i : Nat} {e : Event K V} {x : Status K V} {o : Out (Ret V)}
    (hst : s'.status = fun j => if j = i then x else s.status j)
    (he1 : ∀ j f c, e ≠ .invoke j f c)
    (hcase : (∃ f c, s.status i = .ended f c o ∧ x = .leaving o ∧ ∀ j o, e ≠ .ret j o) ∨
      (s.status i = .leaving o ∧ x = .finished ∧ e = .ret i o))
    (h1 : s'.readers.Nodup)
    (h2 : ∀ i, i ∈ s'.readers ↔ ((∃ f c p, s'.status i = .inside f c p ∧ lockOf c = .shared) ∨
      (∃ f c o, s'.status i = .ended f c o ∧ lockOf c = .shared)))
    (h3 : ∀ i, s'.writer = some i ↔ ((∃ f c p, s'.status i = .inside f c p ∧ lockOf c = .exclusive) ∨
      (∃ f c o, s'.status i = .ended f c o ∧ lockOf c = .exclusive)))
    (h4 : ∀ i, s'.writer = some i → s'.readers = [])
    (hmem : s'.mem = s.mem) :
    Inv n (tr ++ [e]) s' lin m := by
  have hst' : ∀ j, s'.status j = if j = i then x else s.status j := fun j => by rw [hst]
  have hinvoke : ∀ j f c, Event.invoke j f c ∈ tr ++ [e] ↔ Event.invoke j f c ∈ tr := by
    intro j f c
    rw [List.mem_append, List.mem_singleton]
    exact ⟨fun hm => hm.resolve_right (fun hm => he1 j f c hm.symm), Or.inl⟩
  have hx : x = .leaving o ∨ x = .finished := by
    rcases hcase with ⟨_, _, _, hx, _⟩ | ⟨_, hx, _⟩
    · exact Or.inl hx
    · exact Or.inr hx
  have hxi : ∀ f c p, x ≠ .inside f c p := by rcases hx with rfl | rfl <;> simp
  have hxe : ∀ f c o, x ≠ .ended f c o := by rcases hx with rfl | rfl <;> simp
  have hxw : ∀ f c, x ≠ .waiting f c := by rcases hx with rfl | rfl <;> simp
  have hsi : ∀ f c p, s.status i ≠ .inside f c p := by
    rcases hcase with ⟨_, _, hs, _, _⟩ | ⟨hs, _, _⟩ <;> rw [hs] <;> simp
  have hinside : ∀ j f c p, s'.status j = .inside f c p ↔ s.status j = .inside f c p := by
    intro j f c p
    rw [hst']
    split
    · subst_vars
      exact ⟨fun h => absurd h (hxi _ _ _), fun h => absurd h (hsi _ _ _)⟩
    · rfl
  have hlin : ∃ op ∈ lin, op.id = i ∧ op.o = o := by
    rcases hcase with ⟨f, c, hs, _, _⟩ | ⟨hs, _, _⟩
    · exact h.doneLin i o (Or.inl ⟨f, c, hs⟩)
    · exact h.doneLin i o (Or.inr (Or.inl hs))
  have huniq : ∀ op ∈ lin, op.id = i → op.o = o := by
    intro op hop hid
    have := h.linDone op hop
    rw [hid] at this
    rcases hcase with ⟨f, c, hs, _, _⟩ | ⟨hs, _, _⟩ <;> rw [hs] at this <;> simp [Done] at this
    · exact this.2.2.symm
    · exact this.symm
  have hni : s.status i ≠ .idle := by
    rcases hcase with ⟨_, _, hs, _, _⟩ | ⟨hs, _, _⟩ <;> rw [hs] <;> simp
  refine ⟨h.legal, h.nodup, h1, h2, h3, h4, ?_, ?_, ?_, ?_, ?_, ?_, ?_, ?_, ?_, ?_, ?_⟩
  · intro hall
    rw [hmem]
    apply h.memEq
    intro j f c p hj
    exact hall j f c p ((hinside j f c p).2 hj)
  · intro j f c p hj
    rw [hmem]
    exact h.memWriter j f c p ((hinside j f c p).1 hj)
  · intro j f c p hj
    rw [hmem]
    exact h.memReader j f c p ((hinside j f c p).1 hj)
  · intro j
    simp only [hinvoke]
    rw [← h.invoked j, hst']
    split
    · subst_vars
      rcases hx with rfl | rfl <;> simp [hni]
    · rfl
  · intro j f1 c1 f2 c2 h1 h2
    rw [hinvoke] at h1 h2
    exact h.invokedUnique j f1 c1 f2 c2 h1 h2
  · intro j f' c' hj
    rw [hinvoke]
    rw [hst'] at hj
    split at hj
    · rcases hx with rfl | rfl <;> simp at hj
    · exact h.statusCall j f' c' hj
  · intro op hop
    rw [hinvoke]; exact h.linInvoked op hop
  · intro op hop
    rw [hst']
    split
    · rename_i he
      have := huniq op hop he
      rcases hx with rfl | rfl
      · exact Or.inr (Or.inl (by rw [this]))
      · exact Or.inr (Or.inr rfl)
    · exact h.linDone op hop
  · intro j o' hj
    by_cases hji : j = i
    · subst hji
      have ho : o' = o := by
        rw [hst', if_pos rfl] at hj
        rcases hj with ⟨f, c, hj⟩ | hj | hj
        · exact absurd hj (hxe _ _ _)
        · rcases hx with rfl | rfl
          · simpa using hj.symm
          · cases hj
        · rw [List.mem_append, List.mem_singleton] at hj
          rcases hj with hj | hj
          · have := (h.retFinished j).2 ⟨o', hj⟩
            rcases hcase with ⟨_, _, hs, _, _⟩ | ⟨hs, _, _⟩ <;> rw [hs] at this <;> cases this
          · rcases hcase with ⟨_, _, _, _, hr⟩ | ⟨_, _, rfl⟩
            · exact absurd hj.symm (hr _ _)
            · cases hj; rfl
      rw [ho]; exact hlin
    · apply h.doneLin j o'
      rw [hst', if_neg hji] at hj
      rcases hj with hj | hj | hj
      · exact Or.inl hj
      · exact Or.inr (Or.inl hj)
      · rw [List.mem_append, List.mem_singleton] at hj
        rcases hj with hj | hj
        · exact Or.inr (Or.inr hj)
        · rcases hcase with ⟨_, _, _, _, hr⟩ | ⟨_, _, rfl⟩
          · exact absurd hj.symm (hr _ _)
          · cases hj; exact absurd rfl hji
  · intro j
    rw [hst']
    rcases hcase with ⟨_, _, hs, rfl, hr⟩ | ⟨hs, rfl, rfl⟩
    · have hret : ∀ j o, Event.ret j o ∈ tr ++ [e] ↔ Event.ret j o ∈ tr := by
        intro j o
        rw [List.mem_append, List.mem_singleton]
        exact ⟨fun hm => hm.resolve_right (fun hm => hr j o hm.symm), Or.inl⟩
      simp only [hret]
      rw [← h.retFinished j]
      split
      · subst_vars; simp [hs]
      · rfl
    · split
      · subst_vars; simp
      · rename_i hne
        rw [h.retFinished j]
        simp [hne]
  · apply order_snoc h.order
    intro j f c he
    exact absurd he (he1 j f c)

/-- Nobody else holds the lock while a call holds it exclusively. -/
theorem Inv.alone {n : Nat} {tr : List (Event K V)} {s : Sys K V} {lin : List (Op K V)} {m : State K V}
    (h : Inv n tr s lin m) {i j : Nat} {f f' : Faults} {c c' : Call K V} {p p' : Prog (State K V) (Ret V)}
    (hi : s.status i = .inside f c p) (hc : lockOf c = .exclusive) (hj : s.status j = .inside f' c' p') : j = i := by
  have hw := (h.writer i).2 (Or.inl ⟨f, c, p, hi, hc⟩)
  cases hc' : lockOf c' with
  | shared =>
    have := (h.reader j).2 (Or.inl ⟨f', c', p', hj, hc'⟩)
    rw [h.excl i hw] at this
    cases this
  | exclusive =>
    have := (h.writer j).2 (Or.inl ⟨f', c', p', hj, hc'⟩)
    rw [hw] at this
    exact (Option.some.inj this).symm

/-- While a shared call is inside, nobody is inside exclusively. -/
theorem Inv.allShared {n : Nat} {tr : List (Event K V)} {s : Sys K V} {lin : List (Op K V)} {m : State K V}
    (h : Inv n tr s lin m) {i : Nat} {f : Faults} {c : Call K V} {p : Prog (State K V) (Ret V)}
    (hi : s.status i = .inside f c p) (hc : lockOf c = .shared) :
    ∀ j f c p, s.status j = .inside f c p → lockOf c = .shared := by
  intro j f' c' p' hj
  cases hc' : lockOf c' with
  | shared => rfl
  | exclusive =>
    have := h.alone hj hc' hi
    subst this
    rw [hi] at hj
    cases hj
    rw [hc] at hc'; cases hc'

theorem inv_finish {n : Nat} {tr : List (Event K V)} {s : Sys K V} {lin : List (Op K V)} {m : State K V}
    (h : Inv n tr s lin m) {i : Nat} {f : Faults} {c : Call K V} {p : Prog (State K V) (Ret V)} {o : Out (Ret V)}
    (hi : s.status i = .inside f c p) (hp : p.run s.mem = (o, s.mem)) (ho : o ≠ .ub) :
    Inv n (tr ++ [.finish i]) (setStatus s i (.ended f c o)) (lin ++ [⟨i, f, c, o⟩]) s.mem := by
  have hst : ∀ j, (setStatus s i (.ended f c o)).status j = if j = i then .ended f c o else s.status j := fun j => rfl
  have hrun : (body f c).run m = (o, s.mem) := by
    cases hc : lockOf c with
    | shared => rw [← (h.memReader i f c p hi hc).2, hp]
    | exclusive => rw [← h.memWriter i f c p hi hc, hp]
  have hcall : faultyCall f c m = some (s.mem, o) := by
    unfold faultyCall
    rw [hrun]
    cases o <;> simp_all
  have hnot : i ∉ lin.map (·.id) := by
    intro hm
    obtain ⟨op, hop, he⟩ := List.mem_map.1 hm
    have := h.linDone op hop
    rw [he, hi] at this
    simp [Done] at this
  have hinvoke : ∀ j f c, Event.invoke j f c ∈ tr ++ [.finish i] ↔ Event.invoke j f c ∈ tr := by simp
  have hret : ∀ j o, Event.ret j o ∈ tr ++ [.finish i] ↔ Event.ret j o ∈ tr := by simp
  have hother : ∀ j f' c' p', (setStatus s i (.ended f c o)).status j = .inside f' c' p' →
      s.status j = .inside f' c' p' ∧ j ≠ i := by
    intro j f' c' p' hj
    rw [hst] at hj
    split at hj
    · cases hj
    · exact ⟨hj, by assumption⟩
  have hmeq : ∀ j f' c' p', (setStatus s i (.ended f c o)).status j = .inside f' c' p' →
      lockOf c' = .shared ∧ m = s.mem := by
    intro j f' c' p' hj
    obtain ⟨hj, hne⟩ := hother j f' c' p' hj
    cases hc : lockOf c with
    | exclusive => exact absurd (h.alone hi hc hj) hne
    | shared =>
      have := h.allShared hi hc
      exact ⟨this j f' c' p' hj, (h.memEq this).symm⟩
  constructor
  · unfold Legal
    rw [List.map_append, faultyCalls_append]
    have := h.legal
    unfold Legal at this
    rw [this]
    simp [faultyCalls, hcall]
  · rw [List.map_append, List.nodup_append]
    refine ⟨h.nodup, by simp, ?_⟩
    intro a ha b hb
    simp only [List.map_cons, List.map_nil, List.mem_singleton] at hb
    rintro rfl
    subst hb
    exact hnot ha
  · exact h.readersNodup
  · intro j
    have := h.reader j
    rw [hst]
    split
    · subst_vars
      show j ∈ s.readers ↔ _
      rw [this, hi]
      simp
      try tauto
    · exact this
  · intro j
    have := h.writer j
    rw [hst]
    split
    · subst_vars
      show s.writer = some j ↔ _
      rw [this, hi]
      simp
      try tauto
    · exact this
  · exact h.excl
  · intro _; rfl
  · intro j f' c' p' hj hc'
    rw [(hmeq j f' c' p' hj).1] at hc'
    cases hc'
  · intro j f' c' p' hj hc'
    have := h.memReader j f' c' p' (hother j f' c' p' hj).1 hc'
    rw [(hmeq j f' c' p' hj).2] at this
    exact this
  · intro j
    simp only [hinvoke]
    rw [← h.invoked j, hst]
    split
    · subst_vars; simp [hi]
    · rfl
  · intro j f1 c1 f2 c2 h1 h2
    rw [hinvoke] at h1 h2
    exact h.invokedUnique j f1 c1 f2 c2 h1 h2
  · intro j f' c' hj
    rw [hinvoke]
    rw [hst] at hj
    split at hj
    · subst_vars
      simp only [reduceCtorEq, Status.ended.injEq, exists_false, false_or] at hj
      obtain ⟨_, rfl, rfl, _⟩ := hj
      exact h.statusCall j f c (Or.inr (Or.inl ⟨p, hi⟩))
    · exact h.statusCall j f' c' hj
  · intro op hop
    rw [hinvoke]
    rw [List.mem_append, List.mem_singleton] at hop
    rcases hop with hop | rfl
    · exact h.linInvoked op hop
    · exact h.statusCall i f c (Or.inr (Or.inl ⟨p, hi⟩))
  · intro op hop
    rw [List.mem_append, List.mem_singleton] at hop
    rcases hop with hop | rfl
    · rw [hst, if_neg]
      · exact h.linDone op hop
      · intro he
        exact hnot (List.mem_map.2 ⟨op, hop, he⟩)
    · rw [hst, if_pos rfl]
      exact Or.inl rfl
  · intro j o' hj
    rw [hret] at hj
    by_cases hji : j = i
    · subst hji
      rw [hst, if_pos rfl] at hj
      refine ⟨⟨j, f, c, o⟩, by simp, rfl, ?_⟩
      rcases hj with ⟨f', c', hj⟩ | hj | hj
      · cases hj; rfl
      · cases hj
      · have := (h.retFinished j).2 ⟨o', hj⟩
        rw [hi] at this; cases this
    · rw [hst, if_neg hji] at hj
      obtain ⟨op, h1, h2⟩ := h.doneLin j o' hj
      exact ⟨op, List.mem_append_left _ h1, h2⟩
  · intro j
    simp only [hret]
    rw [← h.retFinished j, hst]
    split
    · subst_vars; simp [hi]
    · rfl
  · intro j k o' f' c' hs hk
    have hs' : [Event.ret j o', Event.invoke k f' c'].Sublist tr := by
      rcases sublist_snoc.1 hs with hs | ⟨_, hs⟩
      · exact hs
      · cases hs
    rw [List.map_append] at hk ⊢
    simp only [List.map_cons, List.map_nil, List.mem_append, List.mem_singleton] at hk
    show [j, k].Sublist (_ ++ [i])
    rw [sublist_snoc]
    rcases hk with hk | rfl
    · exact Or.inl (h.order j k o' f' c' hs' hk)
    · right
      refine ⟨?_, rfl⟩
      have hr : Event.ret j o' ∈ tr := hs'.mem List.mem_cons_self
      obtain ⟨op, h1, h2, _⟩ := h.doneLin j o' (Or.inr (Or.inr hr))
      exact List.mem_map.2 ⟨op, h1, h2⟩

/-- The invariant is kept by every step that is not undefined behaviour. -/
theorem inv_step {n : Nat} {tr : List (Event K V)} {s s' : Sys K V} {lin : List (Op K V)} {m : State K V}
    (h : Inv n tr s lin m) (e : Event K V) (hs : step? s e = some s') (hcr : s'.crashed = false) :
    ∃ lin' m', Inv n (tr ++ [e]) s' lin' m' := by
  cases e with
  | invoke i f c =>
    simp only [step?] at hs
    split at hs <;> try cases hs
    rename_i hi
    split at hs <;> cases hs
    exact ⟨lin, m, inv_invoke h hi⟩
  | acquire i =>
    simp only [step?] at hs
    split at hs <;> try cases hs
    rename_i f c hi
    split at hs
    · cases hs
    · split at hs <;> rename_i hc
      · split at hs <;> cases hs
        rename_i hw
        have hw : s.writer = none := by simpa using hw
        have hall : ∀ i f c p, s.status i = .inside f c p → lockOf c = .shared := by
          intro j f' c' p' hj
          cases hc' : lockOf c' with
          | shared => rfl
          | exclusive =>
            have := (h.writer j).2 (Or.inl ⟨f', c', p', hj, hc'⟩)
            rw [hw] at this; cases this
        refine ⟨lin, m, inv_ghost h (i := i) (f := f) (c := c) rfl (by simp) (by simp) (Or.inl hi) ⟨_, rfl⟩
          ?_ ?_ ?_ ?_ ?_ ?_ ?_⟩
        · refine List.nodup_cons.2 ⟨?_, h.readersNodup⟩
          intro hm
          have := (h.reader i).1 hm
          rw [hi] at this
          simp at this
        · intro j
          have := h.reader j
          by_cases hji : j = i
          · subst hji
            simp [setStatus, hc]
          · simp only [setStatus, List.mem_cons, hji, false_or]
            exact this
        · intro j
          have := h.writer j
          by_cases hji : j = i
          · subst hji
            simp [setStatus, hc, hw]
          · simp only [setStatus, if_neg hji]
            exact this
        · intro j hj
          have : s.writer = some j := hj
          rw [hw] at this; cases this
        · intro _
          exact h.memEq hall
        · intro j f' c' p' hj hc'
          by_cases hji : j = i
          · subst hji
            simp only [setStatus, if_true, Status.inside.injEq] at hj
            obtain ⟨rfl, rfl, rfl⟩ := hj
            rw [hc] at hc'; cases hc'
          · simp only [setStatus, if_neg hji] at hj
            rw [hall j f' c' p' hj] at hc'; cases hc'
        · intro j f' c' p' hj hc'
          by_cases hji : j = i
          · subst hji
            simp only [setStatus, if_true, Status.inside.injEq] at hj
            obtain ⟨rfl, rfl, rfl⟩ := hj
            refine ⟨shared_readOnly f c hc, ?_⟩
            show (body f c).run s.mem = _
            rw [h.memEq hall]
          · simp only [setStatus, if_neg hji] at hj
            exact h.memReader j f' c' p' hj hc'
      · split at hs <;> cases hs
        rename_i hw
        obtain ⟨hw, hr⟩ := hw
        have hw : s.writer = none := by simpa using hw
        have hr : s.readers = [] := by simpa using hr
        have hnone : ∀ i f c p, s.status i ≠ .inside f c p := by
          intro j f' c' p' hj
          cases hc' : lockOf c' with
          | shared =>
            have := (h.reader j).2 (Or.inl ⟨f', c', p', hj, hc'⟩)
            rw [hr] at this; cases this
          | exclusive =>
            have := (h.writer j).2 (Or.inl ⟨f', c', p', hj, hc'⟩)
            rw [hw] at this; cases this
        refine ⟨lin, m, inv_ghost h (i := i) (f := f) (c := c) rfl (by simp) (by simp) (Or.inl hi) ⟨_, rfl⟩
          ?_ ?_ ?_ ?_ ?_ ?_ ?_⟩
        · exact h.readersNodup
        · intro j
          have := h.reader j
          by_cases hji : j = i
          · subst hji
            simp [setStatus, hc, hr]
          · simp only [setStatus, if_neg hji]
            exact this
        · intro j
          have := h.writer j
          by_cases hji : j = i
          · subst hji
            simp [setStatus, hc]
          · rw [hw] at this
            simp only [setStatus, if_neg hji]
            rw [← this]
            simp only [Option.some.injEq, reduceCtorEq, iff_false]
            exact fun h => hji h.symm
        · intro _ _; exact hr
        · intro _
          exact h.memEq (fun j f' c' p' hj => absurd hj (hnone j f' c' p'))
        · intro j f' c' p' hj hc'
          by_cases hji : j = i
          · subst hji
            simp only [setStatus, if_true, Status.inside.injEq] at hj
            obtain ⟨rfl, rfl, rfl⟩ := hj
            show (body f c).run s.mem = _
            rw [h.memEq (fun j f' c' p' hj => absurd hj (hnone j f' c' p'))]
          · simp only [setStatus, if_neg hji] at hj
            exact absurd hj (hnone j f' c' p')
        · intro j f' c' p' hj hc'
          by_cases hji : j = i
          · subst hji
            simp only [setStatus, if_true, Status.inside.injEq] at hj
            obtain ⟨rfl, rfl, rfl⟩ := hj
            rw [hc] at hc'; cases hc'
          · simp only [setStatus, if_neg hji] at hj
            exact absurd hj (hnone j f' c' p')
  | step i =>
    simp only [step?] at hs
    split at hs
    · rename_i f c u nx hi
      split at hs <;> cases hs
      have hmemu : lockOf c = .shared → u s.mem = s.mem := by
        intro hc
        obtain ⟨hro, _⟩ := h.memReader i f c _ hi hc
        cases hro with
        | step h1 h2 => exact h1 s.mem
      refine ⟨lin, m, inv_ghost h (i := i) (f := f) (c := c) rfl (by simp) (by simp) (Or.inr ⟨_, hi⟩) ⟨_, rfl⟩
          ?_ ?_ ?_ ?_ ?_ ?_ ?_⟩
      · exact h.readersNodup
      · intro j
        have := h.reader j
        by_cases hji : j = i
        · subst hji
          rw [hi] at this
          simp only [setStatus, if_true]
          rw [this]; simp
          try tauto
        · simp only [setStatus, if_neg hji]
          exact this
      · intro j
        have := h.writer j
        by_cases hji : j = i
        · subst hji
          rw [hi] at this
          simp only [setStatus, if_true]
          rw [this]; simp
          try tauto
        · simp only [setStatus, if_neg hji]
          exact this
      · exact h.excl
      · intro hall
        have hc : lockOf c = .shared := hall i f c (nx s.mem) (by simp [setStatus])
        show u s.mem = m
        rw [hmemu hc]
        exact h.memEq (h.allShared hi hc)
      · intro j f' c' p' hj hc'
        by_cases hji : j = i
        · subst hji
          simp only [setStatus, if_true, Status.inside.injEq] at hj
          obtain ⟨rfl, rfl, rfl⟩ := hj
          exact h.memWriter j f c _ hi hc'
        · simp only [setStatus, if_neg hji] at hj
          exact absurd (h.alone hj hc' hi).symm hji
      · intro j f' c' p' hj hc'
        by_cases hji : j = i
        · subst hji
          simp only [setStatus, if_true, Status.inside.injEq] at hj
          obtain ⟨rfl, rfl, rfl⟩ := hj
          obtain ⟨hro, hrun⟩ := h.memReader j f c _ hi hc'
          cases hro with
          | step h1 h2 => exact ⟨h2 s.mem, hrun⟩
        · simp only [setStatus, if_neg hji] at hj
          have hc := h.allShared hj hc' i f c _ hi
          show ReadOnly p' ∧ p'.run (u s.mem) = _
          rw [hmemu hc]
          exact h.memReader j f' c' p' hj hc'
    · split at hs
      · cases hs
      · cases hs; cases hcr
    · cases hs
  | finish i =>
    simp only [step?] at hs
    split at hs
    · rename_i f c r hi
      split at hs <;> cases hs
      exact ⟨_, _, inv_finish h hi rfl (by simp)⟩
    · rename_i f c hi
      split at hs <;> cases hs
      exact ⟨_, _, inv_finish h hi rfl (by simp)⟩
    · cases hs
  | unlock i =>
    simp only [step?] at hs
    split at hs <;> try cases hs
    rename_i f c o hi
    split at hs
    · cases hs
    · split at hs <;> rename_i hc <;> cases hs
      · refine ⟨lin, m, inv_after h (i := i) (o := o) rfl (by simp) (Or.inl ⟨f, c, hi, rfl, by simp⟩) ?_ ?_ ?_ ?_ rfl⟩
        · exact h.readersNodup.filter _
        · intro j
          have := h.reader j
          by_cases hji : j = i
          · subst hji
            simp [setStatus]
          · simp only [setStatus, List.mem_filter, ne_eq, hji, not_false_eq_true, decide_true, and_true]
            exact this
        · intro j
          have := h.writer j
          by_cases hji : j = i
          · subst hji
            rw [hi] at this
            simp [setStatus]
            simp [hc] at this
            exact this
          · simp only [setStatus, if_neg hji]
            exact this
        · intro j hj
          have : s.readers = [] := h.excl j hj
          simp [setStatus, this]
      · refine ⟨lin, m, inv_after h (i := i) (o := o) rfl (by simp) (Or.inl ⟨f, c, hi, rfl, by simp⟩) ?_ ?_ ?_ ?_ rfl⟩
        · exact h.readersNodup
        · intro j
          have := h.reader j
          by_cases hji : j = i
          · subst hji
            rw [hi] at this
            simp [setStatus]
            simp [hc] at this
            exact this
          · simp only [setStatus, if_neg hji]
            exact this
        · intro j
          have hw := (h.writer i).2 (Or.inr ⟨f, c, o, hi, hc⟩)
          have := h.writer j
          by_cases hji : j = i
          · subst hji
            simp [setStatus]
          · simp only [setStatus, if_neg hji]
            rw [← this, hw]
            simp only [reduceCtorEq, Option.some.injEq, false_iff]
            exact fun h => hji h.symm
        · intro j hj; cases hj
  | ret i o =>
    simp only [step?] at hs
    split at hs <;> try cases hs
    rename_i o' hi
    split at hs
    · cases hs
    · split at hs <;> cases hs
      rename_i he
      subst he
      refine ⟨lin, m, inv_after h (i := i) (o := o') rfl (by simp) (Or.inr ⟨hi, rfl, rfl⟩) h.readersNodup ?_ ?_ ?_ rfl⟩
      · intro j
        have := h.reader j
        by_cases hji : j = i
        · subst hji
          rw [hi] at this
          simpa [setStatus] using this
        · simp only [setStatus, if_neg hji]
          exact this
      · intro j
        have := h.writer j
        by_cases hji : j = i
        · subst hji
          rw [hi] at this
          simpa [setStatus] using this
        · simp only [setStatus, if_neg hji]
          exact this
      · exact h.excl

theorem step_crashed {s s' : Sys K V} {e : Event K V} (h : step? s e = some s') : s.crashed = false := by
  cases hc : s.crashed with
  | false => rfl
  | true =>
    exfalso
    cases e <;> simp only [step?, hc] at h <;> (repeat' split at h) <;> simp_all

theorem exec_inv {n : Nat} {tr : List (Event K V)} {s : Sys K V} (h : Exec n tr s) (hc : s.crashed = false) :
    ∃ lin m, Inv n tr s lin m := by
  induction h with
  | nil => exact ⟨[], _, inv_init n⟩
  | snoc e h hs ih =>
    obtain ⟨lin, m, hi⟩ := ih (step_crashed hs)
    exact inv_step hi e hs hc

/-- No undefined behaviour as long as nothing but benign failures happens. -/
theorem no_crash {n : Nat} {tr : List (Event K V)} {s : Sys K V} (h : Exec n tr s)
    (hb : ∀ i f c, Event.invoke i f c ∈ tr → Pluto.Lru.Benign f c) : s.crashed = false := by
  induction h with
  | nil => rfl
  | @snoc tr s s' e h hs ih =>
    have hcr := step_crashed hs
    obtain ⟨lin, m, hinv⟩ := exec_inv h hcr
    cases e with
    | step i =>
      simp only [step?] at hs
      split at hs
      · split at hs <;> cases hs; exact hcr
      · rename_i f c hi
        exfalso
        have hrun : (body f c).run m = (.ub, s.mem) := by
          cases hc : lockOf c with
          | shared => rw [← (hinv.memReader i f c _ hi hc).2]; rfl
          | exclusive => rw [← hinv.memWriter i f c _ hi hc]; rfl
        have hbc : Pluto.Lru.Benign f c :=
          hb i f c (List.mem_append_left _ (hinv.statusCall i f c (Or.inr (Or.inl ⟨_, hi⟩))))
        obtain ⟨m', T, os, h1, h2, _⟩ := Pluto.Lru.faulty_steps (Pluto.Lru.rel_init (K := K) (V := V) n) (by simp)
          (lin.map fun op => (op.f, op.c)) (by
            intro x hx
            obtain ⟨op, hop, rfl⟩ := List.mem_map.1 hx
            exact hb op.id op.f op.c (List.mem_append_left _ (hinv.linInvoked op hop)))
        have hl := hinv.legal
        unfold Legal at hl
        rw [h1] at hl
        cases hl
        obtain ⟨_, _, _, h3, _⟩ := Pluto.Lru.faulty_sim h2 f c hbc
        unfold faultyCall at h3
        rw [hrun] at h3
        cases h3
      · cases hs
    | _ =>
      simp only [step?] at hs
      (repeat' split at hs) <;> cases hs <;> exact hcr

theorem faultyCall_noFaults {c : Call K V} {s s' : State K V} {r : Ret V} (h : Pluto.Lru.call c s = some (s', r)) :
    faultyCall Pluto.Lru.noFaults c s = some (s', .ok r) := by
  unfold Pluto.Lru.call at h
  unfold faultyCall
  generalize (body Pluto.Lru.noFaults c).run s = x at h ⊢
  obtain ⟨o, s1⟩ := x
  cases o <;> simp_all

theorem faultyCalls_noFaults {cs : List (Call K V)} {s s' : State K V} {rs : List (Ret V)}
    (h : Pluto.Lru.calls cs s = some (s', rs)) :
    faultyCalls (cs.map fun c => (Pluto.Lru.noFaults, c)) s = some (s', rs.map .ok) := by
  induction cs generalizing s rs with
  | nil => cases h; rfl
  | cons c cs ih =>
    simp only [Pluto.Lru.calls] at h
    cases h1 : Pluto.Lru.call c s with
    | none => rw [h1] at h; cases h
    | some p =>
      obtain ⟨s1, r⟩ := p
      rw [h1] at h
      simp only at h
      cases h2 : Pluto.Lru.calls cs s1 with
      | none => rw [h2] at h; cases h
      | some q =>
        obtain ⟨s2, rs'⟩ := q
        rw [h2] at h
        cases h
        simp [faultyCalls, faultyCall_noFaults h1, ih h2]

/-- Runs a list of steps. -/
def runAll : List (Event K V) → Sys K V → Option (Sys K V)
  | [], s => some s
  | e :: es, s => match step? s e with
    | none => none
    | some s' => runAll es s'

theorem exec_append {n : Nat} {tr es : List (Event K V)} {s s' : Sys K V} (h : Exec n tr s) (hr : runAll es s = some s') :
    Exec n (tr ++ es) s' := by
  induction es generalizing tr s with
  | nil => cases hr; simpa using h
  | cons e es ih =>
    simp only [runAll] at hr
    cases h1 : step? s e with
    | none => rw [h1] at hr; cases hr
    | some s1 =>
      rw [h1] at hr
      have := ih (h.snoc e h1) hr
      rwa [List.append_assoc] at this

theorem execOf {n : Nat} (es : List (Event K V)) (s : Sys K V) (h : runAll es (init n) = some s) : Exec n es s :=
  exec_append (tr := []) .nil h

end Pluto.SafeLru
