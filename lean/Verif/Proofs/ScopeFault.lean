import Verif.Model.ScopeFault
import Verif.Props.Scope
import Mathlib.Data.List.Nodup

/-! # Lemmas on programs with guards (C157) -/

namespace Pluto.ScopeFault
open Pluto.Scope (Task Kind Behaviour)
open Pluto.Spec.ScopeFault

theorem taken_append (g : Nat) (l m : List Ev) : taken g (l ++ m) = taken g l ++ taken g m := by simp [taken]

theorem taken_nil {g : Nat} {l : List Ev} (h : ∀ e ∈ l, e.guard ≠ some g) : taken g l = [] := by
  unfold taken
  rw [List.filterMap_eq_nil_iff]
  intro e he
  have := h e he
  cases e <;> simp [Ev.guard] at this ⊢
  exact this

theorem taken_added (g : Nat) (ts : List (Option Task)) : taken g (ts.map (Ev.added g)) = ts := by
  unfold taken
  rw [List.filterMap_map]
  simp

theorem proper_extend {g : Nat} {k : Kind} {a l c : List Ev} (h : Proper g k l) (hn : ∀ e ∈ a ++ c, e.guard ≠ some g) :
    Proper g k (a ++ l ++ c) := by
  obtain ⟨before, during, after, thrown, rfl, h1, h2⟩ := h
  refine ⟨a ++ before, during, after ++ c, thrown, by simp, ?_, h2⟩
  intro e he
  simp only [List.mem_append] at he hn h1
  rcases he with (he | he) | he | he
  · exact hn e (.inl he)
  · exact h1 e (.inl he)
  · exact h1 e (.inr he)
  · exact hn e (.inr he)

/-- The guards have different numbers, and all are below the next one. -/
structure Wf (s : St) : Prop where
  nodup : (s.guards.map (·.id)).Nodup
  below : ∀ g ∈ s.guards, g.id < s.next

/-- What a program has done. -/
structure Run (s s' : St) (ext : List Ev) : Prop where
  log : s'.log = s.log ++ ext
  next : s.next ≤ s'.next
  guards : s'.guards = s.guards.map fun g => { g with stack := (taken g.id ext).reverse ++ g.stack }
  old : ∀ e ∈ ext, ∀ g, e.guard = some g → g < s.next → g ∈ s.guards.map (·.id) ∧ ∃ t, e = .added g t
  range : ∀ e ∈ ext, ∀ g, e.guard = some g → g < s'.next
  new : ∀ e ∈ ext, ∀ g, e.guard = some g → s.next ≤ g → ∃ k, Proper g k ext

theorem Run.ids {s s' : St} {ext : List Ev} (h : Run s s' ext) : s'.guards.map (·.id) = s.guards.map (·.id) := by
  rw [h.guards, List.map_map]; rfl

theorem Run.wf {s s' : St} {ext : List Ev} (h : Run s s' ext) (hw : Wf s) : Wf s' := by
  refine ⟨h.ids ▸ hw.nodup, ?_⟩
  intro g hg
  have : g.id ∈ s'.guards.map (·.id) := List.mem_map.2 ⟨g, hg, rfl⟩
  rw [h.ids] at this
  obtain ⟨g', hg', e⟩ := List.mem_map.1 this
  have h1 := hw.below g' hg'
  have h2 := h.next
  omega

theorem Run.refl (s : St) : Run s s [] :=
  ⟨by simp, Nat.le_refl _, by simp [taken], by simp, by simp, by simp⟩

theorem Run.silent {s : St} {ext : List Ev} (h : ∀ e ∈ ext, e.guard = none) : Run s { s with log := s.log ++ ext } ext := by
  refine ⟨rfl, Nat.le_refl _, ?_, ?_, ?_, ?_⟩
  · have : ∀ g, taken g ext = [] := fun g => taken_nil fun e he => by rw [h e he]; simp
    simp [this]
  all_goals
    intro e he g hg
    rw [h e he] at hg
    cases hg

theorem Run.trans {s s' s'' : St} {x y : List Ev} (h : Run s s' x) (h' : Run s' s'' y) (hw : Wf s) : Run s s'' (x ++ y) := by
  have hlt : ∀ g ∈ s.guards.map (·.id), g < s.next := by
    intro g hg
    obtain ⟨g', hg', rfl⟩ := List.mem_map.1 hg
    exact hw.below g' hg'
  have hn := h.next
  have hn' := h'.next
  refine ⟨by rw [h'.log, h.log, List.append_assoc], by omega, ?_, ?_, ?_, ?_⟩
  · rw [h'.guards, h.guards, List.map_map]
    apply List.map_congr_left
    intro g _
    simp [taken_append]
  · intro e he g hg hlt'
    rcases List.mem_append.1 he with he | he
    · exact h.old e he g hg hlt'
    · have := h'.old e he g hg (by omega)
      rw [h.ids] at this
      exact this
  · intro e he g hg
    rcases List.mem_append.1 he with he | he
    · have := h.range e he g hg
      omega
    · exact h'.range e he g hg
  · intro e he g hg hge
    have hx : g < s'.next → ∀ e ∈ y, e.guard ≠ some g := by
      intro hlt' e he hg
      have := (h'.old e he g hg hlt').1
      rw [h.ids] at this
      have := hlt g this
      omega
    have hy : s'.next ≤ g → ∀ e ∈ x, e.guard ≠ some g := by
      intro hge' e he hg
      have := h.range e he g hg
      omega
    rcases List.mem_append.1 he with he | he
    · obtain ⟨k, hk⟩ := h.new e he g hg hge
      refine ⟨k, ?_⟩
      have := proper_extend (a := []) (c := y) hk (by simpa using hx (h.range e he g hg))
      simpa using this
    · by_cases hc : g < s'.next
      · exact (hx hc e he hg).elim
      · obtain ⟨k, hk⟩ := h'.new e he g hg (by omega)
        refine ⟨k, ?_⟩
        have := proper_extend (a := x) (c := []) hk (by simpa using hy (by omega))
        simpa using this

/-- The destructor of a guard at the end of a scope outside of unwinding. -/
theorem destroy_due (b : Behaviour) (hb : ∀ t calls, (b t calls).adds = []) (k : Kind) (thrown : Bool)
    (stack : List (Option Task)) :
    Pluto.Scope.destroy b stack.length k (if thrown then 0 + 1 else 0) stack =
      .returned (if Due k thrown then stack.filterMap id else []) := by
  have hr : Pluto.Scope.runs (if thrown then 0 + 1 else 0) k = decide (Due k thrown) := by
    cases k <;> cases thrown <;> rfl
  by_cases h : Due k thrown
  · have := Pluto.Props.C36_each_once_reversed_partial b hb k (if thrown then 0 + 1 else 0) (by rw [hr, decide_eq_true h])
      stack.reverse stack.length (by simp)
    rw [Pluto.Props.foldl_add] at this
    rw [if_pos h]
    simpa using this
  · rw [if_neg h]
    exact Pluto.Props.C36_not_run b k _ (by rw [hr, decide_eq_false h]) stack _

theorem set_guards {l : List Guard} (hn : (l.map (·.id)).Nodup) {i : Nat} {g : Guard} (hg : l[i]? = some g)
    (t : Option Task) :
    l.set i { g with stack := Pluto.Scope.add g.stack t } =
      l.map fun h => { h with stack := (taken h.id [.added g.id t]).reverse ++ h.stack } := by
  apply List.ext_getElem?
  intro j
  rw [List.getElem?_set, List.getElem?_map]
  obtain ⟨hi, hg'⟩ := List.getElem?_eq_some_iff.1 hg
  by_cases e : i = j
  · subst e
    rw [if_pos rfl, if_pos hi, hg]
    simp [taken, Pluto.Scope.add]
  · rw [if_neg e]
    cases hj : l[j]? with
    | none => rfl
    | some h =>
      obtain ⟨hj', hh⟩ := List.getElem?_eq_some_iff.1 hj
      have hne : g.id ≠ h.id := by
        intro eq
        apply e
        exact (List.Nodup.getElem_inj_iff hn (hi := by simpa using hi) (hj := by simpa using hj')).1 (by simp [hg', hh, eq])
      simp [taken, hne]

theorem run_add {s : St} (hw : Wf s) {i : Nat} {g : Guard} (hg : s.guards[i]? = some g) (t : Option Task) :
    Run s { s with guards := s.guards.set i { g with stack := Pluto.Scope.add g.stack t }, log := s.log ++ [.added g.id t] }
      [.added g.id t] := by
  have hm : g ∈ s.guards := List.mem_of_getElem? hg
  refine ⟨rfl, Nat.le_refl _, set_guards hw.nodup hg t, ?_, ?_, ?_⟩
  · intro e he g' hg' _
    rw [List.mem_singleton.1 he] at hg' ⊢
    simp only [Ev.guard, Option.some.injEq] at hg'
    subst hg'
    exact ⟨List.mem_map.2 ⟨g, hm, rfl⟩, t, rfl⟩
  · intro e he g' hg'
    rw [List.mem_singleton.1 he] at hg'
    simp only [Ev.guard, Option.some.injEq] at hg'
    subst hg'
    exact hw.below g hm
  · intro e he g' hg' hge
    rw [List.mem_singleton.1 he] at hg'
    simp only [Ev.guard, Option.some.injEq] at hg'
    subst hg'
    have := hw.below g hm
    omega

/-- The state in which the body of a scope begins. -/
def opened (s : St) (k : Kind) (first : Option (Option Task)) : St :=
  { guards := { id := s.next, kind := k, stack := first.toList } :: s.guards, next := s.next + 1,
    log := s.log ++ .entered s.next k :: first.toList.map (.added s.next) }

theorem wf_opened {s : St} (hw : Wf s) (k : Kind) (first : Option (Option Task)) : Wf (opened s k first) := by
  refine ⟨?_, ?_⟩
  · simp only [opened, List.map_cons, List.nodup_cons]
    refine ⟨?_, hw.nodup⟩
    intro hm
    obtain ⟨g, hg, e⟩ := List.mem_map.1 hm
    have := hw.below g hg
    omega
  · intro g hg
    simp only [opened, List.mem_cons] at hg ⊢
    rcases hg with rfl | hg
    · simp
    · have := hw.below g hg
      omega

/-- The calls when a scope is left. -/
def calls (g : Nat) (k : Kind) (thrown : Bool) (during : List Ev) : List Ev :=
  (if Due k thrown then ((taken g during).filterMap id).reverse else []).map (Ev.call g)

/-- The state in which a scope ends. -/
def closed (s : St) (g : Nat) (k : Kind) (thrown : Bool) (during : List Ev) : St :=
  { s with guards := s.guards.tail, log := s.log ++ (Ev.left g thrown :: calls g k thrown during) }

theorem run_scope {s s₂ : St} (hw : Wf s) {k : Kind} {first : Option (Option Task)} {x : List Ev}
    (h : Run (opened s k first) s₂ x) (thrown : Bool) :
    Run s (closed s₂ s.next k thrown (first.toList.map (Ev.added s.next) ++ x))
      (Ev.entered s.next k :: (first.toList.map (Ev.added s.next) ++ x) ++ Ev.left s.next thrown ::
        calls s.next k thrown (first.toList.map (Ev.added s.next) ++ x)) := by
  have hn := h.next
  have hn' : s.next + 1 ≤ s₂.next := hn
  have hc : ∀ d, ∀ e ∈ calls s.next k thrown d, e.guard = some s.next := by
    intro d e he
    obtain ⟨t, _, rfl⟩ := List.mem_map.1 he
    rfl
  have hf : ∀ e ∈ first.toList.map (Ev.added s.next), e.guard = some s.next := by
    intro e he
    obtain ⟨t, _, rfl⟩ := List.mem_map.1 he
    rfl
  have hprop : Proper s.next k (Ev.entered s.next k :: (first.toList.map (Ev.added s.next) ++ x) ++ Ev.left s.next thrown ::
        calls s.next k thrown (first.toList.map (Ev.added s.next) ++ x)) := by
    refine ⟨[], first.toList.map (Ev.added s.next) ++ x, [], thrown, by simp [calls], by simp, ?_⟩
    intro e he hg
    rcases List.mem_append.1 he with he | he
    · obtain ⟨t, _, rfl⟩ := List.mem_map.1 he
      exact ⟨t, rfl⟩
    · exact (h.old e he s.next hg (by simp [opened])).2
  have hsplit : ∀ e ∈ (Ev.entered s.next k :: (first.toList.map (Ev.added s.next) ++ x) ++ Ev.left s.next thrown ::
        calls s.next k thrown (first.toList.map (Ev.added s.next) ++ x)), e ∈ x ∨ e.guard = some s.next := by
    intro e he
    simp only [List.mem_append, List.mem_cons] at he
    rcases he with (rfl | he | he) | rfl | he
    · exact .inr rfl
    · exact .inr (hf e he)
    · exact .inl he
    · exact .inr rfl
    · exact .inr (hc _ e he)
  refine ⟨?_, by simp only [closed]; omega, ?_, ?_, ?_, ?_⟩
  · simp [closed, h.log, opened]
  · simp only [closed]
    rw [h.guards]
    simp only [opened, List.map_cons, List.tail_cons]
    apply List.map_congr_left
    intro g hg
    have hne : g.id ≠ s.next := by have := hw.below g hg; omega
    have e1 : taken g.id (first.toList.map (Ev.added s.next)) = [] :=
      taken_nil fun e he => by rw [hf e he]; simp; omega
    have e2 : taken g.id (Ev.left s.next thrown :: calls s.next k thrown (first.toList.map (Ev.added s.next) ++ x)) = [] := by
      refine taken_nil fun e he => ?_
      rcases List.mem_cons.1 he with rfl | he
      · simp [Ev.guard]; omega
      · rw [hc _ e he]; simp; omega
    have e3 : taken g.id [Ev.entered s.next k] = [] := rfl
    rw [← List.singleton_append, List.append_assoc, taken_append, taken_append, taken_append, e1, e2, e3]
    simp
  · intro e he g hg hlt
    rcases hsplit e he with he | he
    · obtain ⟨h1, h2⟩ := h.old e he g hg (by simp only [opened]; omega)
      refine ⟨?_, h2⟩
      simp only [opened, List.map_cons, List.mem_cons] at h1
      rcases h1 with rfl | h1
      · omega
      · exact h1
    · rw [he] at hg
      cases hg
      omega
  · intro e he g hg
    rcases hsplit e he with he | he
    · exact h.range e he g hg
    · rw [he] at hg
      cases hg
      show s.next < s₂.next
      omega
  · intro e he g hg hge
    by_cases hgn : g = s.next
    · subst hgn
      exact ⟨k, hprop⟩
    · rcases hsplit e he with he | he
      · obtain ⟨k', hk⟩ := h.new e he g hg (by simp only [opened]; omega)
        refine ⟨k', ?_⟩
        have := proper_extend (a := Ev.entered s.next k :: first.toList.map (Ev.added s.next))
          (c := Ev.left s.next thrown :: calls s.next k thrown (first.toList.map (Ev.added s.next) ++ x)) hk ?_
        · simpa using this
        · intro e he hg'
          simp only [List.mem_append, List.mem_cons] at he
          have : e.guard = some s.next := by
            rcases he with (rfl | he) | rfl | he
            · rfl
            · exact hf e he
            · rfl
            · exact hc _ e he
          rw [this] at hg'
          cases hg'
          exact hgn rfl
      · rw [he] at hg
        cases hg
        exact (hgn rfl).elim

theorem close_eq (b : Behaviour) (hb : ∀ t calls, (b t calls).adds = []) {s s₂ : St} {k : Kind} {first : Option (Option Task)}
    {x : List Ev} (h : Run (opened s k first) s₂ x) (thrown : Bool) :
    close b 0 s₂ thrown = some (closed s₂ s.next k thrown (first.toList.map (Ev.added s.next) ++ x)) := by
  have hg := h.guards
  simp only [opened, List.map_cons] at hg
  unfold close
  rw [hg]
  simp only [destroy_due b hb, closed, hg, List.tail_cons, calls, taken_append, taken_added]
  congr 4
  split
  · rcases first with _ | _ | _ <;> simp
  · rfl

theorem construct_eq (fails : Bool) (first : Option (Option Task)) :
    construct fails first = if fails then none else some first.toList := by
  cases first <;> cases fails <;> rfl

theorem exec_run (b : Behaviour) (hb : ∀ t calls, (b t calls).adds = []) (p : Prog) {s : St} (hw : Wf s)
    (hs : Scoped s.guards.length p) : ∃ s' thrown x, exec b 0 p s = some (s', thrown) ∧ Run s s' x := by
  induction p generalizing s with
  | emit n => exact ⟨_, _, _, rfl, Run.silent (by simp [Ev.guard])⟩
  | throw => exact ⟨_, _, _, rfl, Run.refl s⟩
  | seq p q hp hq =>
    obtain ⟨s', th, x, h1, h2⟩ := hp hw hs.1
    have hl : s'.guards.length = s.guards.length := by rw [h2.guards, List.length_map]
    cases th with
    | true => exact ⟨s', true, x, by simp [exec, h1], h2⟩
    | false =>
      obtain ⟨s'', th, y, h3, h4⟩ := hq (h2.wf hw) (by rw [hl]; exact hs.2)
      exact ⟨s'', th, x ++ y, by simp [exec, h1, h3], h2.trans h4 hw⟩
  | tryCatch p q hp hq =>
    obtain ⟨s', th, x, h1, h2⟩ := hp hw hs.1
    have hl : s'.guards.length = s.guards.length := by rw [h2.guards, List.length_map]
    cases th with
    | false => exact ⟨s', false, x, by simp [exec, h1], h2⟩
    | true =>
      obtain ⟨s'', th, y, h3, h4⟩ := hq (h2.wf hw) (by rw [hl]; exact hs.2)
      exact ⟨s'', th, x ++ y, by simp [exec, h1, h3], h2.trans h4 hw⟩
  | add i t fails =>
    have hs : i < s.guards.length := hs
    have hg : s.guards[i]? = some s.guards[i] := List.getElem?_eq_getElem hs
    cases fails with
    | true => exact ⟨_, true, [.refused t], by simp only [exec, hg, add]; rfl, Run.silent (by simp [Ev.guard])⟩
    | false => exact ⟨_, false, _, by simp only [exec, hg, add]; rfl, run_add hw hg t⟩
  | scope k fails first body ih =>
    cases fails with
    | true =>
      exact ⟨_, true, first.toList.map .refused, by simp only [exec, construct_eq]; rfl,
        Run.silent (by intro e he; obtain ⟨t, _, rfl⟩ := List.mem_map.1 he; rfl)⟩
    | false =>
      obtain ⟨s₂, th, x, h1, h2⟩ := ih (wf_opened hw k first) hs
      refine ⟨_, th, _, ?_, run_scope hw h2 th⟩
      simp only [exec, construct_eq, Bool.false_eq_true, if_false]
      change (match exec b 0 body (opened s k first) with | none => none | some (s₂, thrown) => _) = _
      simp only [h1, close_eq b hb h2 th, Option.map_some]

/-! ## The order of tasks of several guards -/

theorem pending_append (st : List Task) (l m : List Ev) :
    pending st (l ++ m) = (pending st l).bind fun st' => pending st' m := by
  induction l generalizing st with
  | nil => rfl
  | cons e l ih =>
    cases e with
    | added g t => cases t <;> simp [pending, ih]
    | call g t =>
      cases st with
      | nil => simp [pending]
      | cons t' st' =>
        simp only [List.cons_append, pending]
        split
        · exact ih _
        · rfl
    | _ => simp [pending, ih]

theorem pending_calls (g : Nat) (ts st : List Task) : pending (ts ++ st) (ts.map (Ev.call g)) = some st := by
  induction ts with
  | nil => rfl
  | cons t ts ih => simpa [pending] using ih

/-- All tasks that guards have taken, the innermost guard first. -/
def held (s : St) : List Task := s.guards.flatMap fun g => g.stack.filterMap id

theorem exec_pending (b : Behaviour) (hb : ∀ t calls, (b t calls).adds = []) (p : Prog) {s s' : St} {thrown : Bool} {x : List Ev}
    (hw : Wf s) (hs : Scoped s.guards.length p) (hi : Inner p) (he : exec b 0 p s = some (s', thrown))
    (hx : s'.log = s.log ++ x) : pending (held s) x = some (held s') := by
  induction p generalizing s s' thrown x with
  | emit n =>
    cases he
    obtain rfl := List.append_cancel_left hx
    rfl
  | throw =>
    cases he
    have : x = [] := by simpa using hx
    subst this
    rfl
  | seq p q hp hq =>
    obtain ⟨s₁, th, y, h1, h2⟩ := exec_run b hb p hw hs.1
    have hl : s₁.guards.length = s.guards.length := by rw [h2.guards, List.length_map]
    have hp' := hp hw hs.1 hi.1 h1 h2.log
    cases th with
    | true =>
      simp only [exec, h1, Option.some.injEq, Prod.mk.injEq] at he
      obtain ⟨rfl, -⟩ := he
      rw [h2.log] at hx
      obtain rfl := List.append_cancel_left hx
      exact hp'
    | false =>
      simp only [exec, h1] at he
      obtain ⟨s₃, th', z, h3, h4⟩ := exec_run b hb q (h2.wf hw) (by rw [hl]; exact hs.2)
      rw [he] at h3
      cases h3
      have hq' := hq (h2.wf hw) (by rw [hl]; exact hs.2) hi.2 he h4.log
      rw [h4.log, h2.log, List.append_assoc] at hx
      obtain rfl := List.append_cancel_left hx
      rw [pending_append, hp']
      exact hq'
  | tryCatch p q hp hq =>
    obtain ⟨s₁, th, y, h1, h2⟩ := exec_run b hb p hw hs.1
    have hl : s₁.guards.length = s.guards.length := by rw [h2.guards, List.length_map]
    have hp' := hp hw hs.1 hi.1 h1 h2.log
    cases th with
    | false =>
      simp only [exec, h1, Option.some.injEq, Prod.mk.injEq] at he
      obtain ⟨rfl, -⟩ := he
      rw [h2.log] at hx
      obtain rfl := List.append_cancel_left hx
      exact hp'
    | true =>
      simp only [exec, h1] at he
      obtain ⟨s₃, th', z, h3, h4⟩ := exec_run b hb q (h2.wf hw) (by rw [hl]; exact hs.2)
      rw [he] at h3
      cases h3
      have hq' := hq (h2.wf hw) (by rw [hl]; exact hs.2) hi.2 he h4.log
      rw [h4.log, h2.log, List.append_assoc] at hx
      obtain rfl := List.append_cancel_left hx
      rw [pending_append, hp']
      exact hq'
  | add i t fails =>
    obtain ⟨rfl, ht⟩ := hi
    cases t with
    | none => exact (ht rfl).elim
    | some t =>
      cases hg : s.guards with
      | nil => simp [exec, hg] at he
      | cons g gs =>
        cases fails with
        | true =>
          simp only [exec, hg, List.getElem?_cons_zero, add, if_true, Option.some.injEq, Prod.mk.injEq] at he
          obtain ⟨rfl, -⟩ := he
          obtain rfl := List.append_cancel_left hx
          simp [pending, held, hg]
        | false =>
          simp only [exec, hg, List.getElem?_cons_zero, add, Bool.false_eq_true, if_false, Option.some.injEq,
            Prod.mk.injEq] at he
          obtain ⟨rfl, -⟩ := he
          obtain rfl := List.append_cancel_left hx
          simp [pending, held, hg, Pluto.Scope.add]
  | scope k fails first body ih =>
    obtain ⟨rfl, hf, hi⟩ := hi
    cases fails with
    | true =>
      simp only [exec, construct_eq, if_true, Option.some.injEq, Prod.mk.injEq] at he
      obtain ⟨rfl, -⟩ := he
      obtain rfl := List.append_cancel_left hx
      cases first <;> rfl
    | false =>
      obtain ⟨s₂, th, y, h1, h2⟩ := exec_run b hb body (wf_opened hw .exit first) hs
      have hb' := ih (wf_opened hw .exit first) hs hi h1 h2.log
      simp only [exec, construct_eq, Bool.false_eq_true, if_false] at he
      change (match exec b 0 body (opened s .exit first) with | none => none | some (s₂, thrown) => _) = _ at he
      simp only [h1, close_eq b hb h2 th, Option.map_some, Option.some.injEq, Prod.mk.injEq] at he
      obtain ⟨rfl, -⟩ := he
      have hx' : x = Ev.entered s.next .exit :: (first.toList.map (Ev.added s.next)) ++ (y ++ Ev.left s.next th ::
          calls s.next .exit th (first.toList.map (Ev.added s.next) ++ y)) := by
        simp only [closed] at hx
        rw [h2.log] at hx
        simp only [opened, List.append_assoc] at hx
        have := List.append_cancel_left hx
        rw [← this]
      subst hx'
      have hstart : pending (held s) (Ev.entered s.next .exit :: first.toList.map (Ev.added s.next)) =
          some (held (opened s .exit first)) := by
        cases first with
        | none => simp [pending, held, opened]
        | some t =>
          cases t with
          | none => exact (hf rfl).elim
          | some t => simp [pending, held, opened]
      rw [pending_append, hstart, Option.bind_some, pending_append, hb', Option.bind_some]
      have hg := h2.guards
      simp only [opened, List.map_cons] at hg
      simp only [held, closed, hg, pending, List.tail_cons, List.flatMap_cons, calls, Due, true_or, if_true, taken_append, taken_added]
      have : ((first.toList ++ taken s.next y).filterMap id).reverse =
          ((taken s.next y).reverse ++ first.toList).filterMap id := by
        rcases first with _ | _ | _ <;> simp
      rw [this]
      exact pending_calls _ _ _

end Pluto.ScopeFault
