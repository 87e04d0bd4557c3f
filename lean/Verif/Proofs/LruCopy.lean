import Verif.Model.LruCopy
import Verif.Spec.LruCopy
import Verif.Proofs.Lru

/-! # A copied cache behaves like the repaired one until a stale iterator is used -/

set_option linter.unusedSectionVars false

namespace Pluto.Lru
open Pluto.Spec.Lru
variable {K V : Type} [DecidableEq K]

/-- A map in which the iterators of the keys in `σ` have been replaced. -/
def stainMap (σ : K → Option Nat) (m : List (K × (V × Nat))) : List (K × (V × Nat)) :=
  m.map fun e => (e.1, (e.2.1, (σ e.1).getD e.2.2))

/-- A state with some iterators replaced. -/
def stain (σ : K → Option Nat) (s : State K V) : State K V := { s with map := stainMap σ s.map }

theorem stain_find (σ : K → Option Nat) (m : List (K × (V × Nat))) (k : K) :
    mapFind (stainMap σ m) k = (mapFind m k).map fun x => (x.1, (σ k).getD x.2) := by
  unfold mapFind stainMap
  induction m with
  | nil => rfl
  | cons e m ih =>
    by_cases h : e.1 = k
    · subst h; simp
    · simp only [List.map_cons]
      rw [List.find?_cons_of_neg (by simpa using h), List.find?_cons_of_neg (by simpa using h)]
      exact ih

theorem stain_erase (σ : K → Option Nat) (m : List (K × (V × Nat))) (k : K) :
    mapErase (stainMap σ m) k = stainMap σ (mapErase m k) := by
  unfold mapErase stainMap
  rw [List.filter_map]; rfl

theorem stain_update (σ : K → Option Nat) (m : List (K × (V × Nat))) (k : K) (f : V × Nat → V × Nat) (h : σ k = none) :
    mapUpdate (stainMap σ m) k f = stainMap σ (mapUpdate m k f) := by
  unfold mapUpdate stainMap
  rw [List.map_map, List.map_map]
  apply List.map_congr_left
  intro e _
  by_cases he : e.1 = k
  · subst he; simp [h]
  · simp [he]

theorem stain_emplace (σ : K → Option Nat) (m : List (K × (V × Nat))) (k : K) (x : V × Nat) (h : mapFind m k = none)
    (hσ : σ k = none) : mapEmplace (stainMap σ m) k x = stainMap σ (mapEmplace m k x) := by
  have h' : mapFind (stainMap σ m) k = none := by rw [stain_find, h]; rfl
  unfold mapEmplace
  simp only [h, h', Option.isSome_none, Bool.false_eq_true, if_false]
  simp [stainMap, hσ]

theorem find_none_iff (m : List (K × (V × Nat))) (k : K) : mapFind m k = none ↔ ∀ e ∈ m, e.1 ≠ k := by
  unfold mapFind
  simp [List.find?_eq_none]

/-- Only the keys that are in the map matter. -/
def restrict (σ : K → Option Nat) (s : State K V) : K → Option Nat :=
  fun k => if (mapFind s.map k).isSome then σ k else none

theorem stain_restrict (σ : K → Option Nat) (s : State K V) : stain (restrict σ s) s = stain σ s := by
  unfold stain stainMap
  congr 1
  apply List.map_congr_left
  intro e he
  have : (mapFind s.map e.1).isSome := by
    rw [Option.isSome_iff_ne_none]
    intro h
    exact (find_none_iff _ _).1 h e he rfl
  simp [restrict, this]

theorem find_erase_other (m : List (K × (V × Nat))) (k k' : K) (h : mapFind m k = none) :
    mapFind (mapErase m k') k = none := by
  unfold mapFind mapErase at *
  simp only [Option.map_eq_none_iff, List.find?_eq_none] at *
  intro e he
  exact h e (List.mem_of_mem_filter he)

/-- What is kept of a run when the iterators of `σ` are replaced. -/
theorem evict_stain (σ : K → Option Nat) (s s' : State K V)
    (h : (evictLru noFaults : Prog (State K V) Unit).run s = (.ok (), s')) :
    (evictLru noFaults : Prog (State K V) Unit).run (stain σ s) = (.ok (), stain σ s') := by
  unfold evictLru at *
  simp only [Prog.run_read_bind] at *
  have e : (stain σ s).list = s.list := rfl
  rw [e]
  cases hl : s.list.getLast? with
  | none => rw [hl] at h; simp at h
  | some node =>
    rw [hl] at h
    simp only [orThrow_noFaults, Prog.run_modify_bind, listErase, Prog.run_guarded] at h ⊢
    split at h
    · rename_i hg
      rw [if_pos (by exact hg)]
      simp only [Prod.mk.injEq, true_and] at h ⊢
      subst h
      simp only [stain, stain_erase]
    · simp at h

theorem evict_absent {s s' : State K V} {k : K} (h : (evictLru noFaults : Prog (State K V) Unit).run s = (.ok (), s'))
    (hk : mapFind s.map k = none) : mapFind s'.map k = none := by
  unfold evictLru at *
  simp only [Prog.run_read_bind] at *
  cases hl : s.list.getLast? with
  | none => rw [hl] at h; simp at h
  | some node =>
    rw [hl] at h
    simp only [orThrow_noFaults, Prog.run_modify_bind, listErase, Prog.run_guarded] at h
    split at h
    · simp only [Prod.mk.injEq, true_and] at h
      subst h
      exact find_erase_other _ _ _ hk
    · simp at h

theorem stain_length (σ : K → Option Nat) (s : State K V) : (stain σ s).map.length = s.map.length := by
  simp [stain, stainMap]

theorem shrink_stain (σ : K → Option Nat) (fuel : Nat) (s s' : State K V)
    (h : (shrink noFaults fuel : Prog (State K V) Unit).run s = (.ok (), s')) :
    (shrink noFaults fuel : Prog (State K V) Unit).run (stain σ s) = (.ok (), stain σ s') := by
  induction fuel generalizing s with
  | zero =>
    unfold shrink size at *
    simp only [Prog.run_read_bind, stain_length] at *
    have e : (stain σ s).capacity = s.capacity := rfl
    rw [e]
    split at h
    · simp at h
    · rename_i hc
      rw [if_neg hc]
      simp only [Prog.run_pure, Prod.mk.injEq, true_and] at h ⊢
      rw [h]
  | succ fuel ih =>
    unfold shrink size at h ⊢
    simp only [Prog.run_read_bind, stain_length] at h ⊢
    have e : (stain σ s).capacity = s.capacity := rfl
    rw [e]
    split at h
    · rename_i hc
      rw [if_pos hc]
      rw [Prog.run_bind] at h
      cases he : (evictLru noFaults : Prog (State K V) Unit).run s with
      | mk o s1 =>
        rw [he] at h
        cases o with
        | ok u =>
          simp only at h
          rw [Prog.run_bind_ok (evict_stain σ s s1 he)]
          exact ih s1 h
        | threw => simp at h
        | ub => simp at h
    · rename_i hc
      rw [if_neg hc]
      simp only [Prog.run_pure, Prod.mk.injEq, true_and] at h ⊢
      rw [h]

theorem moveToFront_stain (σ : K → Option Nat) (s s' : State K V) (k : K) (hσ : σ k = none)
    (h : (moveToFront noFaults k).run s = (.ok (), s')) :
    (moveToFront noFaults k).run (stain σ s) = (.ok (), stain σ s') := by
  unfold moveToFront at *
  have hf : mapFind (stain σ s).map k = mapFind s.map k := by
    show mapFind (stainMap σ s.map) k = _
    rw [stain_find, hσ]
    cases mapFind s.map k <;> rfl
  simp only [Prog.run_read_bind, hf, listBegin] at *
  cases hm : mapFind s.map k with
  | none => rw [hm] at h; simp at h
  | some x =>
    rw [hm] at h
    obtain ⟨v, i⟩ := x
    simp only [Prog.run_read_bind] at h ⊢
    have e : (stain σ s).list = s.list := rfl
    rw [e]
    split at h
    · rename_i hb
      rw [if_pos hb]
      simp only [Prog.run_pure, Prod.mk.injEq, true_and] at h ⊢
      rw [h]
    · rename_i hb
      rw [if_neg hb]
      by_cases hg : s.list.any (fun n => decide (n.1 = i)) = true
      · rw [Prog.run_bind_ok (run_listErase hg)] at h
        rw [Prog.run_bind_ok (run_listErase (s := stain σ s) hg)]
        simp only [Prog.orThrow, noFaults, Bool.false_eq_true, if_false, listPushFront, Prog.run_modify_bind,
          Prog.run_read_bind, List.head?_cons, Option.map_some, Prog.run_modify, Prod.mk.injEq, true_and] at h ⊢
        subst h
        simp only [stain]
        rw [stain_update σ s.map k _ hσ]
      · have : (listErase i).run s = (.ub, s) := by
          unfold listErase; rw [Prog.run_guarded, if_neg hg]
        rw [Prog.run_bind, this] at h
        simp at h

/-- Programs keep a property of states. -/
def Keeps {ρ : Type} (R : State K V → Prop) (p : Prog (State K V) ρ) : Prop := ∀ s, R s → R (p.run s).2

section keeps
variable {ρ τ : Type} {R : State K V → Prop}

theorem keeps_pure (r : ρ) : Keeps R (pure r) := fun _ h => h
theorem keeps_ub : Keeps R (Prog.ub : Prog (State K V) ρ) := fun _ h => h
theorem keeps_read (f : State K V → ρ) : Keeps R (Prog.read f) := fun _ h => h
theorem keeps_bind {p : Prog (State K V) ρ} {f : ρ → Prog (State K V) τ} (hp : Keeps R p) (hf : ∀ r, Keeps R (f r)) :
    Keeps R (p >>= f) := by
  intro s h
  have := hp s h
  rw [Prog.run_bind]
  generalize p.run s = x at *
  obtain ⟨o, s'⟩ := x
  cases o with
  | ok r => exact hf r s' this
  | threw => exact this
  | ub => exact this
theorem keeps_modify {f : State K V → State K V} (h : ∀ s, R s → R (f s)) : Keeps R (Prog.modify f) := h
theorem keeps_ite {c : Prop} [Decidable c] {p q : Prog (State K V) ρ} (hp : Keeps R p) (hq : Keeps R q) :
    Keeps R (if c then p else q) := by split <;> assumption

end keeps

/-- Nodes are old ones or new ones. -/
def Grown (s0 s : State K V) : Prop := s0.next ≤ s.next ∧ ∀ n ∈ s.list, n ∈ s0.list ∨ s0.next ≤ n.1

section grown
variable (s0 : State K V)

theorem grown_listErase (i : Nat) : Keeps (Grown s0) (listErase i) := by
  intro s h
  unfold listErase
  rw [Prog.run_guarded]
  split
  · exact ⟨h.1, fun n hn => h.2 n (List.mem_of_mem_filter hn)⟩
  · exact h

theorem grown_push (k : K) : Keeps (Grown s0) (listPushFront k) := by
  apply keeps_modify
  intro s h
  refine ⟨Nat.le_succ_of_le h.1, fun n hn => ?_⟩
  rcases List.mem_cons.1 hn with rfl | hn
  · exact .inr h.1
  · exact h.2 n hn

theorem grown_map (f : State K V → List (K × (V × Nat))) :
    Keeps (Grown s0) (Prog.modify fun s => { s with map := f s }) := keeps_modify fun _ h => h

theorem grown_evict : Keeps (Grown s0) (evictLru noFaults : Prog (State K V) Unit) := by
  unfold evictLru
  refine keeps_bind (keeps_read _) fun l => ?_
  obtain ⟨l, m⟩ := l
  cases l with
  | none => exact keeps_ub
  | some n => exact keeps_bind (grown_map s0 _) fun _ => grown_listErase s0 _

theorem grown_shrink (fuel : Nat) : Keeps (Grown s0) (shrink noFaults fuel : Prog (State K V) Unit) := by
  induction fuel with
  | zero =>
    unfold shrink
    exact keeps_bind (keeps_read _) fun _ => keeps_bind (keeps_read _) fun _ => keeps_ite keeps_ub (keeps_pure _)
  | succ fuel ih =>
    unfold shrink
    exact keeps_bind (keeps_read _) fun _ => keeps_bind (keeps_read _) fun _ =>
      keeps_ite (keeps_bind (grown_evict s0) fun _ => ih) (keeps_pure _)

theorem grown_clear : Keeps (Grown s0) (clear : Prog (State K V) Unit) := by
  refine keeps_bind (grown_map s0 _) fun _ => keeps_modify fun s h => ⟨h.1, ?_⟩
  intro n hn; cases hn

theorem grown_moveToFront (k : K) : Keeps (Grown s0) (moveToFront noFaults k) := by
  unfold moveToFront
  refine keeps_bind (keeps_read _) fun e => ?_
  cases e with
  | none => exact keeps_ub
  | some x =>
    refine keeps_bind (keeps_read _) fun b => keeps_ite (keeps_pure _) (keeps_bind (grown_listErase s0 _) fun _ =>
      keeps_bind (grown_push s0 k) fun _ => keeps_bind (keeps_read _) fun l => ?_)
    cases l with
    | none => exact keeps_ub
    | some n => exact grown_map s0 _

/-- The end of `insertImpl` for an absent key. -/
def insertTail (k : K) (v : V) : Prog (State K V) Bool := do
  listPushFront k
  let front ← listBegin
  match front with
  | none => .ub
  | some front =>
    Prog.modify (fun s => { s with map := mapEmplace s.map k (v, front) })
    pure true

theorem insertImpl_eq (k : K) (v : V) (oa : Bool) : insertImpl noFaults k v oa = (do
  let itMap ← Prog.read (fun s => mapFind s.map k)
  match itMap with
  | none =>
    let c ← Prog.read (fun s => s.capacity)
    if c ≠ 0 then do
      let n ← size
      if c ≤ n then do
        evictLru noFaults
        insertTail k v
      else insertTail k v
    else pure true
  | some _ =>
    if oa then do
      Prog.modify (fun s => { s with map := mapUpdate s.map k (fun e => (v, e.2)) })
      moveToFront noFaults k
      pure false
    else pure false) := rfl

theorem grown_insert (k : K) (v : V) (oa : Bool) : Keeps (Grown s0) (insertImpl noFaults k v oa) := by
  have ht : Keeps (Grown s0) (insertTail k v) := by
    refine keeps_bind (grown_push s0 k) fun _ => keeps_bind (keeps_read _) fun l => ?_
    cases l with
    | none => exact keeps_ub
    | some n => exact keeps_bind (grown_map s0 _) fun _ => keeps_pure _
  rw [insertImpl_eq]
  refine keeps_bind (keeps_read _) fun e => ?_
  cases e with
  | none =>
    exact keeps_bind (keeps_read _) fun c => keeps_ite (keeps_bind (keeps_read _) fun _ =>
      keeps_ite (keeps_bind (grown_evict s0) fun _ => ht) ht) (keeps_pure _)
  | some x =>
    exact keeps_ite (keeps_bind (grown_map s0 _) fun _ => keeps_bind (grown_moveToFront s0 k) fun _ => keeps_pure _)
      (keeps_pure _)

theorem grown_body (c : Call K V) : Keeps (Grown s0) (body noFaults c) := by
  cases c with
  | size => exact keeps_bind (keeps_read _) fun _ => keeps_pure _
  | capacity => exact keeps_bind (keeps_read _) fun _ => keeps_pure _
  | empty => exact keeps_bind (keeps_read _) fun _ => keeps_pure _
  | contains k => exact keeps_bind (keeps_read _) fun _ => keeps_pure _
  | clear => exact keeps_bind (grown_clear s0) fun _ => keeps_pure _
  | setCapacity n =>
    refine keeps_bind (keeps_bind (keeps_modify fun _ h => h) fun _ => keeps_bind (keeps_read _) fun _ =>
      keeps_ite (grown_clear s0) (keeps_bind (keeps_read _) fun n => grown_shrink s0 n)) fun _ => keeps_pure _
  | insert k v => exact keeps_bind (grown_insert s0 k v _) fun _ => keeps_pure _
  | insertOrAssign k v => exact keeps_bind (grown_insert s0 k v _) fun _ => keeps_pure _
  | get k =>
    refine keeps_bind (keeps_bind (keeps_read _) fun e => ?_) fun _ => keeps_pure _
    cases e with
    | none => exact keeps_pure _
    | some x => exact keeps_bind (keeps_pure _) fun _ => keeps_bind (grown_moveToFront s0 k) fun _ => keeps_pure _
  | remove k =>
    refine keeps_bind (keeps_bind (keeps_read _) fun e => ?_) fun _ => keeps_pure _
    cases e with
    | none => exact keeps_pure _
    | some x => exact keeps_bind (grown_listErase s0 _) fun _ => keeps_bind (grown_map s0 _) fun _ => keeps_pure _

end grown

theorem call_run {c : Call K V} {s s' : State K V} {r : Ret V} (h : call c s = some (s', r)) :
    (body noFaults c).run s = (.ok r, s') := by
  unfold call at h
  generalize (body noFaults c).run s = x at h
  obtain ⟨o, s''⟩ := x
  cases o <;> simp_all

theorem call_grown {c : Call K V} {s s' : State K V} {r : Ret V} (h : call c s = some (s', r)) : Grown s s' := by
  have := grown_body s c s ⟨Nat.le_refl _, fun n hn => .inl hn⟩
  rw [call_run h] at this
  exact this

/-- A bind that returned. -/
theorem run_bind_inv {ρ τ : Type} {p : Prog (State K V) ρ} {f : ρ → Prog (State K V) τ} {s s' : State K V} {r : τ}
    (h : (p >>= f).run s = (.ok r, s')) : ∃ x s1, p.run s = (.ok x, s1) ∧ (f x).run s1 = (.ok r, s') := by
  rw [Prog.run_bind] at h
  generalize p.run s = y at h
  obtain ⟨o, s1⟩ := y
  cases o with
  | ok x => exact ⟨x, s1, rfl, h⟩
  | threw => simp at h
  | ub => simp at h

theorem insertTail_stain (σ : K → Option Nat) {s s' : State K V} {k : K} {v : V} {b : Bool}
    (hm : mapFind s.map k = none) (hσ : σ k = none) (h : (insertTail k v).run s = (.ok b, s')) :
    (insertTail k v).run (stain σ s) = (.ok b, stain σ s') := by
  unfold insertTail at *
  simp only [listPushFront, Prog.run_modify_bind, listBegin,
    Prog.run_read_bind, List.head?_cons, Option.map_some, Prog.run_pure, Prod.mk.injEq] at h ⊢
  obtain ⟨h1, rfl⟩ := h
  refine ⟨h1, ?_⟩
  simp only [stain]
  rw [stain_emplace σ s.map k _ hm hσ]

theorem insert_stain (σ : K → Option Nat) {s s' : State K V} {k : K} {v : V} {oa b : Bool}
    (habs : mapFind s.map k = none → σ k = none) (hp : oa = true → σ k = none)
    (h : (insertImpl noFaults k v oa).run s = (.ok b, s')) :
    (insertImpl noFaults k v oa).run (stain σ s) = (.ok b, stain σ s') := by
  rw [insertImpl_eq] at *
  have hf : mapFind (stain σ s).map k = (mapFind s.map k).map fun x => (x.1, (σ k).getD x.2) := stain_find σ s.map k
  simp only [Prog.run_read_bind, hf, size] at *
  cases hm : mapFind s.map k with
  | none =>
    rw [hm] at h
    have hσ := habs hm
    simp only [Option.map_none, Prog.run_read_bind] at h ⊢
    have e : (stain σ s).capacity = s.capacity := rfl
    rw [e]
    split at h
    · rename_i hc
      rw [if_pos hc]
      simp only [Prog.run_read_bind, stain_length] at h ⊢
      split at h
      · rename_i hl
        rw [if_pos hl]
        obtain ⟨u, s1, h1, h2⟩ := run_bind_inv h
        rw [Prog.run_bind_ok (evict_stain σ s s1 h1)]
        exact insertTail_stain σ (evict_absent h1 hm) hσ h2
      · rename_i hl
        rw [if_neg hl]
        exact insertTail_stain σ hm hσ h
    · rename_i hc
      rw [if_neg hc]
      simp only [Prog.run_pure, Prod.mk.injEq] at h ⊢
      exact ⟨h.1, by rw [h.2]⟩
  | some x =>
    rw [hm] at h
    simp only [Option.map_some] at h ⊢
    cases oa with
    | false =>
      simp only [Bool.false_eq_true, if_false, Prog.run_pure, Prod.mk.injEq] at h ⊢
      exact ⟨h.1, by rw [h.2]⟩
    | true =>
      have hσ := hp rfl
      simp only [if_true, Prog.run_modify_bind] at h ⊢
      obtain ⟨u, s1, h1, h2⟩ := run_bind_inv h
      have := moveToFront_stain σ _ s1 k hσ h1
      simp only [stain] at this
      rw [← stain_update σ s.map k _ hσ] at this
      have e : (stain σ s) = { s with map := stainMap σ s.map } := rfl
      rw [Prog.run_bind_ok (by exact this)]
      simp only [Prog.run_pure, Prod.mk.injEq] at h2 ⊢
      exact ⟨h2.1, by rw [← h2.2]; rfl⟩

/-- A call that uses no stale key does the same with the stale iterators. -/
theorem call_stain (σ : K → Option Nat) {s s' : State K V} {c : Call K V} {r : Ret V}
    (habs : ∀ k, mapFind s.map k = none → σ k = none) (huse : ∀ k, c.uses = some k → σ k = none)
    (h : call c s = some (s', r)) : call c (stain σ s) = some (stain σ s', r) := by
  have h := call_run h
  suffices hs : (body noFaults c).run (stain σ s) = (.ok r, stain σ s') by unfold call; rw [hs]
  cases c with
  | size =>
    cases h
    simp [body, size, stain_length]
  | capacity => cases h; rfl
  | empty =>
    cases h
    simp [body, empty, stain, stainMap]
  | contains k =>
    cases h
    have hf : mapFind (stain σ s).map k = (mapFind s.map k).map fun x => (x.1, (σ k).getD x.2) := stain_find σ s.map k
    simp [body, contains, hf]
  | clear => cases h; rfl
  | setCapacity n =>
    obtain ⟨u, s1, h1, h2⟩ := run_bind_inv h
    cases h2
    refine Prog.run_bind_ok (r := ()) ?_
    unfold setCapacity at h1 ⊢
    simp only [Prog.run_modify_bind, Prog.run_read_bind] at h1 ⊢
    split at h1
    · rename_i hn
      rw [if_pos hn]
      cases h1; rfl
    · rename_i hn
      rw [if_neg hn]
      simp only [Prog.run_read_bind] at h1 ⊢
      exact shrink_stain σ _ { s with capacity := n } _ h1
  | insert k v =>
    obtain ⟨u, s1, h1, h2⟩ := run_bind_inv h
    cases h2
    exact Prog.run_bind_ok (insert_stain σ (habs k) (by simp) h1)
  | insertOrAssign k v =>
    obtain ⟨u, s1, h1, h2⟩ := run_bind_inv h
    cases h2
    exact Prog.run_bind_ok (insert_stain σ (habs k) (fun _ => huse k rfl) h1)
  | get k =>
    have hσ := huse k rfl
    obtain ⟨u, s1, h1, h2⟩ := run_bind_inv h
    cases h2
    refine Prog.run_bind_ok (r := u) ?_
    unfold get at h1 ⊢
    have hf : mapFind (stain σ s).map k = (mapFind s.map k).map fun x => (x.1, (σ k).getD x.2) := stain_find σ s.map k
    simp only [orThrow_noFaults, Prog.run_read_bind, hf] at h1 ⊢
    cases hm : mapFind s.map k with
    | none => rw [hm] at h1; cases h1; rfl
    | some x =>
      rw [hm] at h1
      simp only [Option.map_some] at h1 ⊢
      obtain ⟨u2, s2, h3, h4⟩ := run_bind_inv h1
      cases h3
      obtain ⟨u3, s3, h5, h6⟩ := run_bind_inv h4
      cases h6
      exact Prog.run_bind_ok (s' := stain σ s) (r := ()) rfl |>.trans
        (Prog.run_bind_ok (moveToFront_stain σ _ _ k hσ h5))
  | remove k =>
    have hσ := huse k rfl
    obtain ⟨u, s1, h1, h2⟩ := run_bind_inv h
    cases h2
    refine Prog.run_bind_ok (r := u) ?_
    unfold remove at h1 ⊢
    have hf : mapFind (stain σ s).map k = (mapFind s.map k).map fun x => (x.1, (σ k).getD x.2) := stain_find σ s.map k
    simp only [orThrow_noFaults, Prog.run_read_bind, hf] at h1 ⊢
    cases hm : mapFind s.map k with
    | none => rw [hm] at h1; cases h1; rfl
    | some x =>
      rw [hm] at h1
      simp only [Option.map_some, hσ, Option.getD_none] at h1 ⊢
      by_cases hg : s.list.any (fun n => decide (n.1 = x.2)) = true
      · rw [Prog.run_bind_ok (run_listErase hg)] at h1
        rw [Prog.run_bind_ok (run_listErase (s := stain σ s) hg)]
        simp only [Prog.run_modify_bind, Prog.run_pure, Prod.mk.injEq] at h1 ⊢
        refine ⟨h1.1, ?_⟩
        rw [← h1.2]
        simp only [stain, stain_erase]
      · have : (listErase x.2).run s = (.ub, s) := by
          unfold listErase; rw [Prog.run_guarded, if_neg hg]
        rw [Prog.run_bind, this] at h1
        simp at h1

/-- Using a stale iterator. -/
theorem listErase_stale {s : State K V} {j : Nat} (h : ∀ n ∈ s.list, n.1 ≠ j) : (listErase j).run s = (.ub, s) := by
  unfold listErase
  rw [Prog.run_guarded, if_neg]
  rw [List.any_eq_true]
  rintro ⟨n, hn, hj⟩
  exact h n hn (by simpa using hj)

theorem moveToFront_stale {s : State K V} {k : K} {v : V} {j : Nat} (hm : mapFind s.map k = some (v, j))
    (h : ∀ n ∈ s.list, n.1 ≠ j) : (moveToFront noFaults k).run s = (.ub, s) := by
  unfold moveToFront
  simp only [Prog.run_read_bind, hm, listBegin]
  rw [if_neg, Prog.run_bind, listErase_stale h]
  intro hb
  obtain ⟨n, hn, he⟩ := Option.map_eq_some_iff.1 hb
  exact h n (List.mem_of_mem_head? hn) he

theorem call_stale {s : State K V} {k : K} {v : V} {j : Nat} {c : Call K V} (hm : mapFind s.map k = some (v, j))
    (h : ∀ n ∈ s.list, n.1 ≠ j) (hu : c.uses = some k) : call c s = none := by
  suffices hs : ((body noFaults c).run s).1 = .ub by
    unfold call
    generalize (body noFaults c).run s = x at hs
    obtain ⟨o, s'⟩ := x
    simp only at hs
    rw [hs]
  have hb : ∀ {ρ τ : Type} (p : Prog (State K V) ρ) (f : ρ → Prog (State K V) τ) (s1 : State K V),
      (p.run s1).1 = .ub → ((p >>= f).run s1).1 = .ub := by
    intro ρ τ p f s1 h1
    rw [Prog.run_bind]
    generalize p.run s1 = x at h1
    obtain ⟨o, s'⟩ := x
    simp only at h1
    rw [h1]
  cases c with
  | get k' =>
    cases hu
    apply hb
    unfold get
    simp only [orThrow_noFaults, Prog.run_read_bind, hm]
    show ((moveToFront noFaults k >>= fun _ => pure (some v)).run s).1 = _
    apply hb
    rw [moveToFront_stale hm h]
  | remove k' =>
    cases hu
    apply hb
    unfold remove
    simp only [orThrow_noFaults, Prog.run_read_bind, hm]
    apply hb
    rw [listErase_stale h]
  | insertOrAssign k' v' =>
    cases hu
    apply hb
    unfold insertOrAssign
    rw [insertImpl_eq]
    simp only [Prog.run_read_bind, hm, if_true, Prog.run_modify_bind]
    apply hb
    have hm' : mapFind (mapUpdate s.map k fun e => (v', e.2)) k = some (v', j) := by
      unfold mapFind mapUpdate at *
      generalize s.map = m at hm
      induction m with
      | nil => simp at hm
      | cons e m ih =>
        by_cases he : e.1 = k
        · subst he
          simp at hm ⊢
          rw [hm]
        · rw [List.find?_cons_of_neg (by simpa using he)] at hm
          rw [List.map_cons, if_neg he, List.find?_cons_of_neg (by simpa using he)]
          exact ih hm
    rw [moveToFront_stale (s := { s with map := mapUpdate s.map k fun e => (v', e.2) }) hm' h]
  | size => cases hu
  | capacity => cases hu
  | empty => cases hu
  | contains _ => cases hu
  | clear => cases hu
  | setCapacity _ => cases hu
  | insert _ _ => cases hu

/-- The stale iterators refer to no node of the list, now or later. -/
def Stale (σ : K → Option Nat) (s : State K V) : Prop := ∀ k j, σ k = some j → j < s.next ∧ ∀ n ∈ s.list, n.1 ≠ j

theorem stale_grown {σ : K → Option Nat} {s s' : State K V} (h : Stale σ s) (hg : Grown s s') : Stale σ s' := by
  intro k j hj
  obtain ⟨h1, h2⟩ := h k j hj
  refine ⟨Nat.lt_of_lt_of_le h1 hg.1, fun n hn => ?_⟩
  rcases hg.2 n hn with h3 | h3
  · exact h2 n h3
  · omega

theorem stale_restrict {σ : K → Option Nat} {s : State K V} (s0 : State K V) (h : Stale σ s) :
    Stale (restrict σ s0) s := by
  intro k j hj
  unfold restrict at hj
  split at hj
  · exact h k j hj
  · cases hj

theorem find_isSome_iff {s : State K V} {T : List (Entry K V)} (h : Rel s T) (k : K) :
    (mapFind s.map k).isSome ↔ k ∈ (view s T).keys := by
  rw [Option.isSome_iff_ne_none, ne_eq, h.find_none]
  simp [view, abs, Cache.keys]

/-- Calls on a state with stale iterators: the results of the abstract cache, until a stale key is used. -/
theorem steps_stain {σ : K → Option Nat} {s : State K V} {T : List (Entry K V)} {old : List K} (h : Rel s T)
    (hst : Stale σ s) (hold : ∀ k, k ∈ old ↔ k ∈ (view s T).keys ∧ σ k ≠ none) (cs : List (Call K V)) :
    (usesOld (view s T) old cs ∧ calls cs (stain σ s) = none) ∨
    (¬ usesOld (view s T) old cs ∧ (calls cs (stain σ s)).map (·.2) = some ((view s T).steps cs).2) := by
  induction cs generalizing σ s T old with
  | nil => exact .inr ⟨fun h => h, rfl⟩
  | cons c cs ih =>
    by_cases hu : ∃ k ∈ old, c.uses = some k
    · left
      refine ⟨.inl hu, ?_⟩
      obtain ⟨k, hk, hc⟩ := hu
      obtain ⟨hk1, hk2⟩ := (hold k).1 hk
      obtain ⟨j, hj⟩ := Option.ne_none_iff_exists'.1 hk2
      obtain ⟨x, hx⟩ := Option.isSome_iff_exists.1 ((find_isSome_iff h k).2 hk1)
      have : mapFind (stain σ s).map k = some (x.1, j) := by
        show mapFind (stainMap σ s.map) k = _
        rw [stain_find, hx, hj]; rfl
      unfold calls
      rw [call_stale this (hst k j hj).2 hc]
    · obtain ⟨s', T', h1, h2, h3⟩ := step_sim h c
      have hres : stain (restrict σ s) s = stain σ s := stain_restrict σ s
      have hcall : call c (stain σ s) = some (stain (restrict σ s) s', ((view s T).step c).2) := by
        rw [← hres]
        apply call_stain _ _ _ h1
        · intro k hk
          simp [restrict, hk]
        · intro k hk
          by_cases hin : (mapFind s.map k).isSome
          · have : ¬ k ∈ old := fun ho => hu ⟨k, ho, hk⟩
            rw [hold] at this
            have h4 : σ k = none := by
              cases hs : σ k with
              | none => rfl
              | some j => exact absurd ⟨(find_isSome_iff h k).1 hin, by rw [hs]; simp⟩ this
            simp [restrict, h4]
          · simp [restrict, hin]
      have hst' : Stale (restrict σ s) s' := stale_grown (stale_restrict s hst) (call_grown h1)
      have hold' : ∀ k, k ∈ old.filter (fun k => decide (k ∈ (view s' T').keys)) ↔
          k ∈ (view s' T').keys ∧ restrict σ s k ≠ none := by
        intro k
        rw [List.mem_filter, decide_eq_true_eq, hold, and_comm, ← find_isSome_iff h]
        unfold restrict
        by_cases hin : (mapFind s.map k).isSome <;> simp [hin]
      have := ih h2 hst' hold'
      have hsimp : calls (c :: cs) (stain σ s) = (calls cs (stain (restrict σ s) s')).map
          (fun p => (p.1, ((view s T).step c).2 :: p.2)) := by
        conv_lhs => unfold calls
        rw [hcall]
        simp only
        cases calls cs (stain (restrict σ s) s') <;> rfl
      rw [h3] at this
      rcases this with ⟨a, b⟩ | ⟨a, b⟩
      · left
        exact ⟨.inr a, by rw [hsimp, b]; rfl⟩
      · right
        refine ⟨?_, ?_⟩
        · rintro (hx | hx)
          · exact hu hx
          · exact a hx
        · rw [hsimp]
          obtain ⟨p, hp, hp2⟩ := Option.map_eq_some_iff.1 b
          rw [hp]
          simp only [Option.map_some, Cache.steps]
          rw [hp2]

/-! ### A copy -/

theorem copyNodes_keys (i : Nat) (l : List (Nat × K)) : (copyNodes i l).map (·.2) = l.map (·.2) := by
  induction l generalizing i with
  | nil => rfl
  | cons n l ih => simp [copyNodes, ih]

/-- The copy with its iterators repaired. -/
def repaired (i : Nat) : List (Entry K V) → List (Entry K V)
  | [] => []
  | t :: T => (i, t.2) :: repaired (i + 1) T

theorem repaired_ids (i : Nat) (T : List (Entry K V)) : (repaired i T).map (·.1) = List.range' i T.length := by
  induction T generalizing i with
  | nil => rfl
  | cons t T ih => simp [repaired, ih, List.range'_succ]

theorem repaired_abs (i : Nat) (T : List (Entry K V)) : (repaired i T).map (·.2) = T.map (·.2) := by
  induction T generalizing i with
  | nil => rfl
  | cons t T ih => simp [repaired, ih]

theorem copyNodes_repaired (i : Nat) (T : List (Entry K V)) :
    copyNodes i (T.map fun t => (t.1, t.2.1)) = (repaired i T).map fun t => (t.1, t.2.1) := by
  induction T generalizing i with
  | nil => rfl
  | cons t T ih => simp [copyNodes, repaired, ih]

/-- Every new identity is new. -/
theorem repaired_ge {i : Nat} {T : List (Entry K V)} {t : Entry K V} (h : t ∈ repaired i T) :
    i ≤ t.1 ∧ t.1 < i + T.length := by
  have : t.1 ∈ (repaired i T).map (·.1) := List.mem_map.2 ⟨t, h, rfl⟩
  rw [repaired_ids, List.mem_range'_1] at this
  exact this

theorem copy_find {s : State K V} {T : List (Entry K V)} (h : Rel s T) :
    ∃ fix : State K V, ∃ σ, copy s = stain σ fix ∧ Rel fix (repaired s.next T) ∧ view fix (repaired s.next T) = view s T ∧
      Stale σ fix ∧ ∀ k, k ∈ (view s T).keys → σ k ≠ none := by
  let newId : K → Nat := fun k => (((repaired s.next T).find? fun t => decide (t.2.1 = k)).map (·.1)).getD 0
  let fix : State K V := { copy s with map := s.map.map fun e => (e.1, (e.2.1, newId e.1)) }
  let σ : K → Option Nat := fun k => (mapFind s.map k).map (·.2)
  have hkeys : ((repaired s.next T).map (·.2.1)).Nodup := by
    have : (repaired s.next T).map (·.2.1) = ((repaired s.next T).map (·.2)).map (·.1) := by simp
    rw [this, repaired_abs, List.map_map]
    exact h.keys
  have hlist : (copy s).list = (repaired s.next T).map fun t => (t.1, t.2.1) := by
    show copyNodes s.next s.list = _
    rw [h.list, copyNodes_repaired]
  refine ⟨fix, σ, ?_, ⟨hlist, ?_, ?_, hkeys, ?_⟩, ?_, ?_, ?_⟩
  · show copy s = { fix with map := stainMap σ fix.map }
    have : stainMap σ fix.map = s.map := by
      show (s.map.map _).map _ = _
      rw [List.map_map]
      conv_rhs => rw [← List.map_id s.map]
      apply List.map_congr_left
      intro e he
      have : mapFind s.map e.1 = some e.2 := (mapFind_some_iff h.mapKeys _ _).2 he
      simp [σ, this]
    rw [this]; rfl
  · show (s.map.map _).Perm _
    refine (h.map.map _).trans (List.Perm.of_eq ?_)
    rw [List.map_map]
    have e1 : (T.map ((fun e : K × (V × Nat) => (e.1, (e.2.1, newId e.1))) ∘ fun t : Entry K V => (t.2.1, (t.2.2, t.1))))
        = (T.map (·.2)).map fun p => (p.1, (p.2, newId p.1)) := by simp
    rw [e1, ← repaired_abs s.next T, List.map_map]
    apply List.map_congr_left
    intro t ht
    have : (repaired s.next T).find? (fun x => decide (x.2.1 = t.2.1)) = some t := by
      obtain ⟨A, B, hAB⟩ := List.append_of_mem ht
      rw [hAB] at hkeys ⊢
      rw [List.find?_append, List.find?_eq_none.2]
      · simp
      · intro x hx
        rw [List.map_append, List.map_cons, List.nodup_middle, List.nodup_cons, ← List.map_append] at hkeys
        have : x.2.1 ≠ t.2.1 := by
          intro he
          exact hkeys.1 (List.mem_map.2 ⟨x, List.mem_append_left _ hx, he⟩)
        simpa using this
    simp [newId, this]
  · rw [repaired_ids]; exact List.nodup_range'
  · intro t ht
    have := repaired_ge ht
    show t.1 < s.next + s.list.length
    rw [h.list, List.length_map]
    exact this.2
  · unfold view abs
    rw [repaired_abs]; rfl
  · intro k j hj
    obtain ⟨⟨v, i⟩, hx, rfl⟩ := Option.map_eq_some_iff.1 hj
    have hlt := h.fresh _ ((h.find_some k v i).1 hx)
    refine ⟨?_, ?_⟩
    · show i < s.next + s.list.length
      have : i < s.next := hlt
      omega
    · intro n hn
      have hn : n ∈ (copy s).list := hn
      rw [hlist] at hn
      obtain ⟨t, ht, rfl⟩ := List.mem_map.1 hn
      have := (repaired_ge ht).1
      have hlt : i < s.next := hlt
      show t.1 ≠ i
      omega
  · intro k hk
    rw [← find_isSome_iff h] at hk
    obtain ⟨x, hx⟩ := Option.isSome_iff_exists.1 hk
    simp [σ, hx]

/-- Calls on a copy. -/
theorem copy_steps {s : State K V} {T : List (Entry K V)} (h : Rel s T) (cs : List (Call K V)) :
    (usesOld (view s T) (view s T).keys cs ∧ calls cs (copy s) = none) ∨
    (¬ usesOld (view s T) (view s T).keys cs ∧ (calls cs (copy s)).map (·.2) = some ((view s T).steps cs).2) := by
  obtain ⟨fix, σ, h1, h2, h3, h4, h5⟩ := copy_find h
  rw [h1, ← h3]
  refine steps_stain h2 h4 ?_ cs
  intro k
  constructor
  · intro hk; exact ⟨hk, h5 k (by rw [← h3]; exact hk)⟩
  · exact fun hk => hk.1

end Pluto.Lru
