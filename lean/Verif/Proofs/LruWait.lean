import Mathlib.Data.DFinsupp.WellFounded
import Mathlib.Data.Fin.Basic
import Verif.Proofs.SafeLru

/-! # Lemmas for C158: calls of a safe LRU cache end -/

namespace Pluto.SafeLru
open Pluto.Spec.Lru (Call Ret)
open Pluto.Lru (State Faults noFaults)
variable {K V : Type} [DecidableEq K] [DecidableEq V]

/-- One step of a call. -/
inductive Dec : Status K V → Status K V → Prop
  | acquire (f : Faults) (c : Call K V) (p : Prog (State K V) (Ret V)) : Dec (.inside f c p) (.waiting f c)
  | step (f : Faults) (c : Call K V) (u : State K V → State K V) (n : State K V → Prog (State K V) (Ret V)) (m : State K V) :
      Dec (.inside f c (n m)) (.inside f c (.step u n))
  | finish (f : Faults) (c : Call K V) (p : Prog (State K V) (Ret V)) (o : Out (Ret V)) : Dec (.ended f c o) (.inside f c p)
  | unlock (f : Faults) (c : Call K V) (o : Out (Ret V)) : Dec (.leaving o) (.ended f c o)
  | ret (o : Out (Ret V)) : Dec .finished (.leaving o)

omit [DecidableEq K] [DecidableEq V] in
theorem dec_wf : WellFounded (Dec (K := K) (V := V)) := by
  have hfin : Acc (Dec (K := K) (V := V)) .finished := ⟨_, fun y h => nomatch h⟩
  have hlea : ∀ o, Acc (Dec (K := K) (V := V)) (.leaving o) := fun o => ⟨_, fun y h => by cases h; exact hfin⟩
  have hend : ∀ f c o, Acc (Dec (K := K) (V := V)) (.ended f c o) := fun f c o => ⟨_, fun y h => by cases h; exact hlea _⟩
  have hins : ∀ f c p, Acc (Dec (K := K) (V := V)) (.inside f c p) := by
    intro f c p
    induction p with
    | ret r => exact ⟨_, fun y h => by cases h; exact hend _ _ _⟩
    | throw => exact ⟨_, fun y h => by cases h; exact hend _ _ _⟩
    | ub => exact ⟨_, fun y h => by cases h; exact hend _ _ _⟩
    | step u n ih =>
      refine ⟨_, fun y h => ?_⟩
      cases h with
      | step => exact ih _
      | finish => exact hend _ _ _
  refine ⟨fun x => ?_⟩
  cases x with
  | idle => exact ⟨_, fun y h => nomatch h⟩
  | waiting f c => exact ⟨_, fun y h => by cases h; exact hins _ _ _⟩
  | inside f c p => exact hins _ _ _
  | ended f c o => exact hend _ _ _
  | leaving o => exact hlea _
  | finished => exact hfin

omit [DecidableEq K] [DecidableEq V] in
theorem not_dec_idle {x : Status K V} : ¬ Dec x .idle := fun h => nomatch h

/-- A step is one of a single call, or it is undefined behaviour. -/
theorem step_dec {s s' : Sys K V} {e : Event K V} (h : step? s e = some s') (he : ∀ i f c, e ≠ .invoke i f c) :
    (s'.crashed = true ∧ s'.status = s.status) ∨ ∃ i, Dec (s'.status i) (s.status i) ∧ ∀ j, j ≠ i → s'.status j = s.status j := by
  cases e with
  | invoke i f c => exact absurd rfl (he i f c)
  | acquire i =>
    simp only [step?] at h
    split at h
    · rename_i f c hs
      split at h
      · cases h
      · split at h <;> split at h <;> cases h <;>
          exact .inr ⟨i, by simpa [setStatus, hs] using .acquire f c _, fun j hj => by simp [setStatus, hj]⟩
    · cases h
  | step i =>
    simp only [step?] at h
    split at h
    · rename_i f c u n hs
      split at h
      · cases h
      · cases h
        exact .inr ⟨i, by simpa [setStatus, hs] using .step f c u n _, fun j hj => by simp [setStatus, hj]⟩
    · split at h
      · cases h
      · cases h; exact .inl ⟨rfl, rfl⟩
    · cases h
  | finish i =>
    simp only [step?] at h
    split at h
    · rename_i f c r hs
      split at h
      · cases h
      · cases h
        exact .inr ⟨i, by simpa [setStatus, hs] using .finish f c _ _, fun j hj => by simp [setStatus, hj]⟩
    · rename_i f c hs
      split at h
      · cases h
      · cases h
        exact .inr ⟨i, by simpa [setStatus, hs] using .finish f c _ _, fun j hj => by simp [setStatus, hj]⟩
    · cases h
  | unlock i =>
    simp only [step?] at h
    split at h
    · rename_i f c o hs
      split at h
      · cases h
      · split at h <;> cases h <;>
          exact .inr ⟨i, by simpa [setStatus, hs] using .unlock f c o, fun j hj => by simp [setStatus, hj]⟩
    · cases h
  | ret i o =>
    simp only [step?] at h
    split at h
    · rename_i o' hs
      split at h
      · cases h
      · split at h
        · cases h
          exact .inr ⟨i, by simpa [setStatus, hs] using .ret o', fun j hj => by simp [setStatus, hj]⟩
        · cases h
    · cases h

/-- Only finitely many calls have been invoked. -/
theorem exec_bound {n : Nat} {tr : List (Event K V)} {s : Sys K V} (h : Exec n tr s) :
    ∃ b, ∀ i, b ≤ i → s.status i = .idle := by
  induction h with
  | nil => exact ⟨0, fun _ _ => rfl⟩
  | @snoc tr s s' e _ hs ih =>
    obtain ⟨b, hb⟩ := ih
    by_cases he : ∃ i f c, e = .invoke i f c
    · obtain ⟨i, f, c, rfl⟩ := he
      refine ⟨max b (i + 1), fun j hj => ?_⟩
      simp only [step?] at hs
      split at hs
      · split at hs
        · cases hs
        · cases hs
          simp only [setStatus]
          rw [if_neg (by omega)]
          exact hb j (by omega)
      · cases hs
    · rcases step_dec hs (fun i f c h => he ⟨i, f, c, h⟩) with ⟨_, h1⟩ | ⟨i, hd, ho⟩
      · exact ⟨b, fun i hi => by rw [h1]; exact hb i hi⟩
      · refine ⟨b, fun j hj => ?_⟩
        by_cases hji : j = i
        · subst hji
          rw [hb j hj] at hd
          exact absurd hd not_dec_idle
        · rw [ho j hji]; exact hb j hj

theorem step_not_crashed {s s' : Sys K V} {e : Event K V} (h : step? s e = some s') : s.crashed = false := by
  cases hc : s.crashed with
  | false => rfl
  | true =>
    exfalso
    cases e <;> simp only [step?] at h <;> (repeat' split at h) <;> simp_all

/-- No endless execution without new calls. -/
theorem no_descent {σ : Nat → Event K V} {st : Nat → Sys K V} (hst : ∀ k, step? (st k) (σ k) = some (st (k + 1)))
    {N b : Nat} (hN : ∀ k, N ≤ k → ∀ i f c, σ k ≠ .invoke i f c) (hb : ∀ i, b ≤ i → (st N).status i = .idle) : False := by
  have hcr : ∀ k, (st k).crashed = false := fun k => step_not_crashed (hst k)
  have hd : ∀ k, N ≤ k → ∃ i, Dec ((st (k + 1)).status i) ((st k).status i) ∧
      ∀ j, j ≠ i → (st (k + 1)).status j = (st k).status j := by
    intro k hk
    rcases step_dec (hst k) (hN k hk) with ⟨h, _⟩ | h
    · rw [hcr] at h; cases h
    · exact h
  have hbk : ∀ k, N ≤ k → ∀ i, b ≤ i → (st k).status i = .idle := by
    intro k hk
    induction k, hk using Nat.le_induction with
    | base => exact hb
    | succ k hk ih =>
      intro i hi
      obtain ⟨j, hj, ho⟩ := hd k hk
      by_cases hij : i = j
      · subst hij
        rw [ih i hi] at hj
        exact absurd hj not_dec_idle
      · rw [ho i hij]; exact ih i hi
  have wf : WellFounded (Pi.Lex (β := fun _ : Fin b => Status K V) (· < ·) (fun {_} => Dec)) :=
    Pi.Lex.wellFounded _ (fun _ => dec_wf)
  have key : ∀ x : Fin b → Status K V, ∀ k, N ≤ k → (fun i : Fin b => (st k).status i) = x → False := by
    intro x
    induction x using wf.induction with
    | _ x ih =>
      intro k hk hx
      subst hx
      obtain ⟨j, hj, ho⟩ := hd k hk
      have hjb : j < b := by
        by_contra hlt
        rw [hbk k hk j (by omega)] at hj
        exact absurd hj not_dec_idle
      refine ih _ ?_ (k + 1) (by omega) rfl
      refine ⟨⟨j, hjb⟩, fun i hi => ?_, hj⟩
      refine ho i ?_
      exact Nat.ne_of_lt (show i.val < j from hi)
  exact key _ N le_rfl rfl

/-- A finished call has returned. -/
theorem exec_returned {n : Nat} {tr : List (Event K V)} {s : Sys K V} (h : Exec n tr s) (i : Nat)
    (hi : s.status i = .finished) : ∃ o, Event.ret i o ∈ tr := by
  induction h with
  | nil => cases hi
  | @snoc tr s s' e _ hs ih =>
    by_cases hf : s.status i = .finished
    · obtain ⟨o, ho⟩ := ih hf
      exact ⟨o, by simp [ho]⟩
    · by_cases he : ∃ o, e = .ret i o
      · obtain ⟨o, rfl⟩ := he
        exact ⟨o, by simp⟩
      · exfalso
        cases e with
        | ret j o =>
          have hj : i ≠ j := fun h => he ⟨o, by rw [h]⟩
          simp only [step?] at hs
          (repeat' split at hs) <;> simp_all [setStatus]
          subst hs; simp_all
        | _ =>
          simp only [step?] at hs
          (repeat' split at hs) <;> simp_all [setStatus] <;> subst hs <;> simp_all <;> (try split at hi) <;> simp_all

/-- An invoked call is not idle. -/
theorem exec_invoked {n : Nat} {tr : List (Event K V)} {s : Sys K V} (h : Exec n tr s) {i : Nat} {f : Faults} {c : Call K V}
    (hi : Event.invoke i f c ∈ tr) : s.status i ≠ .idle := by
  induction h with
  | nil => cases hi
  | @snoc tr s s' e _ hs ih =>
    have mono : s.status i ≠ .idle → s'.status i ≠ .idle := by
      intro hne
      by_cases he : ∃ j f c, e = .invoke j f c
      · obtain ⟨j, f, c, rfl⟩ := he
        simp only [step?] at hs
        (repeat' split at hs) <;> simp_all [setStatus]
        subst hs
        by_cases hij : i = j <;> simp_all
      · rcases step_dec hs (fun j f c h => he ⟨j, f, c, h⟩) with ⟨_, h1⟩ | ⟨j, hd, ho⟩
        · rw [h1]; exact hne
        · by_cases hij : i = j
          · subst hij
            intro hx
            rw [hx] at hd
            generalize s.status i = y at hd
            cases hd
          · rw [ho i hij]; exact hne
    rcases List.mem_append.1 hi with hi | hi
    · exact mono (ih hi)
    · simp at hi
      subst hi
      simp only [step?] at hs
      (repeat' split at hs) <;> simp_all
      subst hs
      simp [setStatus]

end Pluto.SafeLru
