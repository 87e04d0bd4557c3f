import Verif.Proofs.SafeLru

/-!
# Properties of `safe_lru_cache` (C09, C10, C76)

`Exec n tr s`: the steps `tr`, by any number of calls in any interleaving, lead from a new cache of capacity `n` to the
system state `s` (Model/SafeLru.lean).  `Linearization`: Spec/SafeLru.lean.
-/

namespace Pluto.Props
open Pluto.SafeLru Pluto.Spec.Lru
open Pluto.Lru (Faults noFaults faultyCalls Benign)
variable {K V : Type} [DecidableEq K] [DecidableEq V]

/-- C09: every execution in which nothing throws has a linearization in which every call returns what the abstract
recency list (Spec/Lru.lean) returns. -/
theorem C09_linearizable (n : Nat) (tr : List (Event K V)) (s : Sys K V) (h : Exec n tr s)
    (hf : ∀ i f c, Event.invoke i f c ∈ tr → f = noFaults) :
    ∃ lin, Linearization tr lin ∧
      lin.map (·.o) = (({ capacity := n, items := [] } : Cache K V).steps (lin.map (·.c))).2.map .ok := by
  have hb : ∀ i f c, Event.invoke i f c ∈ tr → Benign f c := by
    intro i f c hm
    rw [hf i f c hm]
    cases c <;> first | trivial | exact fun _ => rfl
  obtain ⟨lin, m, hi⟩ := exec_inv h (no_crash h hb)
  refine ⟨lin, ⟨hi.nodup, hi.linInvoked, fun i o hr => hi.doneLin i o (Or.inr (Or.inr hr)), hi.order⟩, ?_⟩
  have hl := hi.legal
  unfold Legal at hl
  have hmap : (lin.map fun op => (op.f, op.c)) = (lin.map (·.c)).map (fun c => (noFaults, c)) := by
    rw [List.map_map]
    apply List.map_congr_left
    intro op hop
    simp [hf _ _ _ (hi.linInvoked op hop)]
  obtain ⟨s1, T, h1, _, _⟩ := Pluto.Lru.steps_sim (Pluto.Lru.rel_init (K := K) (V := V) n) (lin.map (·.c))
  rw [hmap, faultyCalls_noFaults h1] at hl
  simp only [Option.some.injEq, Prod.mk.injEq] at hl
  exact hl.2.symm

/-- C09, when allocations and copies may fail in any call: as long as no undefined behaviour has occurred there is a
linearization whose outcomes (results and exceptions) are those of the sequential cache with the same failures. -/
theorem C09_linearizable_faults (n : Nat) (tr : List (Event K V)) (s : Sys K V) (h : Exec n tr s)
    (hc : s.crashed = false) :
    ∃ lin m, Linearization tr lin ∧
      faultyCalls (lin.map fun op => (op.f, op.c)) (Pluto.Lru.init n) = some (m, lin.map (·.o)) := by
  obtain ⟨lin, m, hi⟩ := exec_inv h hc
  exact ⟨lin, m, ⟨hi.nodup, hi.linInvoked, fun i o hr => hi.doneLin i o (Or.inr (Or.inr hr)), hi.order⟩, hi.legal⟩

/-- C09: no undefined behaviour, in any interleaving, if nothing throws (or only `Benign` failures happen). -/
theorem C09_no_undefined_behaviour (n : Nat) (tr : List (Event K V)) (s : Sys K V) (h : Exec n tr s)
    (hb : ∀ i f c, Event.invoke i f c ∈ tr → Benign f c) : s.crashed = false := no_crash h hb

/-- Two overlapping calls: `contains 1` is invoked first but reads after `insert 1` has taken effect. -/
example : ∃ s : Sys Nat Nat, Exec 2 [.invoke 0 noFaults (.contains 1), .invoke 1 noFaults (.insert 1 10), .acquire 1, .step 1,
    .step 1, .step 1, .step 1, .step 1, .step 1, .finish 1, .unlock 1, .acquire 0, .step 0, .finish 0, .unlock 0,
    .ret 0 (.ok (.bool true)), .ret 1 (.ok (.bool true))] s ∧ s.crashed = false := by
  exact ⟨_, execOf _ _ rfl, rfl⟩

/-- C10: when two calls are executing inside the cache at the same time, no step of either changes the cache. -/
theorem C10_no_race (n : Nat) (tr : List (Event K V)) (s s' : Sys K V) (h : Exec n tr s) (i j : Nat) (hij : i ≠ j)
    (hi : Executing s i) (hj : Executing s j) (hs : step? s (.step i) = some s') : s'.mem = s.mem := by
  have hcr := step_crashed hs
  obtain ⟨lin, m, hinv⟩ := exec_inv h hcr
  obtain ⟨f, c, p, hi⟩ := hi
  obtain ⟨f', c', p', hj⟩ := hj
  cases hc : lockOf c with
  | exclusive => exact absurd (hinv.alone hi hc hj).symm hij
  | shared =>
    obtain ⟨hro, _⟩ := hinv.memReader i f c p hi hc
    simp only [step?, hi] at hs
    cases hro with
    | ret r => simp at hs
    | throw => simp at hs
    | ub => simp [hcr] at hs; rw [← hs]
    | step h1 h2 => simp [hcr] at hs; rw [← hs]; exact h1 s.mem

/-- C10: a call that may change the cache executes alone; in particular `get`. -/
theorem C10_exclusive (n : Nat) (tr : List (Event K V)) (s : Sys K V) (h : Exec n tr s) (hcr : s.crashed = false)
    (i j : Nat) (f : Faults) (c : Call K V) (p : Prog (Pluto.Lru.State K V) (Ret V))
    (hi : s.status i = .inside f c p)
    (hc : (∃ k, c = .get k) ∨ (∃ k v, c = .insert k v) ∨ (∃ k v, c = .insertOrAssign k v) ∨ (∃ k, c = .remove k) ∨
      c = .clear ∨ ∃ m, c = .setCapacity m)
    (hj : Executing s j) : j = i := by
  obtain ⟨lin, m, hinv⟩ := exec_inv h hcr
  obtain ⟨f', c', p', hj⟩ := hj
  refine hinv.alone hi ?_ hj
  rcases hc with ⟨_, rfl⟩ | ⟨_, _, rfl⟩ | ⟨_, _, rfl⟩ | ⟨_, rfl⟩ | rfl | ⟨_, rfl⟩ <;> rfl

/-- C10: the cache is changed only by steps of calls that are executing inside it. -/
theorem C10_only_inside (s s' : Sys K V) (e : Event K V) (hs : step? s e = some s') (hne : s'.mem ≠ s.mem) :
    ∃ i, e = .step i ∧ Executing s i := by
  cases e with
  | step i =>
    refine ⟨i, rfl, ?_⟩
    simp only [step?] at hs
    split at hs
    · rename_i hi; exact ⟨_, _, _, hi⟩
    · rename_i hi; exact ⟨_, _, _, hi⟩
    · cases hs
  | _ =>
    exfalso
    simp only [step?] at hs
    (repeat' split at hs) <;> cases hs <;> exact hne rfl

/-- Two readers inside at the same time: the hypotheses of `C10_no_race` are met. -/
example : ∃ s s' : Sys Nat Nat, Exec 2 [.invoke 0 noFaults .size, .invoke 1 noFaults (.contains 1), .acquire 0, .acquire 1] s ∧
    Executing s 0 ∧ Executing s 1 ∧ step? s (.step 0) = some s' := by
  refine ⟨_, _, execOf _ _ rfl, ⟨_, _, _, rfl⟩, ⟨_, _, _, rfl⟩, rfl⟩

/-- A writer inside, another call cannot get in. -/
example : ∃ s : Sys Nat Nat, Exec 2 [.invoke 0 noFaults (.get 1), .invoke 1 noFaults (.contains 1), .acquire 0] s ∧
    Executing s 0 ∧ step? s (.acquire 1) = none := by
  refine ⟨_, execOf _ _ rfl, ⟨_, _, _, rfl⟩, rfl⟩

/-- C76: no deadlock: whenever a call is under way, some call can take a step. -/
theorem C76_no_deadlock (n : Nat) (tr : List (Event K V)) (s : Sys K V) (h : Exec n tr s) (hcr : s.crashed = false)
    (i : Nat) (hi : s.status i ≠ .idle) (hi' : s.status i ≠ .finished) :
    ∃ e s', (∀ j f c, e ≠ Event.invoke j f c) ∧ step? s e = some s' := by
  obtain ⟨lin, m, hinv⟩ := exec_inv h hcr
  have hin : ∀ j f c p, s.status j = .inside f c p → ∃ e s', (∀ j f c, e ≠ Event.invoke j f c) ∧ step? s e = some s' := by
    intro j f c p hj
    cases p with
    | ret r => exact ⟨.finish j, _, by simp, by simp [step?, hj, hcr]; rfl⟩
    | throw => exact ⟨.finish j, _, by simp, by simp [step?, hj, hcr]; rfl⟩
    | ub => exact ⟨.step j, _, by simp, by simp [step?, hj, hcr]; rfl⟩
    | step u nx => exact ⟨.step j, _, by simp, by simp [step?, hj, hcr]; rfl⟩
  have hen : ∀ j f c o, s.status j = .ended f c o → ∃ e s', (∀ j f c, e ≠ Event.invoke j f c) ∧ step? s e = some s' := by
    intro j f c o hj
    cases hc : lockOf c with
    | shared => exact ⟨.unlock j, _, by simp, by simp [step?, hj, hcr, hc]; rfl⟩
    | exclusive => exact ⟨.unlock j, _, by simp, by simp [step?, hj, hcr, hc]; rfl⟩
  cases hs : s.status i with
  | idle => exact absurd hs hi
  | finished => exact absurd hs hi'
  | inside f c p => exact hin i f c p hs
  | ended f c o => exact hen i f c o hs
  | leaving o => exact ⟨.ret i o, _, by simp, by simp [step?, hs, hcr]; rfl⟩
  | waiting f c =>
    cases hw : s.writer with
    | some j =>
      rcases (hinv.writer j).1 hw with ⟨f, c, p, hj, _⟩ | ⟨f, c, o, hj, _⟩
      · exact hin j f c p hj
      · exact hen j f c o hj
    | none =>
      cases hr : s.readers with
      | cons j l =>
        rcases (hinv.reader j).1 (by rw [hr]; exact List.mem_cons_self) with ⟨f, c, p, hj, _⟩ | ⟨f, c, o, hj, _⟩
        · exact hin j f c p hj
        · exact hen j f c o hj
      | nil =>
        cases hc : lockOf c with
        | shared => exact ⟨.acquire i, _, by simp, by simp [step?, hs, hcr, hc, hw]; rfl⟩
        | exclusive => exact ⟨.acquire i, _, by simp, by simp [step?, hs, hcr, hc, hw, hr]; rfl⟩

end Pluto.Props
