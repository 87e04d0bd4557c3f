import Verif.Props.SafeLru
import Verif.Spec.LruWait
import Verif.Proofs.LruWait

/-! # C158: calls of a safe LRU cache return -/

namespace Pluto.Props
open Pluto.SafeLru Pluto.Spec.Lru
open Pluto.Lru (Faults noFaults Benign)
variable {K V : Type} [DecidableEq K] [DecidableEq V]

/-- The call a step belongs to. -/
def who : Event K V → Nat
  | .invoke i _ _ | .acquire i | .step i | .finish i | .unlock i | .ret i _ => i

/-- C158, for finitely many calls. An execution goes on for ever only if there are always new calls: each call takes
finitely many steps. -/
theorem C158_ends_partial {n : Nat} {tr : List (Event K V)} {σ : Nat → Event K V} {st : Nat → Sys K V}
    (h : Exec n tr (st 0)) (hst : ∀ k, step? (st k) (σ k) = some (st (k + 1))) (N : Nat) :
    ∃ k, N ≤ k ∧ ∃ i f c, σ k = .invoke i f c := by
  by_contra hno
  have hex : ∀ k, ∃ tr', Exec n tr' (st k) := by
    intro k
    induction k with
    | zero => exact ⟨tr, h⟩
    | succ k ih =>
      obtain ⟨tr', h'⟩ := ih
      exact ⟨_, h'.snoc _ (hst k)⟩
  obtain ⟨tr', h'⟩ := hex N
  obtain ⟨b, hb⟩ := exec_bound h'
  exact no_descent hst (fun k hk i f c he => hno ⟨k, hk, i, f, c, he⟩) hb

/-- C158, for finitely many calls. When nothing more can happen, every call has returned. -/
theorem C158_returns_partial {n : Nat} {tr : List (Event K V)} {s : Sys K V} (h : Exec n tr s)
    (hb : ∀ i f c, Event.invoke i f c ∈ tr → Benign f c)
    (hmax : ∀ e s', step? s e = some s' → ∃ i f c, e = .invoke i f c)
    (i : Nat) (f : Faults) (c : Call K V) (hi : Event.invoke i f c ∈ tr) : ∃ o, Event.ret i o ∈ tr := by
  have hcr := C09_no_undefined_behaviour n tr s h hb
  refine exec_returned h i ?_
  by_contra hf
  obtain ⟨e, s', he, hs⟩ := C76_no_deadlock n tr s h hcr i (exec_invoked h hi) hf
  obtain ⟨j, f', c', rfl⟩ := hmax e s' hs
  exact he j f' c' rfl

/-- C158. A call that has the lock, or has released it, can always go on, whatever the others do. -/
theorem C158_goes_on {n : Nat} {tr : List (Event K V)} {s : Sys K V} (_h : Exec n tr s) (hcr : s.crashed = false) (i : Nat)
    (hi : s.status i ≠ .idle) (hi' : s.status i ≠ .finished) (hw : ∀ f c, s.status i ≠ .waiting f c) :
    ∃ e s', who e = i ∧ step? s e = some s' := by
  cases hs : s.status i with
  | idle => exact absurd hs hi
  | finished => exact absurd hs hi'
  | waiting f c => exact absurd hs (hw f c)
  | leaving o => exact ⟨.ret i o, _, rfl, by simp [step?, hs, hcr]; rfl⟩
  | ended f c o =>
    cases hc : lockOf c with
    | shared => exact ⟨.unlock i, _, rfl, by simp [step?, hs, hcr, hc]; rfl⟩
    | exclusive => exact ⟨.unlock i, _, rfl, by simp [step?, hs, hcr, hc]; rfl⟩
  | inside f c p =>
    cases p with
    | ret r => exact ⟨.finish i, _, rfl, by simp [step?, hs, hcr]; rfl⟩
    | throw => exact ⟨.finish i, _, rfl, by simp [step?, hs, hcr]; rfl⟩
    | ub => exact ⟨.step i, _, rfl, by simp [step?, hs, hcr]; rfl⟩
    | step u nx => exact ⟨.step i, _, rfl, by simp [step?, hs, hcr]; rfl⟩

/-- C158. A call waits exactly while another one has the lock, and at least one of the two changes the cache: calls that
only read never wait for each other. -/
theorem C158_waits {n : Nat} {tr : List (Event K V)} {s : Sys K V} (h : Exec n tr s) (hcr : s.crashed = false) (i : Nat)
    (f : Faults) (c : Call K V) (hi : s.status i = .waiting f c) :
    step? s (.acquire i) = none ↔
      ∃ j f' c', ((∃ p, s.status j = .inside f' c' p) ∨ ∃ o, s.status j = .ended f' c' o) ∧ (¬ Reads c ∨ ¬ Reads c') := by
  obtain ⟨lin, m, hinv⟩ := exec_inv h hcr
  have hl : ∀ c : Call K V, lockOf c = .shared ↔ Reads c := by intro c; cases c <;> simp [lockOf, Reads]
  have hl' : ∀ c : Call K V, lockOf c = .exclusive ↔ ¬ Reads c := by intro c; cases c <;> simp [lockOf, Reads]
  constructor
  · intro hn
    cases hw : s.writer with
    | some j =>
      rcases (hinv.writer j).1 hw with ⟨f', c', p, hj, hc⟩ | ⟨f', c', o, hj, hc⟩
      · exact ⟨j, f', c', .inl ⟨p, hj⟩, .inr ((hl' _).1 hc)⟩
      · exact ⟨j, f', c', .inr ⟨o, hj⟩, .inr ((hl' _).1 hc)⟩
    | none =>
      cases hc : lockOf c with
      | shared => simp [step?, hi, hcr, hc, hw] at hn
      | exclusive =>
        cases hr : s.readers with
        | nil => simp [step?, hi, hcr, hc, hw, hr] at hn
        | cons j l =>
          rcases (hinv.reader j).1 (by rw [hr]; exact List.mem_cons_self) with ⟨f', c', p, hj, _⟩ | ⟨f', c', o, hj, _⟩
          · exact ⟨j, f', c', .inl ⟨p, hj⟩, .inl ((hl' _).1 hc)⟩
          · exact ⟨j, f', c', .inr ⟨o, hj⟩, .inl ((hl' _).1 hc)⟩
  · rintro ⟨j, f', c', hj, hd⟩
    have hj' : (lockOf c' = .exclusive → s.writer = some j) ∧ (lockOf c' = .shared → j ∈ s.readers) := by
      rcases hj with ⟨p, hj⟩ | ⟨o, hj⟩
      · exact ⟨fun hc => (hinv.writer j).2 (.inl ⟨f', c', p, hj, hc⟩), fun hc => (hinv.reader j).2 (.inl ⟨f', c', p, hj, hc⟩)⟩
      · exact ⟨fun hc => (hinv.writer j).2 (.inr ⟨f', c', o, hj, hc⟩), fun hc => (hinv.reader j).2 (.inr ⟨f', c', o, hj, hc⟩)⟩
    cases hc' : lockOf c' with
    | exclusive =>
      have hw := hj'.1 hc'
      cases hc : lockOf c <;> simp [step?, hi, hcr, hc, hw]
    | shared =>
      have hr := hj'.2 hc'
      have hne : s.readers.isEmpty = false := by
        cases hrr : s.readers with
        | nil => rw [hrr] at hr; cases hr
        | cons a l => rfl
      rcases hd with hd | hd
      · have hc := (hl' c).2 hd
        simp [step?, hi, hcr, hc]
        intro _ he
        rw [he] at hne
        cases hne
      · exact absurd ((hl c').1 hc') hd

/-- Two calls of `contains` that always overlap: the next one starts before the last one has ended. -/
def relay (k : Nat) : List (Event Nat Nat) :=
  [.invoke (k + 2) noFaults (.contains 0), .acquire (k + 2), .step (k + 1), .finish (k + 1), .unlock (k + 1),
    .ret (k + 1) (.ok (.bool false))]

/-- A call of `get` made while a reader has the lock, then `k` readers. -/
def relays (k : Nat) : List (Event Nat Nat) :=
  [.invoke 1 noFaults (.contains 0), .acquire 1, .invoke 0 noFaults (.get 0)] ++ (List.range k).flatMap relay

private structure Relay (k : Nat) (s : Sys Nat Nat) : Prop where
  crashed : s.crashed = false
  writer : s.writer = none
  readers : s.readers = [k + 1]
  mem : s.mem = Pluto.Lru.init 1
  zero : s.status 0 = .waiting noFaults (.get 0)
  now : s.status (k + 1) = .inside noFaults (.contains 0) (Pluto.Lru.body noFaults (.contains 0))
  rest : ∀ j, k + 1 < j → s.status j = .idle

private theorem relay_step {k : Nat} {s : Sys Nat Nat} (h : Relay k s) :
    ∃ s', runAll (relay k) s = some s' ∧ Relay (k + 1) s' := by
  obtain ⟨hcr, hw, hr, hm, h0, hn, hrest⟩ := h
  have hb : Pluto.Lru.body (K := Nat) (V := Nat) noFaults (.contains 0) =
      .step id (fun s => .ret (.bool (Pluto.Lru.mapFind s.map 0).isSome)) := rfl
  have hi := hrest (k + 2) (by omega)
  rw [hb] at hn
  have hfind : (Pluto.Lru.mapFind (Pluto.Lru.init (K := Nat) (V := Nat) 1).map 0).isSome = false := rfl
  refine ⟨?_, ?_, ?_⟩
  rotate_left
  · simp [relay, runAll, step?, setStatus, hi, hcr, lockOf, hw, hr, hn, hm, hb, hfind]
    rfl
  · constructor <;> simp [h0, hb]
    intro j hj
    have h1 : j ≠ k + 1 := by omega
    have h2 : j ≠ k + 2 := by omega
    simp [h1, h2, hrest j (by omega)]

private theorem relays_exec (k : Nat) : ∃ s, Exec 1 (relays k) s ∧ Relay k s := by
  induction k with
  | zero =>
    refine ⟨_, execOf _ _ rfl, ?_⟩
    constructor <;> simp [init, setStatus]
    intro j hj
    have h0 : j ≠ 0 := by omega
    have h1 : j ≠ 1 := by omega
    simp [h0, h1]
  | succ k ih =>
    obtain ⟨s, hs, hr⟩ := ih
    obtain ⟨s', hs', hr'⟩ := relay_step hr
    refine ⟨s', ?_, hr'⟩
    have := exec_append hs hs'
    simpa [relays, List.range_succ, List.flatMap_append] using this

/-- C158 does not hold if calls are made for ever: while two threads call `contains` in turn, so that their calls overlap,
a call of `get` waits for ever. Each of `relays k` is an execution that the next one continues; all the other calls return. -/
theorem C158_starves : ∀ k, relays k <+: relays (k + 1) ∧ (∃ s, Exec 1 (relays k) s ∧ s.crashed = false) ∧
    Event.invoke 0 noFaults (.get 0) ∈ relays k ∧ Event.acquire 0 ∉ relays k ∧
    ∀ j, j < k → Event.ret (j + 1) (.ok (.bool false)) ∈ relays k := by
  intro k
  obtain ⟨s, hs, hr⟩ := relays_exec k
  refine ⟨⟨relay k, by simp [relays, List.range_succ, List.flatMap_append]⟩, ⟨s, hs, hr.crashed⟩, by simp [relays],
    by simp [relays, relay], fun j hj => ?_⟩
  simp only [relays, List.mem_append, List.mem_flatMap, List.mem_range]
  exact .inr ⟨j, hj, by simp [relay]⟩

/-- A `get` waits for a reader. -/
example : ∃ s : Sys Nat Nat, Exec 2 [.invoke 0 noFaults (.contains 1), .acquire 0, .invoke 1 noFaults (.get 1),
    .invoke 2 noFaults .size] s ∧ step? s (.acquire 1) = none ∧ (step? s (.acquire 2)).isSome := by
  exact ⟨_, execOf _ _ rfl, rfl, rfl⟩

/-- An execution in which nothing more can happen. -/
example : ∃ s : Sys Nat Nat, Exec 2 [.invoke 0 noFaults (.contains 1), .acquire 0, .step 0, .finish 0, .unlock 0,
    .ret 0 (.ok (.bool false))] s ∧ ∀ e s', step? s e = some s' → ∃ i f c, e = .invoke i f c := by
  refine ⟨_, execOf _ _ rfl, ?_⟩
  intro e s' h
  cases e with
  | invoke i f c => exact ⟨i, f, c, rfl⟩
  | acquire i => by_cases hi : i = 0 <;> simp [step?, setStatus, init, hi] at h
  | step i => by_cases hi : i = 0 <;> simp [step?, setStatus, init, hi] at h
  | finish i => by_cases hi : i = 0 <;> simp [step?, setStatus, init, hi] at h
  | unlock i => by_cases hi : i = 0 <;> simp [step?, setStatus, init, hi] at h
  | ret i o => by_cases hi : i = 0 <;> simp [step?, setStatus, init, hi] at h

end Pluto.Props
