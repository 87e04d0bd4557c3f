import Verif.Proofs.LocaleStatic

/-!
# C151: the locales are the same in all threads; C152: numbers of processes and threads
-/

namespace Pluto.Props
open Pluto Pluto.LocaleStatic Pluto.LocaleStaticSpec Pluto.LocaleStaticProofs Pluto.ArithSpec

/-! ## C151 -/

/-- C151.  All calls of one of the functions that return, in all threads, return the same object; calls of different functions
return different ones; and each returned object exists. -/
theorem C151_same {classic : V} {s : State V} (h : Reachable false classic s) {i j : Nat} {w v : Which} {n m : Nat}
    (h1 : (i, w, some n) ∈ s.log) (h2 : (j, v, some m) ∈ s.log) : (n = m ↔ w = v) ∧ n < s.objects.length := by
  have hok := ok_reachable h
  have g1 := hok.log _ _ _ h1
  have g2 := hok.log _ _ _ h2
  refine ⟨⟨?_, ?_⟩, hok.ready _ _ g1⟩
  · rintro rfl
    exact hok.inj _ _ _ g1 g2
  · rintro rfl
    rw [g1] at g2
    cases g2
    rfl

/-- C151.  Once a call has returned, whatever happens and however the environment changes: no call of this function throws any
more, all return this object, and it stays as it is. -/
theorem C151_permanent {classic : V} {s t : State V} (h : Reachable false classic s) {i : Nat} {w : Which} {n : Nat}
    (h1 : (i, w, some n) ∈ s.log) {evs : List (Event V)} (hr : run false classic s evs = some t) :
    (∀ j r, (j, w, r) ∈ returned s t → r = some n) ∧ t.objects[n]? = s.objects[n]? := by
  have hok := ok_reachable h
  have hn := hok.ready _ _ (hok.log _ _ _ h1)
  refine ⟨?_, ?_⟩
  · have key := run_inv (P := fun u => Ok classic u ∧ u.guards w = .ready n ∧ s.log <+: u.log ∧
        ∀ j r, (j, w, r) ∈ u.log.drop s.log.length → r = some n)
      (fun u e u' ⟨h1, h2, h3, h4⟩ hs => by
        obtain ⟨h5, h6⟩ := ready_step h1 h2 hs
        have h7 := (step_grows hs).2.1
        refine ⟨ok_step h1 hs, h5, h3.trans h7, ?_⟩
        intro j r hj
        obtain ⟨l, hl⟩ := h7
        rw [← hl, List.drop_append_of_le_length h3.length_le] at hj
        rcases List.mem_append.1 hj with hj | hj
        · exact h4 j r hj
        · refine h6 j r ?_
          rw [returned, ← hl, List.drop_left]
          exact hj) ⟨hok, hok.log _ _ _ h1, List.prefix_refl _, by simp⟩ hr
    exact key.2.2.2
  · obtain ⟨l, hl⟩ := (run_grows hr).1
    rw [← hl, List.getElem?_append_left hn]

/-- C151.  What a call returns: an object that an earlier call has returned, or a new one, which is what the name stands for at
that moment.  It throws only if the name stands for nothing at that moment. -/
theorem C151_value {classic : V} {noStatic : Bool} {s t : State V} {e : Event V} (h : Reachable noStatic classic s)
    (hs : step noStatic classic s e = some t) {i : Nat} {w : Which} {r : Option Nat} (hr : (i, w, r) ∈ returned s t) :
    (r = none ∧ named classic s.env w = none ∧ t.objects = s.objects) ∨
    (∃ v, r = some s.objects.length ∧ named classic s.env w = some v ∧ t.objects = s.objects ++ [v]) ∨
    ∃ n, noStatic = false ∧ r = some n ∧ t.objects = s.objects ∧ n < s.objects.length := by
  rcases step_cases hs with ⟨env, rfl, rfl⟩ | ⟨j, v, rfl, hi, rfl⟩ | ⟨j, v, rfl, hi, hn, rfl⟩ | ⟨j, v, rfl, hi, _, hg', rfl⟩ |
    ⟨j, v, m, rfl, hi, hns, hg', rfl⟩ | ⟨j, v, rfl, hi, hn, rfl⟩ | ⟨j, v, x, rfl, hi, hn, rfl⟩
  · simp [returned] at hr
  · simp [returned] at hr
  · simp [returned] at hr
  · simp [returned] at hr
  all_goals
    simp only [returned, List.drop_left, List.mem_singleton, Prod.mk.injEq] at hr
    obtain ⟨rfl, rfl, rfl⟩ := hr
  · subst hns
    exact .inr (.inr ⟨m, rfl, rfl, rfl, (ok_reachable h).ready _ _ hg'⟩)
  · exact .inl ⟨rfl, hn, rfl⟩
  · exact .inr (.inl ⟨x, rfl, hn, rfl⟩)

/-- C151.  `c_locale()` always returns the classic locale and never throws. -/
theorem C151_classic {classic : V} {noStatic : Bool} {s : State V} (h : Reachable noStatic classic s) {i : Nat} {r : Option Nat}
    (hr : (i, .c, r) ∈ s.log) : ∃ n, r = some n ∧ s.objects[n]? = some classic := by
  obtain ⟨k, env, evs, h⟩ := h
  have key := run_inv (P := fun u : State V => Reachable noStatic classic u ∧
      ∀ (i : Nat) (r : Option Nat), (i, Which.c, r) ∈ u.log → ∃ n, r = some n ∧ u.objects[n]? = some classic)
    (fun u e u' ⟨h1, h2⟩ hs => by
      have hr' : run noStatic classic u [e] = some u' := by simp [run, hs]
      obtain ⟨⟨l, hl⟩, ⟨l', hl'⟩, _⟩ := step_grows hs
      refine ⟨reachable_run h1 hr', ?_⟩
      intro i r hi
      by_cases hm : (i, Which.c, r) ∈ u.log
      · obtain ⟨n, hn, hv⟩ := h2 i r hm
        refine ⟨n, hn, ?_⟩
        have : n < u.objects.length := by
          by_contra hc
          rw [List.getElem?_eq_none (by omega)] at hv
          exact absurd hv (by simp)
        rw [← hl, List.getElem?_append_left this]
        exact hv
      · have hret : (i, Which.c, r) ∈ returned u u' := by
          rw [returned, ← hl', List.drop_left]
          rw [← hl'] at hi
          exact (List.mem_append.1 hi).resolve_left hm
        rcases C151_value h1 hs hret with ⟨_, h3, _⟩ | ⟨v, rfl, h3, h4⟩ | ⟨n, hns, rfl, h4, h5⟩
        · exact absurd h3 (by simp [named])
        · simp only [named, Option.some.injEq] at h3
          subst h3
          exact ⟨_, rfl, by rw [h4]; simp⟩
        · subst hns
          refine ⟨n, rfl, ?_⟩
          have hok := ok_reachable (reachable_run h1 hr')
          exact hok.classic n (hok.log _ _ _ hi))
    ⟨⟨k, env, [], rfl⟩, by simp [init]⟩ h
  exact key.2 i r hr

/-- C151.  Every call ends: the calls that have begun take at most two steps for each thread, and they can go on until all have
ended, also if constructors throw. -/
theorem C151_ends {classic : V} {noStatic : Bool} {s t : State V} (h : Reachable noStatic classic s) {evs : List (Event V)}
    (he : ∀ e ∈ evs, Inner e = true) (hr : run noStatic classic s evs = some t) :
    evs.length ≤ 2 * s.threads.length ∧
    ((∀ e, Inner e = true → step noStatic classic t e = none) → ∀ x ∈ t.threads, x = .idle) := by
  refine ⟨?_, fun hrest => progress (reachable_run h hr) hrest⟩
  have h1 := work_run he hr
  have h2 := work_le s.threads
  simp only [work] at h1
  omega

/-- Three threads call `default_locale()`, which is not installed at first; then the environment changes, and another call returns
the first object all the same. -/
example : ∃ s, run false 0 (init 3 ⟨some 7, none⟩) [.call 0 .dflt, .call 1 .dflt, .enter 0, .finish 0, .change ⟨some 7, some 8⟩,
      .enter 1, .call 2 .dflt, .finish 1, .enter 2, .change ⟨none, none⟩, .call 0 .dflt, .enter 0, .call 1 .c, .enter 1,
      .finish 1] = some s ∧
    s.log = [(0, .dflt, none), (1, .dflt, some 0), (2, .dflt, some 0), (0, .dflt, some 0), (1, .c, some 1)] ∧
    s.objects = [8, 0] := ⟨_, rfl, rfl, rfl⟩

/-- With `PLUTO_LOCALE_NO_STATIC` a call follows the environment. -/
example : ∃ s, run true 0 (init 1 ⟨some 7, none⟩) [.call 0 .system, .enter 0, .finish 0, .change ⟨some 8, none⟩,
      .call 0 .system, .enter 0, .finish 0] = some s ∧ s.objects = [7, 8] := ⟨_, rfl, rfl⟩

/-! ## C152 -/

/-- C152.  Processes with different numbers have different `process_id()`, on Windows also if the number is not an `int`. -/
theorem C152_process (windows : Bool) (a b : Int) (ha : Holds 32 (!windows) a) (hb : Holds 32 (!windows) b) :
    processId windows a = processId windows b ↔ a = b := by
  cases windows with
  | false => simp [processId]
  | true =>
    refine ⟨fun h => ?_, fun h => by rw [h]⟩
    simp only [processId, if_true] at h
    have h1 := ArithProofs.toType_dvd Arith.int a
    have h2 := ArithProofs.toType_dvd Arith.int b
    rw [h] at h1
    exact ArithProofs.eq_of_dvd (t := ⟨32, false⟩) ha hb (by
      have := dvd_sub h2 h1
      simpa [Arith.int] using this)

/-- C152.  The number that `process_id()` returns on Windows is that of the process, unless it is `2^31` or more; then it is
negative. -/
theorem C152_process_value (a : Int) (ha : Holds 32 false a) :
    (processId true a = a ↔ a < 2 ^ 31) ∧ (2 ^ 31 ≤ a → processId true a < 0) := by
  simp only [Holds, Bool.false_eq_true, if_false] at ha
  simp only [processId, if_true, Arith.toType, Arith.int]
  norm_num at *
  omega

/-- C152.  Threads with different numbers have different `thread_id()` if `std::size_t` is at least as wide as the number of the
thread. -/
theorem C152_thread (bits width : Nat) (signed : Bool) (h : width ≤ bits) (a b : Int) (ha : Holds width signed a)
    (hb : Holds width signed b) : threadId bits a = threadId bits b ↔ a = b := by
  refine ⟨fun h' => ?_, fun h' => by rw [h']⟩
  simp only [threadId] at h'
  have h1 := ArithProofs.toType_dvd ⟨bits, false⟩ a
  have h2 := ArithProofs.toType_dvd ⟨bits, false⟩ b
  rw [h'] at h1
  have h3 := dvd_trans (ArithProofs.pow_dvd h) (dvd_sub h2 h1)
  exact ArithProofs.eq_of_dvd (t := ⟨width, signed⟩) ha hb (by simpa using h3)

/-- C152.  `thread_id()` is the number of the thread if that is not negative. -/
theorem C152_thread_value (bits width : Nat) (signed : Bool) (h : width ≤ bits) (a : Int) (ha : Holds width signed a)
    (h0 : 0 ≤ a) : threadId bits a = a := by
  have hp : (2 : Int) ^ width ≤ 2 ^ bits := pow_le_pow_right₀ (by norm_num) h
  have hq : (0 : Int) < 2 ^ width := by positivity
  simp only [threadId, Arith.toType, Bool.false_eq_true, if_false]
  refine Int.emod_eq_of_lt h0 ?_
  unfold Holds at ha
  revert ha
  cases signed <;> simp only [if_true, if_false, Bool.false_eq_true] <;> intro ha <;> omega

/-- The widths on Linux, Windows and Apple systems. -/
example : threadId 64 4711 = 4711 ∧ processId true 4294967295 = -1 ∧ Holds 32 true 4711 ∧ Holds 32 false 4294967295 := by
  refine ⟨by decide, by decide, ?_, ?_⟩ <;> simp [Holds]

end Pluto.Props
