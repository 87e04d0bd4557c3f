import Verif.Proofs.Statics

/-!
# Properties of the shared objects at the end of the program (C109)
-/

namespace Pluto.Props
open Pluto.Statics Pluto.StaticsSpec

/-- C109, the part that holds: if, once the program ends, no more objects are completed, objects use only themselves and
objects that were completed before them, and no other code uses any, then no shared object is used after its destruction. -/
theorem C109_older_partial {evs : List Event} (hs : Settled evs) (ho : Orderly evs) : run {} evs ≠ .ub := by
  intro h
  obtain ⟨x, e, y, t, rfl, h1, h2⟩ := run_ub h
  obtain ⟨a, o, rfl, h3, h4⟩ := step_ub h2
  have hi := inv (settled_prefix hs) h1
  by_cases he : .exit ∈ x
  · obtain ⟨b, rfl, hb⟩ := ho x y a o rfl he
    exact use_defined hi h3 hb h4
  · have hx : t.exiting = false := by
      cases hx : t.exiting
      · rfl
      · exact absurd (hi.exiting.1 hx) he
    obtain ⟨j1, j2⟩ := hi.quiet hx
    rw [j1, j2] at h4
    simp at h4

/-- C109, the part that holds, as a rule for the user: an object whose constructor uses `logger::instance()`,
`thread_pool::instance()` or a locale can use it until its own destruction is complete. -/
theorem C109_constructor_partial {evs : List Event} (hs : Settled evs) (hf : Foreseen evs) : run {} evs ≠ .ub := by
  intro h
  obtain ⟨x, e, y, t, rfl, h1, h2⟩ := run_ub h
  obtain ⟨a, o, rfl, h3, h4⟩ := step_ub h2
  have hi := inv (settled_prefix hs) h1
  by_cases he : .exit ∈ x
  · obtain ⟨b, rfl, hb⟩ := hf x y a o rfl he
    refine use_defined hi h3 ?_ h4
    refine hb.imp_right ?_
    rintro ⟨u, v, w, hx⟩
    rw [hx] at h1
    obtain ⟨t', ht⟩ := run_prefix (xs := u ++ [.use (some b) o]) (ys := v ++ .finish b :: w) (by simpa using h1)
    obtain ⟨t₁, hu, hstep⟩ := run_snoc ht
    have hs' : Settled u := by
      refine settled_prefix (ys := .use (some b) o :: (v ++ .finish b :: w) ++ .use (some b) o :: y) ?_
      rw [hx] at hs
      simpa using hs
    have hi' := inv hs' hu
    have hmem : o ∈ completed u := by
      rw [hi'.all]
      simp only [step] at hstep
      split at hstep
      · cases hstep
      · split at hstep
        · cases hstep
        · split at hstep
          · rename_i hm
            rcases hm with hm | hm <;> simp [hm]
          · cases hstep
    obtain ⟨p, q, hpq⟩ := List.append_of_mem (mem_completed.1 hmem)
    exact ⟨p, q ++ .use (some b) o :: v, w, by rw [hx, hpq]; simp⟩
  · have hx : t.exiting = false := by
      cases hx : t.exiting
      · rfl
      · exact absurd (hi.exiting.1 hx) he
    obtain ⟨j1, j2⟩ := hi.quiet hx
    rw [j1, j2] at h4
    simp at h4

/-- C109 fails in all other cases: whatever has happened before the program ends, if `a` was completed before `o`, then `o`
is destroyed before `a`, and its use by the destructor of `a` (or by the tasks for which it waits) is undefined. -/
theorem C109_fails_newer {evs : List Event} {s : State} {a o : Obj} (h : run {} evs = .ok s) (he : .exit ∉ evs)
    (hb : Before evs a o) :
    ∃ n t, run {} (evs ++ (.exit :: ending n ++ [.destroy])) = .ok t ∧
      run {} (evs ++ (.exit :: ending n ++ [.destroy, .use (some a) o])) = .ub := by
  have hs : Settled evs := by
    rintro x y rfl
    simp at he
  have hi := inv hs h
  have hx : s.exiting = false := by
    cases hx : s.exiting
    · rfl
    · exact absurd (hi.exiting.1 hx) he
  obtain ⟨j1, j2⟩ := hi.quiet hx
  obtain ⟨p, q, hp, ha⟩ := before_completed hb
  obtain ⟨q₁, q₂, rfl⟩ := List.append_of_mem ha
  have hl : s.live = (p ++ o :: q₁) ++ a :: q₂ := by
    have := hi.all
    rw [j1, j2, hp] at this
    simpa using this.symm
  have hend := ending_run (s := { s with exiting := true }) rfl j1 hl
  have hd : run {} (evs ++ (.exit :: ending (p ++ o :: q₁).length ++ [.destroy])) =
      .ok { building := s.building, live := q₂, dying := some a, dead := (p ++ o :: q₁).reverse ++ s.dead, exiting := true } := by
    rw [run_append, h]
    simp only [List.cons_append, run, step, hx, Bool.false_eq_true, if_false]
    rw [run_append, hend]
    simp [run, step, j1]
  refine ⟨_, _, hd, ?_⟩
  have : evs ++ (.exit :: ending (p ++ o :: q₁).length ++ [.destroy, .use (some a) o]) =
      (evs ++ (.exit :: ending (p ++ o :: q₁).length ++ [.destroy])) ++ [.use (some a) o] := by simp
  rw [this, run_append, hd]
  simp [run, step, acting]

/-- C109 fails for code that belongs to no object, such as a detached thread: every shared object is destroyed while it may
still use it. -/
theorem C109_fails_detached {evs : List Event} {s : State} {o : Obj} (h : run {} evs = .ok s) (he : .exit ∉ evs)
    (ho : .finish o ∈ evs) : ∃ n, run {} (evs ++ (.exit :: ending n ++ [.use none o])) = .ub := by
  have hs : Settled evs := by
    rintro x y rfl
    simp at he
  have hi := inv hs h
  have hx : s.exiting = false := by
    cases hx : s.exiting
    · rfl
    · exact absurd (hi.exiting.1 hx) he
  obtain ⟨j1, j2⟩ := hi.quiet hx
  have hl : o ∈ s.live := by
    have := mem_completed.2 ho
    rw [hi.all, j1, j2] at this
    simpa using this
  have hend := ending_run (s := { s with exiting := true }) (A := s.live) (B := []) rfl j1 (by simp)
  refine ⟨s.live.length, ?_⟩
  rw [run_append, h]
  simp only [List.cons_append, run, step, hx, Bool.false_eq_true, if_false]
  rw [run_append, hend]
  simp [run, step, acting, hl]

/-- A program that uses the logger first and the pool later; a task logs while the pool is destroyed. -/
def exampleExit : List Event :=
  [.begin .logger, .finish .logger, .use none .logger, .begin .pool, .finish .pool, .use none .pool,
    .use (some .pool) .logger, .exit, .destroy, .use (some .pool) .logger, .destroyed, .destroy, .destroyed]

/-- The two are used in the other order. -/
def exampleExitBad : List Event :=
  [.begin .pool, .finish .pool, .use none .pool, .begin .logger, .finish .logger, .use (some .pool) .logger]

/-- An object of the user whose constructor and destructor log. -/
def exampleExitUser : List Event :=
  [.begin (.user 0), .begin .logger, .finish .logger, .use (some (.user 0)) .logger, .finish (.user 0), .exit,
    .destroy, .use (some (.user 0)) .logger, .destroyed, .destroy, .destroyed]

private theorem split_at {α : Type} {l x y : List α} {e : α} (h : l = x ++ e :: y) :
    x.length < l.length ∧ l[x.length]? = some e ∧ x = l.take x.length ∧ y = l.drop (x.length + 1) := by
  subst h
  simp

private theorem settled_of {evs : List Event} {k : Nat}
    (h : ∀ i < evs.length, evs[i]? = some .exit → i = k) (h' : ∀ o, .finish o ∉ evs.drop (k + 1)) : Settled evs := by
  intro x y hxy
  obtain ⟨h1, h2, -, h4⟩ := split_at hxy
  have := h _ h1 h2
  rw [h4, this]
  exact h'

private theorem use_at {evs : List Event} {k : Nat}
    (h : ∀ i < evs.length, .exit ∈ evs.take i → ((evs[i]?).any fun e => match e with | .use _ _ => true | _ => false) = true →
      i = k) {x y : List Event} {a : Option Obj} {o : Obj} (hxy : evs = x ++ .use a o :: y) (he : .exit ∈ x) :
    x = evs.take k ∧ evs[k]? = some (.use a o) := by
  obtain ⟨h1, h2, h3, -⟩ := split_at hxy
  have := h _ h1 (h3 ▸ he) (by rw [h2]; rfl)
  rw [this] at h2 h3
  exact ⟨h3, h2⟩

example : Settled exampleExit ∧ Orderly exampleExit ∧
    (∃ s, run {} exampleExit = .ok s ∧ s.dead = [.logger, .pool]) := by
  refine ⟨settled_of (k := 7) (by decide) (by simp [exampleExit]), ?_, ⟨_, rfl, rfl⟩⟩
  intro x y a o hxy he
  obtain ⟨rfl, h2⟩ := use_at (k := 9) (by decide) hxy he
  cases h2
  exact ⟨_, rfl, .inr ⟨[.begin .logger], [.use none .logger, .begin .pool], _, rfl⟩⟩

example : Settled exampleExitUser ∧ Foreseen exampleExitUser ∧ ∃ s, run {} exampleExitUser = .ok s := by
  refine ⟨settled_of (k := 5) (by decide) (by simp [exampleExitUser]), ?_, ⟨_, rfl⟩⟩
  intro x y a o hxy he
  obtain ⟨rfl, h2⟩ := use_at (k := 7) (by decide) hxy he
  cases h2
  exact ⟨_, rfl, .inr ⟨[.begin (.user 0), .begin .logger, .finish .logger], [], _, rfl⟩⟩

/-- C109 fails for a pool that is used before the logger and whose tasks log. -/
example : (∃ s, run {} exampleExitBad = .ok s) ∧ .exit ∉ exampleExitBad ∧ Before exampleExitBad .pool .logger ∧
    .finish .logger ∈ exampleExitBad ∧
    run {} (exampleExitBad ++ [.exit, .destroy, .destroyed, .use (some .pool) .logger]) = .ub :=
  ⟨⟨_, rfl⟩, by decide, ⟨[.begin .pool], [.use none .pool, .begin .logger], _, rfl⟩, by decide, rfl⟩

end Pluto.Props
