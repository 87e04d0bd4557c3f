import Verif.Spec.Statics
import Mathlib.Data.List.Induction

/-! # The life of the shared objects -/

namespace Pluto.Statics
open Pluto.StaticsSpec

theorem run_append (s : State) (xs ys : List Event) :
    run s (xs ++ ys) = match run s xs with
      | .ok s => run s ys
      | .ub => .ub
      | .stuck => .stuck := by
  induction xs generalizing s with
  | nil => rfl
  | cons e xs ih =>
    rw [List.cons_append, run, run]
    cases step s e with
    | ok s => exact ih s
    | ub => rfl
    | stuck => rfl

theorem run_snoc {s s' : State} {xs : List Event} {e : Event} (h : run s (xs ++ [e]) = .ok s') :
    ∃ t, run s xs = .ok t ∧ step t e = .ok s' := by
  rw [run_append] at h
  cases hr : run s xs with
  | ok t =>
    rw [hr] at h
    refine ⟨t, rfl, ?_⟩
    simp only [run] at h
    cases hs : step t e with
    | ok u => rw [hs] at h; exact h
    | ub => rw [hs] at h; cases h
    | stuck => rw [hs] at h; cases h
  | ub => rw [hr] at h; cases h
  | stuck => rw [hr] at h; cases h

theorem run_prefix {s s' : State} {xs ys : List Event} (h : run s (xs ++ ys) = .ok s') : ∃ t, run s xs = .ok t := by
  rw [run_append] at h
  cases hr : run s xs with
  | ok t => exact ⟨t, rfl⟩
  | ub => rw [hr] at h; cases h
  | stuck => rw [hr] at h; cases h

/-- The first undefined event. -/
theorem run_ub {s : State} {evs : List Event} (h : run s evs = .ub) :
    ∃ x e y t, evs = x ++ e :: y ∧ run s x = .ok t ∧ step t e = .ub := by
  induction evs generalizing s with
  | nil => cases h
  | cons e evs ih =>
    rw [run] at h
    cases hs : step s e with
    | ok t =>
      rw [hs] at h
      obtain ⟨x, e', y, u, h1, h2, h3⟩ := ih h
      refine ⟨e :: x, e', y, u, by rw [h1]; rfl, ?_, h3⟩
      rw [run, hs]
      exact h2
    | ub => exact ⟨[], e, evs, s, rfl, rfl, hs⟩
    | stuck => rw [hs] at h; cases h

theorem step_ub {s : State} {e : Event} (h : step s e = .ub) :
    ∃ a o, e = .use a o ∧ acting s a = true ∧ (o ∈ s.dead ∨ (s.dying = some o ∧ a ≠ some o)) := by
  cases e with
  | begin o => simp only [step] at h; split at h <;> cases h
  | finish o => simp only [step] at h; split at h <;> cases h
  | exit => simp only [step] at h; split at h <;> cases h
  | destroy =>
    simp only [step] at h
    split at h
    · split at h <;> cases h
    · cases h
  | destroyed => simp only [step] at h; split at h <;> cases h
  | use a o =>
    refine ⟨a, o, rfl, ?_⟩
    simp only [step] at h
    split at h
    · cases h
    · rename_i h1
      refine ⟨by simpa using h1, ?_⟩
      split at h
      · assumption
      · split at h <;> cases h

/-- The objects whose construction was completed, the last one first. -/
def completed : List Event → List Obj
  | [] => []
  | .finish o :: evs => completed evs ++ [o]
  | _ :: evs => completed evs

theorem completed_append (xs ys : List Event) : completed (xs ++ ys) = completed ys ++ completed xs := by
  induction xs with
  | nil => simp [completed]
  | cons e xs ih =>
    cases e <;> simp [completed, ih]

theorem mem_completed {evs : List Event} {o : Obj} : o ∈ completed evs ↔ .finish o ∈ evs := by
  induction evs with
  | nil => simp [completed]
  | cons e evs ih =>
    cases e <;> simp [completed, ih]
    exact or_comm

/-- What the state says about the past. -/
structure Inv (evs : List Event) (s : State) : Prop where
  all : completed evs = s.dead.reverse ++ (s.dying.toList ++ s.live)
  nodup : (completed evs).Nodup
  apart : ∀ o ∈ s.building, o ∉ completed evs
  exiting : s.exiting = true ↔ .exit ∈ evs
  quiet : s.exiting = false → s.dying = none ∧ s.dead = []

theorem settled_prefix {xs ys : List Event} (h : Settled (xs ++ ys)) : Settled xs := by
  intro x y hx o ho
  refine h x (y ++ ys) ?_ o (List.mem_append_left _ ho)
  rw [hx]; simp

theorem inv {evs : List Event} {s : State} (hs : Settled evs) (h : run {} evs = .ok s) : Inv evs s := by
  induction evs using List.reverseRecOn generalizing s with
  | nil => cases h; exact ⟨rfl, List.nodup_nil, by simp, by simp, fun _ => ⟨rfl, rfl⟩⟩
  | append_singleton evs e ih =>
    obtain ⟨t, h1, h2⟩ := run_snoc h
    obtain ⟨i1, i2, i3, i4, i5⟩ := ih (settled_prefix hs) h1
    cases e with
    | begin o =>
      simp only [step] at h2
      split at h2
      · cases h2
      · rename_i hn
        cases h2
        refine ⟨by simpa [completed_append, completed] using i1, by simpa [completed_append, completed] using i2, ?_,
          by simpa using i4, i5⟩
        intro x hx
        rw [completed_append]
        simp only [completed, List.nil_append]
        rcases List.mem_cons.1 hx with rfl | hx
        · rw [i1]
          simp only [not_or] at hn
          simp [hn.2.1, hn.2.2.2, Option.mem_toList, hn.2.2.1]
        · exact i3 x hx
    | finish o =>
      simp only [step] at h2
      split at h2
      · rename_i hb
        cases h2
        have hne : .exit ∉ evs := by
          intro he
          obtain ⟨x, y, hxy⟩ := List.append_of_mem he
          refine hs x (y ++ [.finish o]) (by rw [hxy]; simp) o (by simp)
        have hx : t.exiting = false := by
          cases hx : t.exiting
          · rfl
          · exact absurd (i4.1 hx) hne
        obtain ⟨j1, j2⟩ := i5 hx
        have ho := i3 o hb
        refine ⟨?_, ?_, ?_, by simpa using i4, i5⟩
        · rw [completed_append, i1]
          simp [completed, j1, j2]
        · rw [completed_append]
          simpa [completed] using ⟨ho, i2⟩
        · intro x hx
          have hx' := List.mem_filter.1 hx
          rw [completed_append]
          simp only [completed, List.nil_append, List.singleton_append, List.mem_cons, not_or]
          exact ⟨by simpa using hx'.2, i3 x hx'.1⟩
      · cases h2
    | use a o =>
      simp only [step] at h2
      split at h2
      · cases h2
      · split at h2
        · cases h2
        · split at h2
          · cases h2
            exact ⟨by simpa [completed_append, completed] using i1, by simpa [completed_append, completed] using i2,
              by simpa [completed_append, completed] using i3, by simpa using i4, i5⟩
          · cases h2
    | exit =>
      simp only [step] at h2
      split at h2
      · cases h2
      · cases h2
        exact ⟨by simpa [completed_append, completed] using i1, by simpa [completed_append, completed] using i2,
          by simpa [completed_append, completed] using i3, by simp, by simp⟩
    | destroy =>
      simp only [step] at h2
      split at h2
      · rename_i hc
        split at h2
        · rename_i o live hl
          cases h2
          refine ⟨?_, by simpa [completed_append, completed] using i2,
            by simpa [completed_append, completed] using i3, by simpa using i4, ?_⟩
          · rw [completed_append]
            simp [completed, i1, hc.2, hl]
          · intro he
            have : t.exiting = false := he
            rw [hc.1] at this; cases this
        · cases h2
      · cases h2
    | destroyed =>
      simp only [step] at h2
      split at h2
      · rename_i o hd
        cases h2
        refine ⟨?_, by simpa [completed_append, completed] using i2,
            by simpa [completed_append, completed] using i3, by simpa using i4, ?_⟩
        · rw [completed_append]
          simp [completed, i1, hd]
        · intro he
          have := (i5 he).1
          rw [hd] at this; cases this
      · cases h2

theorem later_of_nodup {A B p t : List Obj} {b : Obj} (hn : (A ++ B).Nodup) (h : A ++ B = p ++ b :: t) (hb : b ∈ B) :
    ∀ o ∈ t, o ∈ B ∧ o ∉ A := by
  have hdis := (List.nodup_append.1 hn).2.2
  have key : ∀ o ∈ t, o ∈ B := by
    intro o ho
    rcases List.append_eq_append_iff.1 h with ⟨c, hc, hB⟩ | ⟨c, hc, hB⟩
    · rw [hB]; simp [ho]
    · cases c with
      | nil =>
        rw [List.nil_append] at hB
        rw [← hB]; simp [ho]
      | cons d c =>
        rw [List.cons_append] at hB
        injection hB with h1 h2
        subst h1
        exact absurd rfl (hdis b (by rw [hc]; simp) b hb)
  exact fun o ho => ⟨key o ho, fun h => hdis o h o (key o ho) rfl⟩

theorem before_completed {evs : List Event} {o a : Obj} (h : Before evs o a) :
    ∃ p t, completed evs = p ++ a :: t ∧ o ∈ t := by
  obtain ⟨x, y, z, rfl⟩ := h
  refine ⟨completed z, completed y ++ o :: completed x, ?_, by simp⟩
  simp [completed_append, completed]

/-- Whoever acts has not been destroyed, and neither have older objects. -/
theorem use_defined {x : List Event} {s : State} (hi : Inv x s) {b o : Obj} (ha : acting s (some b) = true)
    (h : b = o ∨ Before x o b) : ¬ (o ∈ s.dead ∨ (s.dying = some o ∧ some b ≠ some o)) := by
  have ha : b ∈ s.building ∨ b ∈ s.live ∨ s.dying = some b := by simpa [acting] using ha
  have hn := hi.nodup
  rcases h with rfl | h
  · rintro (hd | ⟨-, h⟩)
    · have hd' : b ∈ completed x := by rw [hi.all]; simp [hd]
      rw [hi.all] at hn
      have hdis := (List.nodup_append.1 hn).2.2 b (by simpa using hd) b
      rcases ha with ha | ha | ha
      · exact hi.apart b ha hd'
      · exact hdis (by simp [ha]) rfl
      · exact hdis (by simp [ha]) rfl
    · exact h rfl
  · obtain ⟨p, t, hp, ho⟩ := before_completed h
    have hb : b ∈ completed x := by rw [hp]; simp
    have ha : b ∈ s.live ∨ s.dying = some b := ha.resolve_left fun h => hi.apart b h hb
    rintro (hd | ⟨hd, hne⟩)
    · refine (later_of_nodup (A := s.dead.reverse) (B := s.dying.toList ++ s.live) (hi.all ▸ hn) (hi.all ▸ hp) ?_ o ho).2
        (by simpa using hd)
      rcases ha with ha | ha <;> simp [ha]
    · have ha : b ∈ s.live := by
        rcases ha with ha | ha
        · exact ha
        · exact absurd (ha.symm.trans hd) hne
      have hall : completed x = (s.dead.reverse ++ [o]) ++ s.live := by rw [hi.all, hd]; simp
      exact (later_of_nodup (hall ▸ hn) (hall ▸ hp) ha o ho).2 (by simp)

theorem ending_run {s : State} {A B : List Obj} (he : s.exiting = true) (hd : s.dying = none) (hl : s.live = A ++ B) :
    run s (ending A.length) = .ok { s with live := B, dead := A.reverse ++ s.dead } := by
  induction A generalizing s with
  | nil =>
    cases s
    cases hl
    rfl
  | cons o A ih =>
    rw [List.length_cons, ending, run]
    simp only [step, he, hd, hl, List.cons_append, and_self, if_true, run]
    rw [ih rfl rfl rfl]
    simp

end Pluto.Statics
