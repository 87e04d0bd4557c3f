import Verif.Proofs.Lru
import Verif.Model.LruMove

/-! # Moving caches: simulation -/

namespace Pluto.Lru
open Pluto.Spec.Lru (Cache Ret Op)
variable {K V : Type}

/-- A cache and its abstract counterpart. -/
def Sim (s : State K V) (c : Cache K V) : Prop := ∃ T, Rel s T ∧ view s T = c

theorem sim_moved {s : State K V} {c : Cache K V} (h : Sim s c) : Sim (moved s).2 ⟨c.capacity, []⟩ := by
  obtain ⟨T, _, rfl⟩ := h
  exact ⟨[], ⟨rfl, .nil, .nil, .nil, by simp⟩, rfl⟩

theorem sims_get {ss : List (State K V)} {cs : List (Cache K V)} (h : List.Forall₂ Sim ss cs) (i : Nat) :
    (ss[i]? = none ∧ cs[i]? = none) ∨ ∃ s c, ss[i]? = some s ∧ cs[i]? = some c ∧ Sim s c := by
  induction h generalizing i with
  | nil => exact .inl ⟨rfl, rfl⟩
  | cons h1 _ ih =>
    cases i with
    | zero => exact .inr ⟨_, _, rfl, rfl, h1⟩
    | succ i => exact ih i

theorem sims_set {ss : List (State K V)} {cs : List (Cache K V)} (h : List.Forall₂ Sim ss cs) (i : Nat)
    {s : State K V} {c : Cache K V} (hs : Sim s c) : List.Forall₂ Sim (ss.set i s) (cs.set i c) := by
  induction h generalizing i with
  | nil => exact .nil
  | cons h1 h2 ih =>
    cases i with
    | zero => exact .cons hs h2
    | succ i => exact .cons h1 (ih i)

theorem sims_append {ss : List (State K V)} {cs : List (Cache K V)} (h : List.Forall₂ Sim ss cs)
    {s : State K V} {c : Cache K V} (hs : Sim s c) : List.Forall₂ Sim (ss ++ [s]) (cs ++ [c]) := by
  induction h with
  | nil => exact .cons hs .nil
  | cons h1 _ ih => exact .cons h1 ih

variable [DecidableEq K]

theorem opStep_sim {ss : List (State K V)} {cs : List (Cache K V)} (h : List.Forall₂ Sim ss cs) (o : Op K V) :
    (opStep ss o = none ∧ Spec.Lru.opStep cs o = none) ∨
    ∃ ss' cs' r, opStep ss o = some (ss', r) ∧ Spec.Lru.opStep cs o = some (cs', r) ∧ List.Forall₂ Sim ss' cs' := by
  cases o with
  | create n => exact .inr ⟨_, _, _, rfl, rfl, sims_append h ⟨[], rel_init n, rfl⟩⟩
  | call i c =>
    rcases sims_get h i with ⟨h1, h2⟩ | ⟨s, x, h1, h2, T, h3, rfl⟩
    · exact .inl ⟨by simp [opStep, h1], by simp [Spec.Lru.opStep, h2]⟩
    · obtain ⟨s', T', h4, h5, h6⟩ := step_sim h3 c
      exact .inr ⟨_, _, ((view s T).step c).2, by simp [opStep, h1, h4],
        by simp [Spec.Lru.opStep, h2], sims_set h i ⟨T', h5, h6⟩⟩
  | moveNew i =>
    rcases sims_get h i with ⟨h1, h2⟩ | ⟨s, x, h1, h2, h3⟩
    · exact .inl ⟨by simp [opStep, h1], by simp [Spec.Lru.opStep, h2]⟩
    · exact .inr ⟨_, _, .unit, by simp only [opStep, h1]; rfl, by simp only [Spec.Lru.opStep, h2, Option.map_some],
        sims_append (sims_set h i (sim_moved h3)) h3⟩
  | moveTo i j =>
    rcases sims_get h i with ⟨h1, h2⟩ | ⟨s, x, h1, h2, h3⟩
    · exact .inl ⟨by simp [opStep, h1], by simp [Spec.Lru.opStep, h2]⟩
    · rcases sims_get h j with ⟨h4, h5⟩ | ⟨s', x', h4, h5, h6⟩
      · exact .inl ⟨by simp [opStep, h1, h4], by simp [Spec.Lru.opStep, h2, h5]⟩
      · by_cases hij : i = j
        · exact .inl ⟨by simp [opStep, hij], by simp only [Spec.Lru.opStep, h2, h5, if_pos hij]⟩
        · refine .inr ⟨_, _, _, by simp only [opStep, h1, h4, if_neg hij]; rfl,
            by simp only [Spec.Lru.opStep, h2, h5, if_neg hij]; rfl, ?_⟩
          rw [List.set_comm _ _ hij]
          exact sims_set (sims_set h j h3) i (sim_moved h3)
  | swap i j =>
    rcases sims_get h i with ⟨h1, h2⟩ | ⟨s, x, h1, h2, h3⟩
    · exact .inl ⟨by simp [opStep, h1], by simp [Spec.Lru.opStep, h2]⟩
    · rcases sims_get h j with ⟨h4, h5⟩ | ⟨s', x', h4, h5, h6⟩
      · exact .inl ⟨by simp [opStep, h1, h4], by simp [Spec.Lru.opStep, h2, h5]⟩
      · by_cases hij : i = j
        · exact .inl ⟨by simp [opStep, hij], by simp only [Spec.Lru.opStep, h2, h5, if_pos hij]⟩
        · exact .inr ⟨_, _, .unit, by simp only [opStep, h1, h4, if_neg hij]; rfl,
            by simp only [Spec.Lru.opStep, h2, h5, if_neg hij], sims_set (sims_set h i h6) j h3⟩

theorem ops_sim {ss : List (State K V)} {cs : List (Cache K V)} (h : List.Forall₂ Sim ss cs) (os : List (Op K V)) :
    (ops os ss).map (·.2) = (Spec.Lru.ops os cs).map (·.2) := by
  induction os generalizing ss cs with
  | nil => rfl
  | cons o os ih =>
    rcases opStep_sim h o with ⟨h1, h2⟩ | ⟨ss', cs', r, h1, h2, h3⟩
    · simp [ops, Spec.Lru.ops, h1, h2]
    · have := ih h3
      simp only [ops, Spec.Lru.ops, h1, h2, Option.bind_some, Option.map_map]
      have h4 := congrArg (Option.map (r :: ·)) this
      simpa [Option.map_map, Function.comp_def] using h4

end Pluto.Lru
