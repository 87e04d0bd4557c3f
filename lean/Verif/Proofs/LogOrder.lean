import Verif.Proofs.LogFlow
import Mathlib.Data.List.Induction

/-! # The logger: calls that overtake each other -/

namespace Pluto.Log
open Pluto.Spec.Log

/-- Threads `0`, ..., `n - 1` have read the clock and are about to acquire the mutex. -/
theorem all_called {paths : Nat → Path} {σ : Settings} {fs : Fs} {name : Nat} (times : List Int)
    (hs : times.Pairwise (· ≤ ·)) :
    ∃ s, ReachableBy paths SteadyClock σ fs s ∧ s.settings = σ ∧ s.owner = .free ∧ s.accepted = [] ∧ s.dropped = [] ∧
      s.notifying = [] ∧ s.crashed = false ∧ s.stage = .alive ∧ s.isLogging = true ∧
      s.calls.map (·.entry.tid) = List.range times.length ∧
      s.calls.map (·.entry.time) = times ∧ ∀ r ∈ s.calls, r.name = name := by
  induction times using List.reverseRecOn with
  | nil => exact ⟨_, .init, rfl, rfl, rfl, rfl, rfl, rfl, rfl, rfl, rfl, rfl, by simp [init]⟩
  | append_singleton times t ih =>
    obtain ⟨h1, -, h2⟩ := List.pairwise_append.1 hs
    obtain ⟨s, hr, hσ, ho, ha, hd, hn, hc, hst, hl, htid, htime, hname⟩ := ih h1
    have hstep : step paths s (.call times.length name t σ.level []) = some
        { s with
          calls := s.calls ++ [⟨name, ⟨t, times.length, σ.level, [], s.nextId⟩⟩]
          nextId := s.nextId + 1 } := by
      unfold step
      rw [hc]
      simp only [Bool.false_eq_true, if_false]
      rw [if_pos ⟨hst, by rw [htid]; simp, by rw [hn]; simp, by rw [ho]; rfl⟩, hl, hσ]
      simp [shouldLog]
    refine ⟨_, .step _ hr ?_ hstep, hσ, ho, ha, hd, hn, hc, hst, hl, ?_, ?_, ?_⟩
    · intro x hx
      rw [requests, ha, hd, List.nil_append, List.nil_append] at hx
      obtain ⟨r, hr, rfl⟩ := List.mem_map.1 hx
      refine h2 _ ?_ t (by simp)
      rw [← htime]
      exact List.mem_map.2 ⟨r, hr, rfl⟩
    · simp [htid, List.range_succ]
    · simp [htime]
    · intro r hr
      rcases List.mem_append.1 hr with hr | hr
      · exact hname r hr
      · rw [List.mem_singleton.1 hr]

/-- They enter in any order. -/
theorem any_entered {paths : Nat → Path} {σ : Settings} {fs : Fs} {name : Nat} (hm : σ.bufferMaxSize = 0) (order : List Int)
    (s : State) (hr : ReachableBy paths SteadyClock σ fs s) (hσ : s.settings = σ) (ho : s.owner = .free)
    (hc : s.crashed = false) (hname : ∀ r ∈ s.calls, r.name = name) (hp : order.Perm (s.calls.map (·.entry.time))) :
    ∃ s', ReachableBy paths SteadyClock σ fs s' ∧ (accepted s' name).map (·.time) = (accepted s name).map (·.time) ++ order ∧
      s'.calls = [] := by
  induction order generalizing s with
  | nil =>
    refine ⟨s, hr, by simp, ?_⟩
    simpa using hp.nil_eq
  | cons t order ih =>
    obtain ⟨r, hrm, ht⟩ := List.mem_map.1 (hp.subset (List.mem_cons_self ..))
    obtain ⟨i, hi, hget⟩ := List.mem_iff_getElem.1 hrm
    have hget' : s.calls[i]? = some r := by rw [List.getElem?_eq_getElem hi, hget]
    have hadd : addLog s r = { s with
        files := update (if (find s.files r.name).isNone then emplace r.name {} s.files else s.files)
          r.name fun f => { f with buffer := r.entry :: f.buffer }
        owner := .producer r.entry.tid r.name
        accepted := s.accepted ++ [(r.name, r.entry)] } := by
      unfold addLog
      simp only [hσ, hm, true_or, if_true]
    have h1 : step paths s (.enter i) = some { addLog s r with calls := s.calls.eraseIdx i } := by
      unfold step
      rw [hc]
      simp only [Bool.false_eq_true, if_false, hget', ho, if_true]
    have hr1 := ReachableBy.step (paths := paths) (ok := SteadyClock) (.enter i) hr trivial h1
    rw [hadd] at hr1
    have hrest : order.Perm ((s.calls.eraseIdx i).map (·.entry.time)) := by
      have h2 : (s.calls.map (·.entry.time)).Perm (t :: (s.calls.eraseIdx i).map (·.entry.time)) := by
        rw [← ht]
        exact ((eraseIdx_perm hget').map (fun r : Request => r.entry.time)).symm
      exact (hp.trans h2).cons_inv
    have hsub : ∀ x ∈ s.calls.eraseIdx i, x.name = name := fun x hx => hname x (List.mem_of_mem_eraseIdx hx)
    have hacc : ∀ {s' : State}, s'.accepted = s.accepted ++ [(r.name, r.entry)] →
        (accepted s' name).map (·.time) = (accepted s name).map (·.time) ++ [t] := by
      intro s' h
      unfold accepted
      rw [h, List.filterMap_append]
      simp [hname r hrm, ht]
    by_cases hfl : σ.bufferFlushSize ≤ ((find (update (if (find s.files r.name).isNone then emplace r.name {} s.files else s.files)
          r.name fun f => { f with buffer := r.entry :: f.buffer }) r.name).getD {}).buffer.length
    · have h2 := ReachableBy.step (paths := paths) (ok := SteadyClock) .leave hr1 trivial (by
        unfold step
        simp only [hc, Bool.false_eq_true, if_false]
        rw [if_pos (by rw [hσ]; exact hfl)])
      obtain ⟨s', h3, h4, h5⟩ := ih _ h2 hσ rfl rfl hsub hrest
      refine ⟨s', h3, ?_, h5⟩
      rw [h4, hacc rfl, List.append_assoc]
      rfl
    · have h2 := ReachableBy.step (paths := paths) (ok := SteadyClock) .leave hr1 trivial (by
        unfold step
        simp only [hc, Bool.false_eq_true, if_false]
        rw [if_neg (by rw [hσ]; exact hfl)])
      obtain ⟨s', h3, h4, h5⟩ := ih _ h2 hσ rfl rfl hsub hrest
      refine ⟨s', h3, ?_, h5⟩
      rw [h4, hacc rfl, List.append_assoc]
      rfl

end Pluto.Log
