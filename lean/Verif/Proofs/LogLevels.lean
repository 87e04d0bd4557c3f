import Verif.Proofs.LogEnd
import Verif.Proofs.LogFlow
import Verif.Spec.LogLevels

/-! # The entries of a thread are its calls of sufficient level (C172) -/

namespace Pluto.Log

open LogSpec

/-- The calls of `t` that are in progress. -/
def inside (t : Nat) (calls : List Request) : List Given :=
  (calls.filter fun r => decide (r.entry.tid = t)).map fun r =>
    ⟨r.name, r.entry.time, r.entry.level, r.entry.message⟩

theorem inside_append (t : Nat) (a b : List Request) : inside t (a ++ b) = inside t a ++ inside t b := by
  simp [inside]

theorem inside_free {t : Nat} {calls : List Request} (h : t ∉ calls.map (·.entry.tid)) : inside t calls = [] := by
  have : (calls.filter fun r => decide (r.entry.tid = t)) = [] := by
    rw [List.filter_eq_nil_iff]
    intro r hr ht
    exact h (List.mem_map.2 ⟨r, hr, by simpa using ht⟩)
  simp [inside, this]

theorem inside_split {calls : List Request} {i : Nat} {r : Request} (hi : calls[i]? = some r) :
    ∃ a b, calls = a ++ r :: b ∧ calls.eraseIdx i = a ++ b := by
  obtain ⟨h, rfl⟩ := List.getElem?_eq_some_iff.1 hi
  refine ⟨calls.take i, calls.drop (i + 1), ?_, List.eraseIdx_eq_take_drop_succ calls i⟩
  rw [List.getElem_cons_drop h, List.take_append_drop]

/-- What `t` gave to the logger is accepted, or too low, or in progress, if nothing is discarded. -/
structure Levelled (t : Nat) (l : Int) (made : List Given) (s : State) : Prop where
  level : s.settings.level = l
  one : (inside t s.calls).length ≤ 1
  all : s.dropped = [] →
    logged t s.accepted ++ inside t s.calls = made.filter fun g => decide (l ≤ g.level)

theorem levelled_same {t : Nat} {l : Int} {made : List Given} {s s' : State} (h : Levelled t l made s)
    (h1 : s'.settings.level = s.settings.level) (h2 : s'.calls = s.calls) (h3 : s'.accepted = s.accepted)
    (h4 : s'.dropped = s.dropped) : Levelled t l made s' :=
  ⟨by rw [h1, h.level], by rw [h2]; exact h.one, by rw [h2, h3, h4]; exact h.all⟩

theorem given_append (t : Nat) (a b : List Event) : given t (a ++ b) = given t a ++ given t b := by
  induction a with
  | nil => rfl
  | cons ev a ih =>
    cases ev with
    | call => simp only [List.cons_append, given, ih]; split <;> rfl
    | _ => exact ih

theorem levelled_step {paths : Nat → Path} {σ : Settings} {fs : Fs} {t : Nat} {l : Int} {made : List Given}
    {s s' : State} {ev : Event} (hr : Reachable paths σ fs s) (h : Levelled t l made s) (hev : SameLevel ev)
    (hs : step paths s ev = some s') : Levelled t l (made ++ given t [ev]) s' := by
  have hlog : s.stage = .alive → s.isLogging = true := by
    intro hst
    rcases closing hr with ⟨-, h1⟩ | ⟨h1, -⟩
    · exact h1
    · exact absurd hst h1
  have h' : Levelled t l (made ++ []) s := by rwa [List.append_nil]
  obtain ⟨-, hs⟩ := step_cases hs
  cases hs with
  | call tid name time level message hst hc hn ho hl =>
    have hle : l ≤ level := by
      have := h.level
      simp only [shouldLog, Bool.and_eq_true, decide_eq_true_eq] at hl
      omega
    by_cases ht : tid = t
    · subst ht
      have h0 := inside_free hc
      refine ⟨h.level, ?_, fun hd => ?_⟩
      · simp only; rw [inside_append, h0]; simp [inside]
      · have := h.all hd
        rw [h0, List.append_nil] at this
        simp only
        rw [inside_append, h0, this, List.filter_append]
        simp [inside, given, hle]
    · have e : inside t (s.calls ++ [⟨name, ⟨time, tid, level, message, s.nextId⟩⟩]) = inside t s.calls := by
        simp [inside, ht]
      have hg : given t [.call tid name time level message] = [] := by simp [given, ht]
      rw [hg, List.append_nil]
      refine ⟨h.level, ?_, ?_⟩
      · simp only; rw [e]; exact h.one
      · simp only; rw [e]; exact h.all
  | callFiltered tid name time level message hst hl =>
    have hle : ¬ l ≤ level := by
      have := h.level
      simp only [shouldLog, hlog hst, Bool.true_and, decide_eq_false_iff_not] at hl
      omega
    refine ⟨h.level, h.one, fun hd => ?_⟩
    rw [h.all hd, List.filter_append]
    have : (given t [.call tid name time level message]).filter (fun g => decide (l ≤ g.level)) = [] := by
      unfold given
      split
      · simp [given, hle]
      · rfl
    rw [this, List.append_nil]
  | enter i r hi ho =>
    obtain ⟨a, b, e1, e2⟩ := inside_split hi
    have hone := h.one
    have hmid : inside t s.calls = inside t a ++ (inside t [r] ++ inside t b) := by
      rw [e1, ← inside_append, ← inside_append]; rfl
    have hafter : inside t (s.calls.eraseIdx i) = inside t a ++ inside t b := by rw [e2, inside_append]
    have hg : given t [.enter i] = [] := rfl
    rw [hg, List.append_nil]
    rw [hmid] at hone
    simp only [List.length_append] at hone
    rcases addLog_cases s r with ⟨heq, -⟩ | ⟨heq, -⟩
    · rw [heq]
      refine ⟨h.level, ?_, fun hd => ?_⟩
      · simp only; rw [hafter, List.length_append]; omega
      · have hall := h.all hd
        simp only
        rw [hafter, ← hall, hmid]
        have hlog : logged t (s.accepted ++ [(r.name, r.entry)]) = logged t s.accepted ++ inside t [r] := by
          by_cases ht : r.entry.tid = t <;> simp [logged, inside, ht]
        rw [hlog]
        by_cases ht : r.entry.tid = t
        · have h1 : (inside t [r]).length = 1 := by simp [inside, ht]
          have ha : inside t a = [] := List.length_eq_zero_iff.1 (by omega)
          have hb : inside t b = [] := List.length_eq_zero_iff.1 (by omega)
          rw [ha, hb]; simp
        · have h1 : inside t [r] = [] := by simp [inside, ht]
          rw [h1]; simp
    · rw [heq]
      refine ⟨h.level, ?_, fun hd => ?_⟩
      · simp only; rw [hafter, List.length_append]; omega
      · simp at hd
  | set x hst hx =>
    refine levelled_same h' ?_ rfl rfl rfl
    cases x with
    | level => exact hev.elim
    | _ => rfl
  | flush io ios last name f hst hn =>
    obtain ⟨h1, h2, h3, -, -, -, h7, -⟩ := flushFile_same paths s io ios name f
    exact levelled_same h' (by rw [h7]) h1 h2 h3
  | _ => exact levelled_same h' rfl rfl rfl rfl

theorem levelled_run {paths : Nat → Path} {σ : Settings} {fs : Fs} {t : Nat} {l : Int} {made : List Given}
    {s s' : State} {evs : List Event} (hr : Reachable paths σ fs s) (h : Levelled t l made s)
    (hev : ∀ ev ∈ evs, SameLevel ev) (hs : run paths s evs = some s') :
    Levelled t l (made ++ given t evs) s' := by
  induction evs generalizing s made with
  | nil => cases hs; simpa [given] using h
  | cons ev evs ih =>
    cases h1 : step paths s ev with
    | none => simp [run, h1] at hs
    | some s₁ =>
      simp only [run, h1] at hs
      have := ih (.step _ hr h1) (levelled_step hr h (hev ev List.mem_cons_self) h1)
        (fun e he => hev e (List.mem_cons_of_mem _ he)) hs
      rwa [List.append_assoc, ← given_append] at this

end Pluto.Log
