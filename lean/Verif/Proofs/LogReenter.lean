import Verif.Proofs.LogEnd

/-! # Single steps of a caller of the logger -/

namespace Pluto.Log

theorem call_step {paths : Nat → Path} {s : State} {tid name : Nat} {time level : Int}
    {message : List Char} (ha : s.stage = .alive)
    (hc : s.crashed = false) (ht : tid ∉ s.calls.map (·.entry.tid))
    (hn : tid ∉ s.notifying) (ho : isProducer tid s.owner = false)
    (hl : shouldLog s.isLogging s.settings.level level = true) :
    ∃ s', step paths s (.call tid name time level message) = some s' ∧ s'.crashed = false ∧
      s'.calls = s.calls ++ [⟨name, ⟨time, tid, level, message, s.nextId⟩⟩] ∧
      s'.thread = s.thread ∧ s'.owner = s.owner ∧ s'.accepted = s.accepted ∧
      s'.dropped = s.dropped ∧ s'.discarded = s.discarded := by
  refine ⟨{ s with
      calls := s.calls ++ [⟨name, ⟨time, tid, level, message, s.nextId⟩⟩]
      nextId := s.nextId + 1 }, ?_, hc, rfl, rfl, rfl, rfl, rfl, rfl⟩
  simp only [step, hc, ha, ht, hn, ho, hl, Bool.false_eq_true, if_false, not_false_eq_true,
    and_self, if_true, Bool.not_false]

theorem leave_step {paths : Nat → Path} {s : State} {tid name : Nat} (hc : s.crashed = false)
    (ho : s.owner = .producer tid name) :
    ∃ s', step paths s .leave = some s' ∧ s'.crashed = false ∧ s'.calls = s.calls ∧
      s'.thread = s.thread ∧ s'.owner = .free ∧ s'.accepted = s.accepted ∧
      s'.dropped = s.dropped ∧ s'.discarded = s.discarded := by
  simp only [step, hc, ho, Bool.false_eq_true, if_false]
  split
  · exact ⟨_, rfl, rfl, rfl, rfl, rfl, rfl, rfl, rfl⟩
  · exact ⟨_, rfl, rfl, rfl, rfl, rfl, rfl, rfl, rfl⟩

theorem enter_step {paths : Nat → Path} {s : State} {rs : List Request} {r : Request}
    (hc : s.crashed = false) (ho : s.owner = .free) (hr : s.calls = rs ++ [r]) :
    ∃ s', step paths s (.enter rs.length) = some s' ∧ s'.thread = s.thread ∧ s'.calls = rs ∧
      ((∃ t n, s'.owner = .producer t n) ∧
        (∃ s'', step paths s' .leave = some s'' ∧ s''.thread = s'.thread ∧ s''.calls = s'.calls ∧
          s''.owner = .free ∧ s''.accepted = s.accepted ++ [(r.name, r.entry)] ∧
          s''.dropped = s.dropped ∧ s''.discarded = s.discarded) ∨
       (s'.owner = .free ∧ s'.accepted = s.accepted ∧
        s'.dropped = s.dropped ++ [(r.name, r.entry)] ∧ s'.discarded = s.discarded + 1)) := by
  have hi : s.calls[rs.length]? = some r := by rw [hr]; simp
  have he : s.calls.eraseIdx rs.length = rs := by rw [hr]; simp [List.eraseIdx_append]
  refine ⟨{ addLog s r with calls := s.calls.eraseIdx rs.length }, ?_, ?_, he, ?_⟩
  · simp only [step, hc, hi, ho, Bool.false_eq_true, if_false, if_true]
  · rcases addLog_cases s r with ⟨heq, -⟩ | ⟨heq, -⟩ <;> rw [heq]
  · rcases addLog_cases s r with ⟨heq, -⟩ | ⟨heq, -⟩ <;> rw [heq]
    · refine .inl ⟨⟨_, _, rfl⟩, ?_⟩
      obtain ⟨s'', h1, -, h3, h4, h5, h6, h7, h8⟩ := leave_step (paths := paths)
        (s := { s with
          files := update (if (find s.files r.name).isNone then emplace r.name {} s.files else s.files)
            r.name fun f => { f with buffer := r.entry :: f.buffer }
          owner := .producer r.entry.tid r.name
          accepted := s.accepted ++ [(r.name, r.entry)]
          calls := s.calls.eraseIdx rs.length }) hc rfl
      exact ⟨s'', h1, h4, h3, h5, h6, h7, h8⟩
    · exact .inr ⟨ho, rfl, rfl, rfl⟩

end Pluto.Log
