import Verif.Spec.LogBusy
import Verif.Proofs.LogEnd

/-! # A log file that cannot be written: the logging thread does not wait -/

namespace Pluto.Log
open Pluto.Spec.Log Pluto.Spec.LogBusy

/-- The logging thread has not passed by `name` since it last decided to wait, and is not about to erase entries of it. -/
def Eager (name : Nat) : Phase → Prop
  | .checking w => w = false
  | .drowsy => False
  | .asleep => False
  | .scanning last w => w = true → Beyond last name
  | .writing n _ _ _ _ => n ≠ name
  | .returning n done => n = name → done = 0
  | _ => True

theorem eager_wake {name : Nat} {p : Phase} (h : Eager name p) : Eager name (wake p) := by
  cases p <;> first | exact h | trivial

theorem full_congr {s s' : State} {name : Nat} (hf : Full s name) (h : buffered s' name = buffered s name)
    (hσ : s'.settings.bufferFlushSize = s.settings.bufferFlushSize) : Full s' name := by
  unfold Full at hf ⊢
  rw [h, hσ]
  exact hf

theorem full_find {s : State} {name : Nat} (h : Full s name) : ∃ f, find s.files name = some f ∧ f.buffer ≠ [] ∧
    s.settings.bufferFlushSize ≤ f.buffer.length := by
  unfold Full buffered at h
  cases hf : find s.files name with
  | none => rw [hf] at h; exact absurd rfl h.1
  | some f =>
    rw [hf] at h
    simp only [Option.getD_some, List.length_reverse] at h
    exact ⟨f, rfl, by simpa using h.1, h.2⟩

theorem eager_step {paths : Nat → Path} {s s' : State} {ev : Event} {name : Nat} (hb : Base s)
    (hs : step paths s ev = some s') (hok : Shut paths name s ev) (h : s.thread = .exited ∨ Full s name ∧ Eager name s.thread) :
    s'.thread = .exited ∨ Full s' name ∧ Eager name s'.thread := by
  have hshut := hok.1 s' hs
  have hset := hok.2
  replace hs := (step_cases hs).2
  rcases h with h | ⟨hf, he⟩
  · left
    cases hs with
    | enter i r hi ho =>
      rcases addLog_cases s r with ⟨heq, -⟩ | ⟨heq, -⟩ <;> simp only [heq] <;> exact h
    | flush io ios last m f hs hn =>
      obtain ⟨-, -, -, -, -, -, -, -, h3, -, -, -⟩ := flushFile_same paths s io ios m f
      rw [h3]; exact h
    | notify i hi => exact (wake_eq_exited _).2 h
    | setNotify hs => exact (wake_eq_exited _).2 h
    | stopNotify hs => exact (wake_eq_exited _).2 h
    | _ => first | exact h | simp_all
  · obtain ⟨f₀, hf₀, hne₀, hle₀⟩ := full_find hf
    cases hs with
    | call tid name time level message hs hc hn ho hl => exact .inr ⟨full_congr hf rfl rfl, he⟩
    | callFiltered tid name time level message hs hl => exact .inr ⟨hf, he⟩
    | enter i r hi ho =>
      right
      have ht : ({ addLog s r with calls := s.calls.eraseIdx i } : State).thread = s.thread := by
        rcases addLog_cases s r with ⟨heq, -⟩ | ⟨heq, -⟩ <;> rw [heq]
      rw [ht]
      refine ⟨?_, he⟩
      rcases addLog_cases s r with ⟨heq, -⟩ | ⟨heq, -⟩ <;> rw [heq] <;> unfold Full buffered <;>
        unfold Full buffered at hf <;> simp only
      · rw [find_update, addLog_files]
        by_cases hr : name = r.name
        · subst hr
          simp only [hf₀, if_true, Option.getD_some, Option.map_some, List.length_reverse, List.length_cons]
          exact ⟨by simp, by omega⟩
        · rw [if_neg hr, if_neg hr]
          exact hf
      · rw [addLog_files]
        by_cases hr : name = r.name
        · subst hr
          simpa using hf
        · rw [if_neg hr]
          exact hf
    | leaveNotify tid name ho hf => exact .inr ⟨full_congr ‹_› rfl rfl, he⟩
    | leave tid name ho hf => exact .inr ⟨full_congr ‹_› rfl rfl, he⟩
    | notify i hi => exact .inr ⟨full_congr hf rfl rfl, eager_wake he⟩
    | setFlush x hs => exact absurd rfl (hset x)
    | set x hs hx =>
      refine .inr ⟨full_congr hf rfl ?_, he⟩
      cases x with
      | bufferFlushSize n => exact absurd rfl (hx n)
      | _ => rfl
    | setNotify hs => exact .inr ⟨full_congr hf rfl rfl, eager_wake he⟩
    | reset hs => exact .inr ⟨full_congr hf rfl rfl, he⟩
    | starting io ht ho => exact .inr ⟨full_congr hf rfl rfl, rfl⟩
    | checkWait io ht hl => rw [ht] at he; cases he
    | checkScan io ht hl => exact .inr ⟨full_congr hf rfl rfl, fun _ => trivial⟩
    | checkExit io w ht hl => exact .inl rfl
    | drowse io ht => rw [ht] at he; exact he.elim
    | woken io ht ho => exact .inr ⟨full_congr hf rfl rfl, rfl⟩
    | scanEnd io last w ht hn =>
      rw [ht] at he
      refine .inr ⟨full_congr hf rfl rfl, ?_⟩
      cases w with
      | false => rfl
      | true => exact absurd (he rfl) (next_none hn hf₀)
    | scanFull io last w m f ht hn hbuf hfl => exact .inr ⟨full_congr hf rfl rfl, trivial⟩
    | scanSkip io last w m f ht hn hsk =>
      rw [ht] at he
      refine .inr ⟨full_congr hf rfl rfl, fun hw => ?_⟩
      obtain ⟨h1, h2, h3⟩ := next_some hb.sorted hn
      have h4 := h3 name f₀ hf₀ (he hw)
      by_cases hm : m = name
      · subst hm
        rw [hf₀] at h1
        cases h1
        exact absurd ⟨hne₀, hle₀⟩ hsk
      · show m < name
        omega
    | openOk io m todo f fs l ht hp =>
      by_cases hm : m = name
      · subst hm
        exact absurd rfl (hshut _ _ _ _)
      · refine .inr ⟨full_congr hf ?_ rfl, hm⟩
        refine buffered_eq ?_
        rw [find_update]
        split
        · rename_i h; exact absurd h.symm hm
        · rfl
    | openFail io m todo f fs ht hp =>
      refine .inr ⟨full_congr hf ?_ rfl, fun _ => rfl⟩
      refine buffered_eq ?_
      rw [find_update]
      split
      · rename_i h; subst h; rw [hf₀]; rfl
      · rfl
    | writeDone io m p l done ht =>
      rw [ht] at he
      exact .inr ⟨full_congr hf rfl rfl, fun h => absurd h he⟩
    | writeNext io m p l e todo done fs l' whole ht hw =>
      rw [ht] at he
      exact .inr ⟨full_congr hf rfl rfl, he⟩
    | writeBefore io m p l e todo done fs ht hw =>
      rw [ht] at he
      exact .inr ⟨full_congr hf rfl rfl, fun h => absurd h he⟩
    | writeAfter io m p l e todo done fs ht hw =>
      rw [ht] at he
      exact .inr ⟨full_congr hf rfl rfl, fun h => absurd h he⟩
    | writeCrash io m p l e todo done ht hw => exact .inr ⟨full_congr hf rfl rfl, he⟩
    | erase io m done ht ho =>
      rw [ht] at he
      refine .inr ⟨full_congr hf ?_ rfl, fun h => by cases h⟩
      refine buffered_eq ?_
      rw [find_update]
      split
      · rename_i h
        subst h
        rw [he rfl, hf₀]
        simp
      · rfl
    | spurious ht => exact .inr ⟨full_congr hf rfl rfl, trivial⟩
    | stop hs hc hn hset ho => exact .inr ⟨full_congr hf rfl rfl, he⟩
    | stopNotify hs => exact .inr ⟨full_congr hf rfl rfl, eager_wake he⟩
    | join hs ht => exact .inl ht
    | flush io ios last m f hs hn =>
      left
      obtain ⟨-, -, -, -, -, -, -, -, h3, -, -, -⟩ := flushFile_same paths s io ios m f
      rw [h3]
      rcases hb.ended with ⟨h, -⟩ | h
      · exact absurd hs (h last)
      · exact h
    | finish last hs hn => exact .inr ⟨full_congr hf rfl rfl, he⟩

theorem eager_leads {paths : Nat → Path} {σ : Settings} {fs : Fs} {s s' : State} {name : Nat} (hr : Reachable paths σ fs s)
    (h : s.thread = .exited ∨ Full s name ∧ Eager name s.thread) (hl : Leads paths (Shut paths name) s s') :
    Reachable paths σ fs s' ∧ (s'.thread = .exited ∨ Full s' name ∧ Eager name s'.thread) := by
  induction hl with
  | refl => exact ⟨hr, h⟩
  | step ev _ hok hs ih => exact ⟨.step ev ih.1 hs, eager_step (base ih.1) hs hok ih.2⟩

/-- The logging thread looks for files to write, and has not begun to write one. -/
def Looking : Phase → Prop
  | .checking w => w = false
  | .scanning _ _ => True
  | .opening _ _ => True
  | .returning _ _ => True
  | _ => False

theorem prepare_fails {σ : Settings} {io : Io} {p : Path} {f : LogFile} {fs : Fs} (h : io.opening = true) :
    (prepare σ io p f fs).2.2 = none := by
  unfold prepare openFile
  rw [h]
  simp only [true_or, if_true]
  split
  · rfl
  · split <;> rfl

/-- The logging thread goes on if no file can be opened and nobody owns the mutex. -/
theorem looking_step {paths : Nat → Path} {s : State} {name : Nat} (hb : Base s) (hc : s.crashed = false)
    (hi : s.isLogging = true) (ho : s.owner = .free ∨ s.owner = .logging) (hk : Looking s.thread)
    (h : Full s name ∧ Eager name s.thread) :
    ∃ s', step paths s (.thread { opening := true }) = some s' ∧ s'.crashed = false ∧ s'.isLogging = true ∧
      (s'.owner = .free ∨ s'.owner = .logging) ∧ Looking s'.thread := by
  unfold step
  rw [hc]
  simp only [Bool.false_eq_true, if_false]
  unfold threadStep
  cases ht : s.thread with
  | checking w =>
    rw [ht] at hk
    cases hk
    simp only [hi, if_true, Bool.false_eq_true, if_false]
    exact ⟨_, rfl, hc, rfl, ho, trivial⟩
  | scanning last w =>
    simp only
    cases hn : next s.files last with
    | none =>
      simp only
      refine ⟨_, rfl, hc, hi, ho, ?_⟩
      rw [ht] at h
      cases w with
      | false => rfl
      | true =>
        obtain ⟨f₀, hf₀, -⟩ := full_find h.1
        exact absurd (h.2 rfl) (next_none hn hf₀)
    | some x =>
      obtain ⟨m, f⟩ := x
      simp only
      split
      · exact ⟨_, rfl, hc, hi, .inl rfl, trivial⟩
      · exact ⟨_, rfl, hc, hi, ho, trivial⟩
  | opening m todo =>
    simp only
    have hp := prepare_fails (σ := s.settings) (io := { opening := true }) (p := paths m)
      (f := (find s.files m).getD {}) (fs := s.fs) rfl
    rcases hx : prepare s.settings { opening := true } (paths m) ((find s.files m).getD {}) s.fs with ⟨f, fs, l⟩
    rw [hx] at hp
    cases hp
    exact ⟨_, rfl, hc, hi, ho, trivial⟩
  | returning m done =>
    simp only
    have : s.owner = .free := by
      rcases ho with ho | ho
      · exact ho
      · have := hb.owner.1 ho
        rw [ht] at this
        cases this
    rw [if_pos this]
    exact ⟨_, rfl, hc, hi, .inr rfl, trivial⟩
  | _ => rw [ht] at hk; exact hk.elim

end Pluto.Log
