import Verif.Proofs.LogEnd

/-! # The logger: waking the logging thread -/

namespace Pluto.Log
open Pluto.Spec.Log

/-- What the phase of the logging thread says about the buffers. -/
def Alert (s : State) : Phase → Prop
  | .checking true => ∀ n, ¬ Full s n
  | .drowsy => ∀ n, ¬ Full s n
  | .scanning last true => ∀ n, ¬ Beyond last n → ¬ Full s n
  | .asleep => (∃ n, Full s n) →
    s.notifying ≠ [] ∨ 0 < s.setters ∨
      ∃ tid m, s.owner = .producer tid m ∧ s.settings.bufferFlushSize ≤ (buffered s m).length
  | _ => True

theorem wake_ne_asleep (p : Phase) : wake p ≠ .asleep := by cases p <;> simp [wake]

theorem alert_congr {s s' : State} {p : Phase} (h : Alert s p) (hp : p ≠ .asleep)
    (hf : ∀ n, Full s' n → Full s n) : Alert s' p := by
  cases p with
  | checking w =>
    cases w with
    | true => exact fun n hn => h n (hf n hn)
    | false => trivial
  | drowsy => exact fun n hn => h n (hf n hn)
  | scanning last w =>
    cases w with
    | true => exact fun n hb hn => h n hb (hf n hn)
    | false => trivial
  | asleep => exact absurd rfl hp
  | _ => trivial

theorem alert_wake {s s' : State} {p : Phase} (h : Alert s p) (hf : ∀ n, Full s' n → Full s n) :
    Alert s' (wake p) := by
  by_cases hp : p = .asleep
  · subst hp; trivial
  · have : wake p = p := by cases p <;> first | rfl | exact absurd rfl hp
    rw [this]
    exact alert_congr h hp hf

/-- Putting an entry into a buffer, when nobody owns the mutex. -/
theorem alert_enter {s s' : State} {i : Nat} {r : Request} (hb : Base s) (h : Alert s s.thread)
    (ho : s.owner = .free)
    (hs' : s' = { addLog s r with calls := s.calls.eraseIdx i }) : Alert s' s'.thread := by
  have hnh : holds s.thread = false := by
    cases hh : holds s.thread with
    | false => rfl
    | true => rw [hb.owner.2 hh] at ho; cases ho
  have ht : s'.thread = s.thread := by
    rw [hs']; rcases addLog_cases s r with ⟨heq, -⟩ | ⟨heq, -⟩ <;> rw [heq]
  have hσ : s'.settings = s.settings := by
    rw [hs']; rcases addLog_cases s r with ⟨heq, -⟩ | ⟨heq, -⟩ <;> rw [heq]
  have hno : s'.notifying = s.notifying := by
    rw [hs']; rcases addLog_cases s r with ⟨heq, -⟩ | ⟨heq, -⟩ <;> rw [heq]
  have hse : s'.setters = s.setters := by
    rw [hs']; rcases addLog_cases s r with ⟨heq, -⟩ | ⟨heq, -⟩ <;> rw [heq]
  rw [ht]
  cases hp : s.thread with
  | checking w => rw [hp] at hnh; cases hnh
  | drowsy => rw [hp] at hnh; cases hnh
  | scanning last w => rw [hp] at hnh; cases hnh
  | asleep =>
    rw [hp] at h
    rintro ⟨n, hn⟩
    by_cases hfull : ∃ n, Full s n
    · rcases h hfull with h1 | h1 | ⟨tid, m, h1, -⟩
      · left; rw [hno]; exact h1
      · right; left; rw [hse]; exact h1
      · rw [ho] at h1; cases h1
    · have hother : ∀ m, m ≠ r.name → buffered s' m = buffered s m := by
        intro m hm
        rw [hs']
        rcases addLog_cases s r with ⟨heq, -⟩ | ⟨heq, -⟩ <;> rw [heq] <;> unfold buffered <;> simp only
        · rw [find_update, addLog_files, if_neg hm, if_neg hm]
        · rw [addLog_files, if_neg hm]
      by_cases hnr : n = r.name
      · subst hnr
        rcases addLog_cases s r with ⟨heq, -⟩ | ⟨heq, -⟩
        · right; right
          refine ⟨r.entry.tid, r.name, ?_, hn.2⟩
          rw [hs', heq]
        · exfalso
          refine hfull ⟨r.name, ?_⟩
          have : buffered s' r.name = buffered s r.name := by
            rw [hs', heq]
            unfold buffered
            simp only
            rw [addLog_files, if_pos rfl]
            rfl
          unfold Full at hn ⊢
          rw [this, hσ] at hn
          exact hn
      · exfalso
        refine hfull ⟨n, ?_⟩
        unfold Full at hn ⊢
        rw [hother n hnr, hσ] at hn
        exact hn
  | _ => trivial

theorem alert {paths : Nat → Path} {σ : Settings} {fs : Fs} {s : State}
    (h : ReachableBy paths KeepFlush σ fs s) : Alert s s.thread := by
  induction h with
  | init => trivial
  | @step s s' ev hr hok hs ih =>
    have hb := base (reachable_of_by hr)
    have hfull : ∀ {s' : State}, s'.files = s.files →
        s'.settings.bufferFlushSize = s.settings.bufferFlushSize → ∀ n, Full s' n → Full s n := by
      intro s' h1 h2 n hn
      unfold Full buffered at hn ⊢
      rw [h1, h2] at hn
      exact hn
    have hsame : ∀ {s' : State}, s'.files = s.files →
        s'.settings.bufferFlushSize = s.settings.bufferFlushSize → s'.thread = s.thread →
        s'.notifying = s.notifying → s'.setters = s.setters → s'.owner = s.owner → Alert s' s'.thread := by
      intro s' h1 h2 h3 h4 h4' h5
      rw [h3]
      by_cases ha : s.thread = .asleep
      · rw [ha] at ih ⊢
        rintro ⟨n, hn⟩
        rcases ih ⟨n, hfull h1 h2 n hn⟩ with h | h | ⟨tid, m, h, h'⟩
        · left; rw [h4]; exact h
        · right; left; rw [h4']; exact h
        · refine .inr <| .inr ⟨tid, m, h5.trans h, ?_⟩
          unfold buffered at h' ⊢
          rw [h1, h2]
          exact h'
      · exact alert_congr ih ha (hfull h1 h2)
    replace hs := (step_cases hs).2
    cases hs with
    | call tid name time level message hs hc hn ho hl => exact hsame rfl rfl rfl rfl rfl rfl
    | callFiltered tid name time level message hs hl => exact ih
    | enter i r hi ho => exact alert_enter (i := i) (r := r) hb ih ho rfl
    | leaveNotify tid name ho hf =>
      by_cases ha : s.thread = .asleep
      · show Alert _ s.thread
        rw [ha]
        intro _
        left
        simp
      · exact alert_congr ih ha (hfull rfl rfl)
    | leave tid name ho hf =>
      by_cases ha : s.thread = .asleep
      · show Alert _ s.thread
        rw [ha] at ih ⊢
        rintro ⟨n, hn⟩
        rcases ih ⟨n, hfull rfl rfl n hn⟩ with h | h | ⟨tid', m, h, h'⟩
        · exact .inl h
        · exact .inr (.inl h)
        · rw [ho] at h
          cases h
          exfalso
          refine hf ?_
          unfold buffered at h'
          simpa using h'
      · exact alert_congr ih ha (hfull rfl rfl)
    | notify i hi => exact alert_wake ih (hfull rfl rfl)
    | setFlush x hs =>
      by_cases ha : s.thread = .asleep
      · show Alert _ s.thread
        rw [ha]
        exact fun _ => .inr (.inl (Nat.succ_pos _))
      · rcases hok with hle | hno
        · refine alert_congr ih ha fun n hn => ?_
          exact ⟨hn.1, Nat.le_trans hle hn.2⟩
        · have hnh : holds s.thread = false := by
            cases hh : holds s.thread with
            | false => rfl
            | true => exact absurd (hb.owner.2 hh) hno
          show Alert _ s.thread
          cases hp : s.thread with
          | asleep => exact absurd hp ha
          | checking w => rw [hp] at hnh; cases hnh
          | drowsy => rw [hp] at hnh; cases hnh
          | scanning last w => rw [hp] at hnh; cases hnh
          | _ => trivial
    | set x hs hx =>
      refine hsame rfl ?_ rfl rfl rfl rfl
      cases x with
      | bufferFlushSize n => exact absurd rfl (hx n)
      | _ => rfl
    | setNotify hs => exact alert_wake ih (hfull rfl rfl)
    | reset hs => exact hsame rfl rfl rfl rfl rfl rfl
    | starting io ht ho => trivial
    | checkWait io ht hl =>
      rw [ht] at ih
      exact alert_congr (p := .drowsy) (s := s) ih (by simp) (hfull rfl rfl)
    | checkScan io ht hl => exact fun n hn => absurd trivial hn
    | checkExit io w ht hl => trivial
    | drowse io ht =>
      rw [ht] at ih
      rintro ⟨n, hn⟩
      exact absurd (hfull rfl rfl n hn) (ih n)
    | woken io ht ho => trivial
    | scanEnd io last w ht hn =>
      cases w with
      | false => trivial
      | true =>
        rw [ht] at ih
        intro n hf
        have hf' : Full s n := hfull rfl rfl n hf
        cases hfn : find s.files n with
        | none => exact hf'.1 (by unfold buffered; rw [hfn]; rfl)
        | some g => exact ih n (next_none hn hfn) hf'
    | scanFull io last w name f ht hn hbuf hf => trivial
    | scanSkip io last w name f ht hn hf =>
      cases w with
      | false => trivial
      | true =>
        rw [ht] at ih
        intro n hle hfn
        have hfn' : Full s n := hfull rfl rfl n hfn
        obtain ⟨h1, h2, h3⟩ := next_some hb.sorted hn
        cases hg : find s.files n with
        | none => exact hfn'.1 (by unfold buffered; rw [hg]; rfl)
        | some g =>
          by_cases hbey : Beyond last n
          · have := h3 n g hg hbey
            simp only [Beyond, Nat.not_lt] at hle
            have : n = name := by omega
            subst this
            refine hf ?_
            unfold Full buffered at hfn'
            simp only [h1, Option.getD_some, List.length_reverse] at hfn'
            exact ⟨by simpa using hfn'.1, hfn'.2⟩
          · exact ih n hbey hfn'
    | openOk io name todo f fs l ht hp => trivial
    | openFail io name todo f fs ht hp => trivial
    | writeDone io name p l done ht => trivial
    | writeNext io name p l e todo done fs l' whole ht hw => trivial
    | writeBefore io name p l e todo done fs ht hw => trivial
    | writeAfter io name p l e todo done fs ht hw => trivial
    | writeCrash io name p l e todo done ht hw => exact hsame rfl rfl rfl rfl rfl rfl
    | erase io name done ht ho => trivial
    | spurious ht => trivial
    | stop hs hc hn hset ho => exact hsame rfl rfl rfl rfl rfl rfl
    | stopNotify hs => exact alert_wake ih (hfull rfl rfl)
    | join hs ht => exact hsame rfl rfl rfl rfl rfl rfl
    | flush io ios last name f hs hn =>
      obtain ⟨-, -, -, -, -, -, -, -, h3, -, -, -⟩ := flushFile_same paths s io ios name f
      rw [h3]
      rcases hb.ended with ⟨h, -⟩ | h
      · exact absurd hs (h last)
      · rw [h]; trivial
    | finish last hs hn => exact hsame rfl rfl rfl rfl rfl rfl

end Pluto.Log
