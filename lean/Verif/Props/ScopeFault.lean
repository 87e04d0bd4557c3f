import Verif.Proofs.ScopeFault

/-! # C157: guards in nested scopes, and when memory runs out -/

namespace Pluto.Props
open Pluto.ScopeFault Pluto.Spec.ScopeFault
open Pluto.Scope (Task Kind Behaviour)

/-- C157. Whatever a program does, whichever constructors and calls of `add` throw, every guard that is constructed calls the
tasks it took exactly once, the last one first, at the moment its scope is left, if they are due, and otherwise none; and the
program comes to its end. Missing: tasks that add tasks to their guard (C36), scopes entered by a task during unwinding (C37),
and tasks that are not taken, see `C157_fails`. -/
theorem C157_proper_partial (b : Behaviour) (hb : ∀ t calls, (b t calls).adds = []) (p : Prog) (hs : Scoped 0 p) :
    ∃ s thrown, exec b 0 p {} = some (s, thrown) ∧ s.guards = [] ∧
      ∀ e ∈ s.log, ∀ g, e.guard = some g → ∃ k, Proper g k s.log := by
  obtain ⟨s, th, x, h1, h2⟩ := exec_run b hb p (s := {}) ⟨by simp, by simp⟩ hs
  have hx : s.log = x := by simpa using h2.log
  refine ⟨s, th, h1, by simpa using h2.guards, ?_⟩
  intro e he g hg
  rw [hx] at he ⊢
  exact h2.new e he g hg (Nat.zero_le _)

theorem count_calls {g : Nat} {t : Task} (ts : List Task) : (ts.map (Ev.call g)).count (.call g t) = ts.count t := by
  induction ts with
  | nil => rfl
  | cons a ts ih => simp [List.count_cons, ih]

theorem count_taken {g : Nat} {t : Task} (l : List Ev) : ((taken g l).filterMap id).count t = l.count (.added g (some t)) := by
  unfold taken
  induction l with
  | nil => rfl
  | cons e l ih =>
    cases e with
    | added g' t' =>
      by_cases h : g' = g
      · subst h
        rcases t' with _ | t'
        · simpa using ih
        · simpa [List.count_cons] using ih
      · simpa [h] using ih
    | _ => simpa [List.count_cons] using ih

/-- C157. So every task that an `on_scope_exit` took is called as often as it was taken. -/
theorem C157_count_partial (b : Behaviour) (hb : ∀ t calls, (b t calls).adds = []) (p : Prog) (hs : Scoped 0 p) :
    ∃ s thrown, exec b 0 p {} = some (s, thrown) ∧ ∀ g t, Ev.entered g .exit ∈ s.log →
      s.log.count (.call g t) = s.log.count (.added g (some t)) := by
  obtain ⟨s, th, h1, -, h2⟩ := C157_proper_partial b hb p hs
  refine ⟨s, th, h1, fun g t hg => ?_⟩
  obtain ⟨k, before, during, after, thrown, e, h3, h4⟩ := h2 _ hg g rfl
  have hk : k = .exit := by
    rw [e] at hg
    simp only [List.mem_append, List.mem_cons, List.mem_map] at hg h3
    rcases hg with ((hg | hg | hg) | hg | ⟨t, _, hg⟩) | hg
    · exact (h3 _ (.inl hg) rfl).elim
    · cases hg; rfl
    · obtain ⟨t, ht⟩ := h4 _ hg rfl
      cases ht
    · cases hg
    · cases hg
    · exact (h3 _ (.inr hg) rfl).elim
  subst hk
  have z : ∀ l : List Ev, (∀ e ∈ l, e.guard ≠ some g) → ∀ e : Ev, e.guard = some g → l.count e = 0 := by
    intro l hl e he
    rw [List.count_eq_zero]
    exact fun hm => hl e hm he
  have zb := z before fun e he => h3 e (List.mem_append_left _ he)
  have za := z after fun e he => h3 e (List.mem_append_right _ he)
  have zd : during.count (.call g t) = 0 := by
    rw [List.count_eq_zero]
    intro hm
    obtain ⟨t', h⟩ := h4 _ hm rfl
    cases h
  have zc : ∀ ts : List Task, (ts.map (Ev.call g)).count (.added g (some t)) = 0 := by
    intro ts
    rw [List.count_eq_zero]
    simp
  rw [e, if_pos (show Due .exit thrown from .inl rfl)]
  simp only [List.count_append, List.count_cons, zb (.call g t) rfl, za (.call g t) rfl,
    zb (.added g (some t)) rfl, za (.added g (some t)) rfl, zd, zc, count_calls, List.count_reverse, count_taken]
  simp

/-- C157. If every task is added to the innermost guard, all `on_scope_exit`, tasks are called in the opposite order of that in
which they were taken, over all scopes. -/
theorem C157_lifo_partial (b : Behaviour) (hb : ∀ t calls, (b t calls).adds = []) (p : Prog) (hs : Scoped 0 p) (hi : Inner p) :
    ∃ s thrown, exec b 0 p {} = some (s, thrown) ∧ pending [] s.log = some [] := by
  obtain ⟨s, th, x, h1, h2⟩ := exec_run b hb p (s := {}) ⟨by simp, by simp⟩ hs
  have hx : s.log = x := by simpa using h2.log
  have hg : s.guards = [] := by simpa using h2.guards
  refine ⟨s, th, h1, ?_⟩
  have := exec_pending b hb p (s := {}) ⟨by simp, by simp⟩ hs hi h1 h2.log
  simpa [held, hg, hx] using this

/-- C157 fails for tasks that are not taken: if the constructor throws after the resource was acquired, the program goes on
without the scope, and its release is never called. -/
theorem C157_fails (b : Behaviour) (u : Nat) (k : Kind) (a : Nat) (t : Task) (body : Prog) :
    exec b u (.seq (.emit a) (.scope k true (some (some t)) body)) {} =
      some ({ log := [.act a, .refused (some t)] }, true) := rfl

/-- C157 fails for `add` as well. -/
theorem C157_fails_add (b : Behaviour) (k : Kind) (a : Nat) (t : Task) (body : Prog) :
    ∃ s, exec b 0 (.scope k false none (.seq (.emit a) (.seq (.add 0 (some t) true) body))) {} = some (s, true) ∧
      s.log = [.entered 0 k, .act a, .refused (some t), .left 0 true] := by
  cases k <;> exact ⟨_, rfl, rfl⟩

/-- C157. If the release is added before the resource is acquired, then it is called after it, if the resource is acquired. -/
theorem C157_first_partial (b : Behaviour) (hb : ∀ t calls, (b t calls).adds = []) (t : Task) (a : Nat) (f f' : Bool)
    (body : Prog) (hs : Scoped 1 body) :
    ∃ s thrown, exec b 0 (.scope .exit f none (.seq (.add 0 (some t) f') (.seq (.emit a) body))) {} = some (s, thrown) ∧
      (Ev.act a ∈ s.log → ∃ g pre post, s.log = pre ++ Ev.call g t :: post ∧ Ev.act a ∈ pre) := by
  cases f with
  | true => exact ⟨_, _, rfl, by simp⟩
  | false =>
    cases f' with
    | true => exact ⟨_, _, rfl, by simp⟩
    | false =>
      let s₁ : St := { guards := [{ id := 0, kind := .exit, stack := [some t] }], next := 1,
                       log := [.entered 0 .exit, .added 0 (some t), .act a] }
      obtain ⟨s₂, th, y, h1, h2⟩ := exec_run b hb body (s := s₁) ⟨by simp [s₁], by simp [s₁]⟩ hs
      have hg : s₂.guards = [{ id := 0, kind := .exit, stack := (taken 0 y).reverse ++ [some t] }] := by
        simpa [s₁] using h2.guards
      have hl : s₂.log = [.entered 0 .exit, .added 0 (some t), .act a] ++ y := h2.log
      have hcl : close b 0 s₂ th = some { guards := [], next := s₂.next, log := s₂.log ++ Ev.left 0 th ::
          (((taken 0 y).reverse ++ [some t]).filterMap id).map (Ev.call 0) } := by
        unfold close
        rw [hg]
        simp only [destroy_due b hb, if_pos (show Due .exit th from .inl rfl)]
      have he : exec b 0 (.scope .exit false none (.seq (.add 0 (some t) false) (.seq (.emit a) body))) {} =
          (match exec b 0 body s₁ with
            | none => none
            | some (s₂, thrown) => (close b 0 s₂ thrown).map fun s₃ => (s₃, thrown)) := rfl
      simp only [h1, hcl, Option.map_some] at he
      refine ⟨_, th, he, fun _ => ?_⟩
      refine ⟨0, s₂.log ++ Ev.left 0 th :: (((taken 0 y).reverse).filterMap id).map (Ev.call 0), [], by simp, ?_⟩
      rw [hl]
      simp

/-! ## Cases -/

/-- Two scopes; the inner one is left because `add` throws, and the outer one goes on. -/
def nested : Prog :=
  .scope .exit false (some (some 1)) (.seq (.emit 10)
    (.seq (.tryCatch (.scope .exit false none (.seq (.add 0 (some 2) false) (.seq (.add 0 (some 3) false)
      (.add 0 (some 4) true)))) (.emit 20)) (.add 0 (some 5) false)))

example : Scoped 0 nested ∧ Inner nested := by simp [nested, Scoped, Inner]

example : (exec (fun _ _ => { throws := true }) 0 nested {}).map (·.1.log) =
    some [.entered 0 .exit, .added 0 (some 1), .act 10, .entered 1 .exit, .added 1 (some 2), .added 1 (some 3),
      .refused (some 4), .left 1 true, .call 1 3, .call 1 2, .act 20, .added 0 (some 5), .left 0 false, .call 0 5,
      .call 0 1] := by decide

/-- Tasks of an outer guard are not called in the opposite order of all tasks. -/
example : (exec (fun _ _ => {}) 0 (.scope .exit false none (.scope .exit false none (.seq (.add 0 (some 1) false)
    (.add 1 (some 2) false)))) {}).map (fun r => pending [] r.1.log) = some none := by decide

end Pluto.Props
