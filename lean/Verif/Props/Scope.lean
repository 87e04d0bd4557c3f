import Verif.Model.Scope

/-! # Properties of the scope guards (C36, C37) -/

namespace Pluto.Props

open Scope

/-! ## C36: tasks run once each, in reverse order -/

private theorem destroyLoop_spec (b : Behaviour) (hadd : ∀ t calls, (b t calls).adds = [])
    (stack : List (Option Task)) (fuel : Nat) (hf : stack.length ≤ fuel) (calls : List Task) :
    destroyLoop b fuel stack calls = .returned (calls ++ stack.filterMap id) := by
  induction stack generalizing fuel calls with
  | nil => cases fuel <;> simp [destroyLoop]
  | cons task rest ih =>
    obtain ⟨f, rfl⟩ : ∃ f, fuel = f + 1 := ⟨fuel - 1, by simp at hf; omega⟩
    have hf' : rest.length ≤ f := by simpa using hf
    cases task with
    | none => rw [destroyLoop]; simpa using ih f hf' calls
    | some t =>
      rw [destroyLoop]
      simp only [hadd, List.foldl_nil, List.tail_cons, tryCatchAll, Bool.false_eq_true, if_false]
      rw [ih f hf']
      simp

/-- C36, partial: if no task adds tasks to the guard that is being destroyed, a guard that
is to run calls every non-empty task exactly once, last added first, whichever of them
throw, and no exception leaves it.  What is missing is tasks that add tasks: see
`C36_adding` and `C36_adding_forever`. -/
theorem C36_each_once_reversed_partial (b : Behaviour)
    (hadd : ∀ t calls, (b t calls).adds = []) (k : Kind) (uncaught : Nat)
    (hruns : runs uncaught k = true) (added : List (Option Task)) (fuel : Nat)
    (hf : added.length ≤ fuel) :
    destroy b fuel k uncaught (added.foldl add []) = .returned (added.filterMap id).reverse := by
  have hst : ∀ (acc : List (Option Task)), added.foldl add acc = added.reverse ++ acc := by
    induction added with
    | nil => simp
    | cons a l ih =>
      intro acc
      rw [List.foldl_cons, ih (by simp at hf; omega)]
      simp [add]
  unfold destroy
  rw [if_pos hruns, hst, List.append_nil, destroyLoop_spec b hadd _ _ (by simpa using hf),
    List.nil_append, List.filterMap_reverse]

theorem foldl_add (adds stack : List (Option Task)) : adds.foldl add stack = adds.reverse ++ stack := by
  induction adds generalizing stack with
  | nil => rfl
  | cons a l ih => rw [List.foldl_cons, ih]; simp [add]

/-- What is on the stack of a guard when its destructor takes the top is called before it is removed, except what the
task called last has added. -/
theorem destroyLoop_sublist (b : Behaviour) (fuel : Nat) (stack : List (Option Task)) (calls calls' : List Task)
    (h : destroyLoop b fuel stack calls = .returned calls') :
    ∃ more, calls' = calls ++ more ∧ (stack.filterMap id).Sublist more := by
  induction fuel generalizing stack calls with
  | zero =>
    cases stack with
    | nil => cases h; exact ⟨[], by simp, .slnil⟩
    | cons task rest => cases h
  | succ fuel ih =>
    cases stack with
    | nil => cases h; exact ⟨[], by simp, .slnil⟩
    | cons task rest =>
      cases task with
      | none => rw [destroyLoop] at h; simpa using ih rest calls h
      | some t =>
        rw [destroyLoop] at h
        simp only [tryCatchAll, Bool.false_eq_true, if_false, foldl_add] at h
        obtain ⟨more, h1, h2⟩ := ih _ _ h
        refine ⟨t :: more, by simp [h1], ?_⟩
        have h3 : (rest.filterMap id).Sublist more := by
          refine List.Sublist.trans ?_ h2
          cases hr : (b t calls).adds.reverse with
          | nil => exact List.Sublist.refl _
          | cons a l =>
            simp only [List.cons_append, List.tail_cons, List.filterMap_append, List.filterMap_cons, id]
            exact (List.sublist_cons_self _ _).trans (List.sublist_append_right _ _)
        exact h3.cons_cons t

/-- C36, partial: whatever the tasks do, when the destructor of a guard that is to run has returned, every non-empty task
that was added before has been called, the last added first. -/
theorem C36_at_least_once_partial (b : Behaviour) (k : Kind) (uncaught : Nat) (hruns : runs uncaught k = true)
    (added : List (Option Task)) (fuel : Nat) (calls : List Task)
    (h : destroy b fuel k uncaught (added.foldl add []) = .returned calls) :
    (added.filterMap id).reverse.Sublist calls := by
  unfold destroy at h
  rw [if_pos hruns, foldl_add, List.append_nil] at h
  obtain ⟨more, rfl, h2⟩ := destroyLoop_sublist b fuel _ _ _ h
  rw [← List.filterMap_reverse]
  exact h2

/-- How many tasks the calls `more` add, when they follow the calls `calls`. -/
def addsDuring (b : Behaviour) (calls : List Task) : List Task → Nat
  | [] => 0
  | t :: more => (b t calls).adds.length + addsDuring b (calls ++ [t]) more

theorem destroyLoop_length (b : Behaviour) (hb : ∀ t calls, none ∉ (b t calls).adds) (fuel : Nat)
    (stack : List (Option Task)) (hs : none ∉ stack) (calls calls' : List Task)
    (h : destroyLoop b fuel stack calls = .returned calls') :
    ∃ more, calls' = calls ++ more ∧ more.length = stack.length + addsDuring b calls more := by
  induction fuel generalizing stack calls with
  | zero =>
    cases stack with
    | nil => cases h; exact ⟨[], by simp, rfl⟩
    | cons task rest => cases h
  | succ fuel ih =>
    cases stack with
    | nil => cases h; exact ⟨[], by simp, rfl⟩
    | cons task rest =>
      cases task with
      | none => exact absurd List.mem_cons_self hs
      | some t =>
        rw [destroyLoop] at h
        simp only [tryCatchAll, Bool.false_eq_true, if_false, foldl_add] at h
        obtain ⟨more, h1, h2⟩ := ih _ (by
          intro hm
          have := List.mem_of_mem_tail hm
          rw [List.mem_append, List.mem_reverse] at this
          exact this.elim (hb t calls) hs) _ h
        refine ⟨t :: more, by simp [h1], ?_⟩
        simp only [List.length_tail, List.length_append, List.length_reverse, List.length_cons] at h2 ⊢
        rw [addsDuring]
        omega

/-- C36, partial: there are as many calls as tasks were added, before and while the guard is destroyed (so that a task
which is never called is made up for by one that is called again). -/
theorem C36_as_many_partial (b : Behaviour) (hb : ∀ t calls, none ∉ (b t calls).adds) (k : Kind) (uncaught : Nat)
    (hruns : runs uncaught k = true) (added : List (Option Task)) (hs : none ∉ added) (fuel : Nat) (calls : List Task)
    (h : destroy b fuel k uncaught (added.foldl add []) = .returned calls) :
    calls.length = added.length + addsDuring b [] calls := by
  unfold destroy at h
  rw [if_pos hruns, foldl_add, List.append_nil] at h
  obtain ⟨more, rfl, h2⟩ := destroyLoop_length b hb fuel _ (by simpa using hs) _ _ h
  simpa using h2

example : destroy (fun t calls => if t = 7 ∧ calls = [] then { adds := [some 8, some 9] } else {}) 10 .exit 0
    ([some 1, some 7].foldl add []) = .returned [7, 8, 7, 1] := by decide

/-- C36.  A guard that is not to run calls nothing. -/
theorem C36_not_run (b : Behaviour) (k : Kind) (uncaught : Nat) (hruns : runs uncaught k = false)
    (stack : List (Option Task)) (fuel : Nat) : destroy b fuel k uncaught stack = .returned [] := by
  unfold destroy
  rw [hruns]; rfl

/-- C36 fails for tasks that add tasks: a task that adds another one when it is called
first is called twice, and the task it added is never called. -/
theorem C36_adding :
    destroy (fun t calls => if t = 7 ∧ calls = [] then { adds := [some 8] } else {}) 10 .exit 0
      [some 7] = .returned [7, 7] := by decide

/-- C36 fails: if a task adds one whenever it is called, the destructor never returns. -/
theorem C36_adding_forever (fuel : Nat) :
    ∃ calls, destroy (fun _ _ => { adds := [some 8] }) fuel .exit 0 [some 7] = .running calls := by
  have : ∀ (fuel : Nat) (calls : List Task), ∃ calls',
      destroyLoop (fun _ _ => { adds := [some 8] }) fuel [some 7] calls = .running calls' := by
    intro fuel
    induction fuel with
    | zero => intro calls; exact ⟨calls, rfl⟩
    | succ n ih => intro calls; exact ih (calls ++ [7])
  exact this fuel []

example : destroy (fun t _ => { throws := t == 2 }) 4 .exit 0
    ([some 1, none, some 2, some 3].foldl add []) = .returned [3, 2, 1] := by decide

/-! ## C37: success and failure -/

/-- C37.  Of a success guard and a fail guard destroyed together exactly one runs. -/
theorem C37_exactly_one (uncaught : Nat) : runs uncaught .success = !runs uncaught .fail := by
  simp [runs, bne]

/-- C37.  In programs: for a scope with a success and a fail guard, in every context and
for every body, exactly one of the two tasks is executed, after the body: the fail task
exactly if an exception is uncaught when the scope is left. -/
theorem C37_exactly_one_runs (uncaught : Nat) (onSuccess onFail : Nat) (body : Prog) :
    let r := exec uncaught (.scope .success (.emit onSuccess) (.scope .fail (.emit onFail) body))
    let b := exec uncaught body
    r.thrown = b.thrown ∧
      r.actions = b.actions ++ [if uncaught = 0 ∧ b.thrown = false then onSuccess else onFail] := by
  rcases hr : exec uncaught body with ⟨acts, thrown⟩
  cases thrown
  · by_cases hu : uncaught = 0
    · subst hu; simp [exec, runs, tryCatchAll, hr]
    · simp [exec, runs, tryCatchAll, hr, hu]
  · simp [exec, runs, tryCatchAll, hr]

/-- C37, partial: in a scope that is entered while no exception is being handled by
unwinding, the success task runs exactly if the body is left normally and the fail task
exactly if it is left by an exception, whatever the body and the tasks are; the exit task
always runs.  What is missing is scopes entered during unwinding: see
`C37_during_unwinding`. -/
theorem C37_when_partial (task body : Prog) :
    let b := exec 0 body
    exec 0 (.scope .exit task body) =
        ⟨b.actions ++ (exec (if b.thrown then 1 else 0) task).actions, b.thrown⟩ ∧
      exec 0 (.scope .success task body) =
        ⟨b.actions ++ (if b.thrown then [] else (exec 0 task).actions), b.thrown⟩ ∧
      exec 0 (.scope .fail task body) =
        ⟨b.actions ++ (if b.thrown then (exec 1 task).actions else []), b.thrown⟩ := by
  simp only [exec, runs, tryCatchAll]
  generalize exec 0 body = r
  obtain ⟨acts, thrown⟩ := r
  cases thrown <;> simp

/-- C37 fails for a scope entered during unwinding, here in the task of an outer guard: it
is left normally, but its fail task runs and its success task does not. -/
theorem C37_during_unwinding :
    exec 0 (.scope .exit
        (.scope .success (.emit 1) (.scope .fail (.emit 2) (.emit 3))) .throw) =
      ⟨[3, 2], true⟩ ∧
    exec 0 (.scope .success (.emit 1) (.scope .fail (.emit 2) (.emit 3))) = ⟨[3, 1], false⟩ := by
  decide

/-- C37.  A scope that throws and catches inside is left normally: the exception is no
longer uncaught, so success runs. -/
theorem C37_caught (p q task : Prog) (hp : (exec 0 p).thrown = true)
    (hq : (exec 0 q).thrown = false) :
    (exec 0 (.scope .success task (.tryCatch p q))).actions =
      (exec 0 p).actions ++ (exec 0 q).actions ++ (exec 0 task).actions := by
  simp [exec, hp, hq, runs]

example : (exec 0 (.seq (.emit 1) .throw)).thrown = true ∧
    (exec 0 (.scope .fail (.emit 1) .skip)).thrown = false := by decide

end Pluto.Props
