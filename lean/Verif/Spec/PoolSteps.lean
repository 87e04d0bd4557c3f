import Verif.Model.PoolSteps

/-! # A thread pool whose functions take effect one at a time: specification -/

namespace Pluto.Spec.PoolSteps
open Pluto.PoolSteps (Getter Result Item isOutside)
open Pluto.Pool (Event)

/-- What a function without an effect returns. -/
def value (s : Pool.State) : Getter → Result
  | .workersSize => .size (Pool.workersSize s)
  | .targetWorkersSize => .size (Pool.targetWorkersSize s)
  | .activeWorkersSize => .size (Pool.activeWorkersSize s)
  | .waitingWorkersSize => .size (Pool.waitingWorkersSize s)
  | .tasksSize => .size (Pool.tasksSize s)
  | .activeTasksSize => .size (Pool.activeWorkersSize s)
  | .waitingTasksSize => .size (Pool.waitingTasksSize s)
  | .scheduledTasksSize => .size (Pool.scheduledTasksSize s)
  | .onStop => .action s.onStop

/-- A critical section, without which worker is woken in it. -/
def canon : Event → Event
  | .scheduler i _ => .scheduler i none
  | ev => ev

/-- `s` can be reached if each critical section is executed at once and they are executed in this order, with these
results. (`run_after` counts as a call of `run_at`.) -/
inductive Explains (n : Nat) : List Item → Pool.State → Prop where
  | init : Explains n [] (Pool.init n)
  | outside {l : List Item} {s s' : Pool.State} (ev : Event) : Explains n l s → isOutside ev = true →
      Pool.step s ev = some s' → Explains n l s'
  | section' {l : List Item} {s s' : Pool.State} (ev : Event) : Explains n l s → isOutside ev = false →
      (∀ d p c, ev ≠ .runAfter d p c) → Pool.step s ev = some s' → Explains n (l ++ [.event (canon ev)]) s'
  | get {l : List Item} {s : Pool.State} (g : Getter) (c : Option Nat) : Explains n l s → s.crash = none →
      Pool.canCall s c = true → Explains n (l ++ [.got g (value s g)]) s

end Pluto.Spec.PoolSteps
