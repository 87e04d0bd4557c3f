import Verif.Model.Together

/-!
# Programs that lock mutexes in order
-/

namespace Pluto.Together

/-- What is locked has at least rank `b`; while a mutex is owned, only mutexes of greater rank are locked. -/
def Ordered (rank : Mutex → Nat) : Nat → Code → Prop
  | _, .done => True
  | b, .own m _ inner rest => b ≤ rank m ∧ Ordered rank (rank m + 1) inner ∧ Ordered rank b rest

/-- While a mutex is owned, no function of the user locks another one. -/
def Plain : Code → Prop
  | .done => True
  | .own _ _ inner rest => inner = .done ∧ Plain rest

/-- Only mutexes of caches are shared. -/
def OnlyCachesShared : Code → Prop
  | .done => True
  | .own m sh inner rest => (sh = true → ∃ n, m = .cache n) ∧ OnlyCachesShared inner ∧ OnlyCachesShared rest

/-- The mutexes that a program locks itself, not while it owns another one. -/
def tops : Code → List Mutex
  | .done => []
  | .own m _ _ rest => m :: tops rest

/-- The pairs of mutexes of which a program locks the second one directly while it owns the first one. -/
def nested : Code → List (Mutex × Mutex)
  | .done => []
  | .own m _ inner rest => (tops inner).map (fun x => (m, x)) ++ nested inner ++ nested rest

/-- Some program locks `b` while it owns `a`. -/
def Before (cs : List Code) (a b : Mutex) : Prop := ∃ c ∈ cs, (a, b) ∈ nested c

/-- Every thread has done everything and owns nothing. -/
def Finished (s : List Thread) : Prop := ∀ t ∈ s, t.todo = [] ∧ t.held = []

/-- The number of actions that are left. -/
def left (s : List Thread) : Nat := (s.map fun t => t.todo.length).sum

/-- Some thread has not finished and none can go on. -/
def Deadlocked (s : List Thread) : Prop := ¬ Finished s ∧ ∀ i, step s i = .blocked

end Pluto.Together
