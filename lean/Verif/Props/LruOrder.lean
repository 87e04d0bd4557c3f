import Verif.Proofs.LruOrder

/-!
# A cache whose keys are only compared (C114)
-/

namespace Pluto.Props
open Pluto.LruOrder Pluto.Lru Pluto.Spec.Lru

variable {K V Q : Type} {less : K → K → Bool}

/-- C114: whatever strict weak order `<` is, a `lru_cache` has no undefined behaviour and returns what a bounded recency list
of classes of keys returns. -/
theorem C114_classes (hw : StrictWeak less) [DecidableEq Q] {cls : K → Q} (hc : Classes less cls) (n : Nat)
    (cs : List (Call K V)) : (LruOrder.calls less cs (init n)).map (·.2) =
      some (({ capacity := n, items := [] } : Cache Q V).steps (cs.map (·.rename cls))).2 := by
  obtain ⟨s, T, h, -⟩ := LruOrder.steps_sim hw hc (LruOrder.rel_init (less := less) (V := V) n) cs
  rw [h]
  rfl

/-- Numbers of which only the tens are compared. -/
def byTens (a b : Nat) : Bool := decide (a / 10 < b / 10)

/-- `byTens` is such an order; 21 and 25 are one key, 21 is evicted when 13 has been used again. -/
example : StrictWeak byTens ∧ Classes byTens (· / 10) ∧
    (LruOrder.calls byTens [.insert 13 1, .insert 21 2, .insert 25 3, .get 29, .insertOrAssign 17 4, .insert 30 5, .get 21,
      .get 13, .size] (init 2)).map (·.2) =
      some [.bool true, .bool true, .bool false, .value (some 2), .bool false, .bool true, .value none, .value (some 4),
        .nat 2] := by
  refine ⟨⟨?_, ?_, ?_⟩, ?_, by decide⟩
  · intro a; simp [byTens]
  · intro a b c; simp only [byTens, decide_eq_true_eq]; omega
  · intro a b c; simp only [byTens, decide_eq_false_iff_not]; omega
  · intro a b; simp only [byTens, decide_eq_false_iff_not]; omega

/-- C114: every strict weak order has such classes. -/
theorem C114_exist (hw : StrictWeak less) : ∃ (Q : Type) (cls : K → Q), Classes less cls := by
  let r : Setoid K :=
    { r := fun a b => less a b = false ∧ less b a = false
      iseqv :=
        { refl := fun a => ⟨hw.irrefl a, hw.irrefl a⟩
          symm := fun h => ⟨h.2, h.1⟩
          trans := fun h1 h2 => hw.incomparable _ _ _ h1.1 h1.2 h2.1 h2.2 } }
  refine ⟨Quotient r, fun a => Quotient.mk r a, fun a b => ?_⟩
  constructor
  · intro h; exact Quotient.exact h
  · intro h; exact Quotient.sound h

/-- C114: no call can tell apart keys that `<` does not tell apart: calls of which some are given other such keys return the
same. -/
theorem C114_alike (hw : StrictWeak less) (n : Nat) {cs ds : List (Call K V)} (h : List.Forall₂ (Alike less) cs ds) :
    (LruOrder.calls less cs (init n)).map (·.2) = (LruOrder.calls less ds (init n)).map (·.2) := by
  obtain ⟨Q, cls, hc⟩ := C114_exist hw
  have : DecidableEq Q := Classical.decEq Q
  rw [C114_classes hw hc, C114_classes hw hc]
  congr 3
  induction h with
  | nil => rfl
  | cons h _ ih =>
    simp only [List.map_cons, ih]
    congr 1
    cases h with
    | same => rfl
    | contains h1 h2 => simp only [Call.rename, (hc _ _).2 ⟨h1, h2⟩]
    | insert v h1 h2 => simp only [Call.rename, (hc _ _).2 ⟨h1, h2⟩]
    | insertOrAssign v h1 h2 => simp only [Call.rename, (hc _ _).2 ⟨h1, h2⟩]
    | get h1 h2 => simp only [Call.rename, (hc _ _).2 ⟨h1, h2⟩]
    | remove h1 h2 => simp only [Call.rename, (hc _ _).2 ⟨h1, h2⟩]

example : List.Forall₂ (Alike byTens) [.insert 13 1, .get 17, (.size : Call Nat Nat)] [.insert 19 1, .get 10, .size] :=
  .cons (.insert 1 (by decide) (by decide)) (.cons (.get (by decide) (by decide)) (.cons (.same _) .nil))

/-- Floating-point numbers that are whole, and NaN (`none`), which is neither less nor greater than anything. -/
def floatLess : Option Int → Option Int → Bool
  | some a, some b => decide (a < b)
  | _, _ => false

/-- C114 needs the order: with floating-point keys, a cache in which NaN was stored first returns its value for every key and
accepts no other one. -/
theorem C114_nan (n : Nat) (k : Option Int) (v w : V) :
    ¬ StrictWeak floatLess ∧
    (LruOrder.calls floatLess [.insert none v, .get k, .insert k w, .size] (init (n + 1))).map (·.2) =
      some [.bool true, .value (some v), .bool false, .nat 1] := by
  refine ⟨fun h => ?_, ?_⟩
  · have := h.incomparable (some 0) none (some 1) rfl rfl rfl rfl
    exact absurd this.1 (by decide)
  · cases k <;> rfl

end Pluto.Props
