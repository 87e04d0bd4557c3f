import Verif.Model.LogMacro

/-!
# Lemmas about the logging macros
-/

namespace Pluto.LogMacro
open Pluto.LogText

theorem evaluate_some {α : Type} (vs : List α) : evaluate (vs.map some) = (vs.length, some vs) := by
  induction vs with
  | nil => rfl
  | cons v vs ih => simp [evaluate, ih]

theorem evaluate_none {α : Type} (vs : List α) (rest : List (Option α)) :
    evaluate (vs.map some ++ none :: rest) = (vs.length + 1, none) := by
  induction vs with
  | nil => rfl
  | cons v vs ih => simp [evaluate, ih]

theorem insertAll_some (ts : List (List Char)) (s : Streamer) (hs : s.good = true) :
    insertAll s (ts.map some) = (ts.length, { s with text := s.text ++ ts.flatten }, false) := by
  induction ts generalizing s with
  | nil => simp [insertAll]
  | cons t ts ih =>
    have : s.step (.put t true) = { s with text := s.text ++ t } := by
      simp [Streamer.step, hs]
    simp [insertAll, this, ih { s with text := s.text ++ t } hs]

theorem insertAll_none (ts : List (List Char)) (rest : List (Option (List Char))) (s : Streamer)
    (hs : s.good = true) :
    insertAll s (ts.map some ++ none :: rest) = (ts.length + 1, { s with text := s.text ++ ts.flatten }, true) := by
  induction ts generalizing s with
  | nil => simp [insertAll]
  | cons t ts ih =>
    have : s.step (.put t true) = { s with text := s.text ++ t } := by
      simp [Streamer.step, hs]
    simp [insertAll, this, ih { s with text := s.text ++ t } hs]

theorem insertAll_entries (operands : List (Option (List Char))) (s : Streamer) (h : s.entries = []) :
    (insertAll s operands).2.1.entries = [] := by
  induction operands generalizing s with
  | nil => exact h
  | cons o os ih =>
    cases o with
    | none => exact h
    | some t =>
      refine ih (s.step (.put t true)) ?_
      simp only [Streamer.step]; split <;> exact h

theorem finish_entries (s : Streamer) (h : s.entries = []) (a b : Bool) :
    ((s.step (.finish a)).step (.finish b)).entries.length ≤ 1 ∧
      ((s.step (.finish false)).step (.finish false)).entries = [] := by
  cases ha : s.active <;> cases a <;> cases b <;> simp [Streamer.step, h, ha]

end Pluto.LogMacro
