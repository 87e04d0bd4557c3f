import Verif.Proofs.LogMacro

/-!
# Properties of the logging macros (C100)

`call` is a statement with `PLUTO_LOG_WRITE`, `PLUTO_LOG_WRITEF` or `PLUTO_LOG_FORMAT`, `stream`
one with `PLUTO_LOG_STREAM`; the checks are the answers of `should_log`, in order.
-/

namespace Pluto.Props
open Pluto.LogMacro Pluto.LogText

/-- C100. If the level is not logged, the expression for the logger is evaluated once and no other,
nothing is logged and nothing is thrown. -/
theorem C100_lazy {α : Type} (check₂ check₃ : Bool) (args : List (Option α))
    (message : List α → Option (List Char)) (file : Option Unit) (operands : List (Option (List Char))) :
    call false check₂ args message = { loggers := 1, evaluated := 0, entries := [], threw := false } ∧
      stream false check₂ check₃ file operands =
        { loggers := 1, evaluated := 0, entries := [], threw := false } := ⟨rfl, rfl⟩

/-- C100. If the level is logged and nothing throws, the expression for the logger is evaluated
twice, every other one once, and exactly one entry is logged, with the message made of the values. -/
theorem C100_logged {α : Type} (vs : List α) (message : List α → Option (List Char)) (m : List Char)
    (hm : message vs = some m) (check₃ : Bool) (ts : List (List Char)) :
    call true true (vs.map some) message =
        { loggers := 2, evaluated := vs.length, entries := [m], threw := false } ∧
      stream true true check₃ (some ()) (ts.map some) =
        { loggers := 2, evaluated := ts.length + 1, entries := [ts.flatten], threw := false } := by
  constructor
  · simp [call, evaluate_some, hm]
  · simp [stream, insertAll_some, Streamer.step]

/-- C100. In every case at most one entry is logged, and none if `should_log` is false whenever the
statement asks again. -/
theorem C100_at_most_one {α : Type} (check₁ check₂ check₃ : Bool) (args : List (Option α))
    (message : List α → Option (List Char)) (file : Option Unit) (operands : List (Option (List Char))) :
    (call check₁ check₂ args message).entries.length ≤ 1 ∧
      (stream check₁ check₂ check₃ file operands).entries.length ≤ 1 ∧
      (call check₁ false args message).entries = [] ∧
      (stream check₁ false false file operands).entries = [] := by
  have h := insertAll_entries operands {} rfl
  refine ⟨?_, ?_, ?_, ?_⟩
  · unfold call
    split
    · split
      · simp
      · split
        · split <;> simp
        · simp
    · simp
  · unfold stream
    split
    · split
      · simp
      · split
        · rename_i heq; rw [heq] at h
          simpa [Streamer.step] using (finish_entries _ h false check₃).1
        · rename_i heq; rw [heq] at h
          exact (finish_entries _ h check₂ check₃).1
    · simp
  · unfold call
    split
    · split <;> rfl
    · rfl
  · unfold stream
    split
    · split
      · rfl
      · split
        · rename_i heq; rw [heq] at h
          simpa [Streamer.step] using h
        · rename_i heq; rw [heq] at h
          exact (finish_entries _ h false false).2
    · rfl

/-- C100 (partial: not for the operands of a stream). If an expression throws, so does the
statement; the expressions before it have been evaluated, those after it have not, and nothing is
logged. -/
theorem C100_throws_partial {α : Type} (vs : List α) (rest : List (Option α)) (check₂ check₃ : Bool)
    (message : List α → Option (List Char)) (operands : List (Option (List Char))) :
    call true check₂ (vs.map some ++ none :: rest) message =
        { loggers := 2, evaluated := vs.length + 1, entries := [], threw := true } ∧
      stream true check₂ check₃ none operands =
        { loggers := 2, evaluated := 1, entries := [], threw := true } := by
  constructor
  · simp [call, evaluate_none]
  · rfl

/-- C100. If no message can be made of the values, so that `format` throws, the statement throws; every expression has
been evaluated once, and nothing is logged. -/
theorem C100_format_throws {α : Type} (vs : List α) (message : List α → Option (List Char)) (hm : message vs = none) :
    call true true (vs.map some) message =
      { loggers := 2, evaluated := vs.length, entries := [], threw := true } := by
  simp [call, evaluate_some, hm]

/-- C100 fails for streams: if an operand throws, the text of those before it is logged. -/
theorem C100_fails (ts : List (List Char)) (rest : List (Option (List Char))) (check₂ : Bool) :
    stream true check₂ true (some ()) (ts.map some ++ none :: rest) =
      { loggers := 2, evaluated := ts.length + 2, entries := [ts.flatten], threw := true } := by
  simp [stream, insertAll_none, Streamer.step]

/-- The first two operands are streamed, the third throws: half of the message is logged. -/
example : stream true true true (some ()) [some "total: ".toList, some "1".toList, none, some "!".toList] =
    { loggers := 2, evaluated := 4, entries := ["total: 1".toList], threw := true } := by decide

/-- The level is raised while the arguments are evaluated, and for a stream lowered again. -/
example : call true false [some "x"] (fun _ => some []) = { loggers := 2, evaluated := 1 } ∧
    stream true false true (some ()) [some ['x']] =
      { loggers := 2, evaluated := 2, entries := [['x']] } := by decide

end Pluto.Props
