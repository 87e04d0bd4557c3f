import Verif.Model.LogText

/-!
# Model of the formatting state of log streams, `include/pluto/logger.hpp`

A stream has a formatting state (fill character, adjustment, width, base, precision, locale, ...), which the writers see
and change. `σ` is the type of such states. `write_buffer_to_file` makes a new stream in each call and passes it to the
writers for all entries of the buffer. Nothing fails; failures are modelled in `Verif.Model.LogFs`.
-/

namespace Pluto.LogFormat

open LogText

/-- The writers, lines 519-529: what they append to the stream and how they leave its state. Their results do not depend
on what is in the file (they could look at it through the stream; this is left out). -/
structure Writers (σ : Type) where
  /-- the state of a new stream -/
  fresh : σ
  /-- `header_writer()` -/
  header : σ → Res (List Char × σ)
  /-- `log_writer()` -/
  log : Record → σ → Res (List Char × σ)
  /-- `fileStream << '\n'` -/
  newline : σ → Res (List Char × σ)

/-- The stream, the file it writes to, and the files that have been rotated, newest first.  `logger.hpp` 838 and 848-850. -/
structure Files (σ : Type) where
  state : σ
  text : List Char := []
  rotated : List (List Char) := []

/-- Something is written.  `logger.hpp` 857-863. -/
def Files.put {σ : Type} (f : Files σ) (w : σ → Res (List Char × σ)) : Res (Files σ) := do
  let r ← w f.state
  pure { f with text := f.text ++ r.1, state := r.2 }

/-- An iteration of the loop of `write_buffer_to_file`, lines 843-863; `wh` is `writeHeader`, `size` is
`fileRotationSize`. Rotation (848-853) closes and opens the stream, which keeps its formatting state; no file is removed
(`fileRotationLimit` is large). -/
def writeEntry {σ : Type} (w : Writers σ) (wh : Bool) (size : Nat) (f : Files σ) (log : Record) : Res (Files σ) := do
  let f := if size ≠ 0 ∧ size ≤ f.text.length then { f with text := [], rotated := f.text :: f.rotated } else f
  let f ← if wh = true ∧ f.text.length = 0 then do
      let f ← f.put w.header
      f.put w.newline
    else pure f
  let f ← f.put (w.log log)
  f.put w.newline

/-- The loop, lines 841-864, from the oldest entry to the newest. -/
def writeEntries {σ : Type} (w : Writers σ) (wh : Bool) (size : Nat) (f : Files σ) : List Record → Res (Files σ)
  | [] => pure f
  | log :: logs => do
    let f ← writeEntry w wh size f log
    writeEntries w wh size f logs

/-- Calls of `write_buffer_to_file`, lines 809-869, one after another, each with a new stream (838). -/
def writeBatches {σ : Type} (w : Writers σ) (wh : Bool) (size : Nat) (f : Files σ) : List (List Record) → Res (Files σ)
  | [] => pure f
  | logs :: batches => do
    let f ← writeEntries w wh size { f with state := w.fresh } logs
    writeBatches w wh size f batches

/-- The part of the formatting state which the default writers use.  For `logger.hpp` 421-472. -/
structure Format where
  fill : Char := ' '
  adjust : Adjust := .right
  width : Nat := 0
deriving DecidableEq, Repr

/-- A stream with this state to which nothing has been written.  For `logger.hpp` 421-472. -/
def Format.out (s : Format) : Out := { fill := s.fill, adjust := s.adjust, width := s.width }

/-- What has been written to a stream, and its state.  For `logger.hpp` 421-472. -/
def ofOut (o : Out) : List Char × Format := (o.text, { fill := o.fill, adjust := o.adjust, width := o.width })

/-- `fileStream << '\n'`, lines 858 and 863. -/
def newline (s : Format) : Res (List Char × Format) := .ok (ofOut (s.out.put ['\n']))

/-- `default_header_writer`, lines 445-472. -/
def defaultHeader (hide : Bool) (s : Format) : Res (List Char × Format) := .ok (ofOut (headerWriter hide s.out))

/-- `default_log_writer`, lines 421-443. -/
def defaultLog (hide : Bool) (log : Record) (s : Format) : Res (List Char × Format) :=
  (logWriter hide s.out log).map ofOut

/-- The default writers, lines 85-89. -/
def defaultWriters (hide : Bool) : Writers Format where
  fresh := {}
  header := defaultHeader hide
  log := defaultLog hide
  newline := newline

end Pluto.LogFormat
