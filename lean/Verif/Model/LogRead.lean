import Verif.Model.LogText

/-!
# Model of the text of a log file, `include/pluto/logger.hpp`

What `write_buffer_to_file` puts into a log file with the default writers. There is no rotation and
nothing fails; how files are opened and rotated is modelled in `Verif.Model.LogFs`.
-/

namespace Pluto.LogText

/-- An iteration of the loop of `write_buffer_to_file`, lines 843-863, without rotation; `wh` is
`writeHeader`. The position of the stream is the number of characters in the file. -/
def writeEntry (hide wh : Bool) (o : Out) (log : Record) : Res Out :=
  let o := if wh = true ∧ o.text.length = 0 then (headerWriter hide o).put ['\n'] else o
  match logWriter hide o log with
  | .ok o => .ok (o.put ['\n'])
  | .error e => .error e

/-- The loop, lines 841-864. The entries are given from the oldest to the newest, which is the order in
which the loop goes through them. -/
def writeEntries (hide wh : Bool) (o : Out) : List Record → Res Out
  | [] => .ok o
  | log :: logs =>
    match writeEntry hide wh o log with
    | .ok o => writeEntries hide wh o logs
    | .error e => .error e

/-- Calls of `write_buffer_to_file`, lines 809-869, one after another. Each opens the file anew, to
append to it (lines 837-839). -/
def writeFile (hide wh : Bool) (text : List Char) : List (List Record) → Res (List Char)
  | [] => .ok text
  | logs :: batches =>
    match writeEntries hide wh { text := text } logs with
    | .ok o => writeFile hide wh o.text batches
    | .error e => .error e

end Pluto.LogText
