import Verif.Spec.Log

/-! # File systems with the same bytes -/

namespace Pluto.Spec.Log
open Pluto.Log

/-- The bytes of a file. -/
def bytesAt (fs : Fs) (q : Path) : Option (List Char) := (read fs q).map bytes

/-- The same directories, the same files, and the same bytes in them. -/
def SameBytes (disk fs : Fs) : Prop := disk.dirs = fs.dirs ∧ ∀ q, bytesAt disk q = bytesAt fs q

/-- The same, except that the end of the file `p` may be missing on the disk. -/
def MissingEnd (p : Path) (disk fs : Fs) : Prop :=
  disk.dirs = fs.dirs ∧ (∀ q, q ≠ p → bytesAt disk q = bytesAt fs q) ∧
    ∃ a b, bytesAt disk p = some a ∧ bytesAt fs p = some (a ++ b)

/-- What is written to an open file gets there; whatever else the event does may fail. -/
def GetsThere : Event → Prop
  | .thread io => Writable io
  | .flush io ios => Writable io ∧ ∀ io ∈ ios, Writable io
  | _ => True

/-- The file the logging thread has open. -/
def OpenFile (s : State) (p : Path) : Prop := ∃ name l todo done, s.thread = .writing name p l todo done

end Pluto.Spec.Log
