import Verif.Spec.Log

/-! # What is kept of a log file -/

namespace Pluto.Spec.Log
open Pluto.Log

/-- The number of bytes in the files with the numbers 1, ..., `n`. -/
def rotatedBytes (fs : Fs) (p : Path) : Nat → Nat
  | 0 => 0
  | n + 1 => rotatedBytes fs p n + size ((read fs (pathAt p (n + 1))).getD [])

/-- The entry is in one of the files. -/
def OnDisk (fs : Fs) (name : Nat) (e : Entry) : Prop := ∃ q, e ∈ own name (read fs q)

/-- There are no files with a number. -/
def Unnumbered (paths : Nat → Path) (fs : Fs) : Prop := ∀ n i, read fs (pathAt (paths n) (i + 1)) = none

end Pluto.Spec.Log
