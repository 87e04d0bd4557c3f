import Verif.Spec.LogWhole
import Verif.Model.LogLink

/-! # What is expected of a logger on a file system with links (C144) -/

namespace Pluto.Spec.LogLink
open Pluto.Log Pluto.LogLink

/-- The paths the logger uses: those of log files and of their rotated files. -/
def Names (paths : Nat → Path) (p : Path) : Prop := ∃ n i, p = pathAt (paths n) i

/-- The links do no harm to files with the names `N`: no link leads to one of these names, none leads in a circle or to a
directory that does not exist, and no two of the names lead to the same place or the same file. -/
structure Tidy (N : Path → Prop) (t : Tree) : Prop where
  links : ∀ p q, lookup t p = some (.link q) → ¬ N q
  ends : ∀ p, N p → ∃ q, target t p = some q ∧ (q = p ∨ q.dir ∈ t.dirs)
  apart : ∀ p p', N p → N p' → target t p = target t p' → p = p'
  unshared : ∀ p p' i, N p → N p' → fileAt t p = some i → fileAt t p' = some i → p = p'
  ids : ∀ p i, lookup t p = some (.file i) → i < t.nextId

/-- A file system without links that has the same files for one who reads them. -/
structure SameFiles (t : Tree) (fs : Fs) : Prop where
  dirs : t.dirs = fs.dirs
  files : ∀ p, readTree t p = read fs p

/-- The bytes of the file a path leads to; none if there is none. -/
def bytesOfTree (t : Tree) (p : Path) : List Char := Log.bytes ((readTree t p).getD [])

end Pluto.Spec.LogLink
