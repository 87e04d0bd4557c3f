import Verif.Model.LogDir
import Verif.Spec.Log

/-! # What is expected of a logger in a program that changes its working directory (C133) -/

namespace Pluto.Spec.Log
open Pluto.Log

/-- Whatever the names stand for in the course of time, the files of different log files, also the rotated ones, have
different paths. -/
def Apart (evs : List ((Nat → Path) × Event)) : Prop :=
  ∀ x ∈ evs, ∀ y ∈ evs, ∀ m n i j, pathAt (x.1 m) i = pathAt (y.1 n) j → m = n

end Pluto.Spec.Log
