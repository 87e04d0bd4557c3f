import Verif.Model.Logger

/-!
# Model of a logger in a program that changes its working directory

`write_buffer_to_file` makes the name of a log file absolute (`include/pluto/logger.hpp`, line 824) when it first
writes to it.  What a relative name stands for depends on the working directory, which the program may change at any
time.
-/

namespace Pluto.Log

/-- Several steps (Verif/Model/Logger.lean); with each one there is what the names stand for at that time, which is
what `pluto::filesystem::absolute` returns (line 824). -/
def runIn (s : State) : List ((Nat → Path) × Event) → Option State
  | [] => some s
  | (paths, ev) :: evs =>
    match step paths s ev with
    | some s => runIn s evs
    | none => none

end Pluto.Log
