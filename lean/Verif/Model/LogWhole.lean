import Verif.Model.Logger
import Verif.Model.LogText

/-!
# Model of a new logger of `include/pluto/logger.hpp`

The settings a logger has if no macro and no setter changes them, with the default writers of
`Verif.Model.LogText`.
-/

namespace Pluto.Log

/-- `default_log_writer`, lines 421-443, as a log writer. `record` adds to an entry what is not in `Entry`: the source
information and the local time. The stream has the state of a new one; `Verif.Model.LogFormat` has streams in other
states. `.error` stands for reading outside the file name, which does not happen. -/
def defaultLogWriter (hide : Bool) (record : Entry → LogText.Record) (e : Entry) : Written :=
  match LogText.logWriter hide {} (record e) with
  | .ok o => .ok o.text
  | .error _ => .error

/-- `default_header_writer`, lines 445-472, as a header writer. -/
def defaultHeaderWriter (hide : Bool) : Written := .ok (LogText.headerWriter hide {}).text

/-- The initial settings, lines 56-89 and 362-373: the defaults of `Settings` and the default writers. -/
def initialSettings (hide : Bool) (record : Entry → LogText.Record) : Settings :=
  { logWriter := defaultLogWriter hide record, headerWriter := defaultHeaderWriter hide }

end Pluto.Log
