import Verif.Proofs.LogArgs

/-! # How long the arguments of logging calls must exist (C124) -/

namespace Pluto.Props
open Pluto.LogArgs

/-- C124. If the file and function names of the sources are in memory that is not changed, then whatever the callers
do with the other arguments after a call, and whenever entries are written: nothing is read that does not exist
any more, and each log file gets what was logged to it, with what the arguments were during the calls. What is not
written yet is as many lines as there are entries in the buffer. Missing: sources whose names are changed or
destroyed, see `C124_dangling` and `C124_changed`. -/
theorem C124_copied_partial (lit : Addr → Prop) (m : Mem) (evs : List Event) (i : LogArgsSpec.Expected)
    (hs : ∀ ev ∈ evs, LogArgsSpec.Static lit ev) (hi : LogArgsSpec.run { mem := m } evs = some i) :
    ∃ s, run { mem := m } evs = .ok s ∧ ∀ name, ∃ missing, i.logged name = s.out name ++ missing ∧
      missing.length = (s.buffers name).length := by
  obtain ⟨s, e, r⟩ := rel_run (c := { mem := m }) (i := { mem := m })
    ⟨rfl, rfl, fun _ => rfl, by simp, by simp⟩ hs hi
  exact ⟨s, e, fun name => ⟨_, r.logged name, by simp⟩⟩

/-- Names of functions and files that are literals, at 0 and 1; other strings of the callers at 2 and above. -/
def argsMem : Mem := fun a =>
  match a with
  | 0 => some "main.cpp".toList
  | 1 => some "run".toList
  | 2 => some "log.txt".toList
  | 3 => some "hello".toList
  | _ => none

/-- A message is logged, by `write` and by a streamer; then the strings are changed and destroyed. -/
def argsEvents : List Event :=
  [.write 2 3 ⟨0, 7, 1⟩, .stream 2 ⟨0, 8, 1⟩, .insert 0 3, .put 3 (some "bye".toList), .insert 0 3, .put 2 none,
    .put 3 none, .finish 0, .output "log.txt".toList, .output "log.txt".toList]

example : (∀ ev ∈ argsEvents, LogArgsSpec.Static (· < 2) ev) ∧
    (LogArgsSpec.run { mem := argsMem } argsEvents).map (·.logged "log.txt".toList) =
      some [⟨"main.cpp".toList, 7, "run".toList, "hello".toList⟩,
        ⟨"main.cpp".toList, 8, "run".toList, "hellobye".toList⟩] := by
  refine ⟨?_, by decide⟩
  simp [argsEvents, LogArgsSpec.Static]

/-- The name of the source file is in a string that the caller made, at 4, and destroys after the call. -/
def danglingEvents (t : Option (List Char)) : List Event :=
  [.put 4 (some "gen.cpp".toList), .write 2 3 ⟨4, 7, 1⟩, .put 4 t, .output "log.txt".toList]

/-- C124. A call is given nothing but strings that exist, but when the entry is written a string is read that does
not exist any more. -/
theorem C124_dangling :
    (LogArgsSpec.run { mem := argsMem } (danglingEvents none)).map (·.logged "log.txt".toList) =
        some [⟨"gen.cpp".toList, 7, "run".toList, "hello".toList⟩] ∧
      run { mem := argsMem } (danglingEvents none) = .error .undefined :=
  ⟨by decide, rfl⟩

/-- C124. If the string is changed, the entry is written with what it has become. -/
theorem C124_changed : ∃ s, run { mem := argsMem } (danglingEvents (some "other.cpp".toList)) = .ok s ∧
    s.out "log.txt".toList = [⟨"other.cpp".toList, 7, "run".toList, "hello".toList⟩] ∧
    (LogArgsSpec.run { mem := argsMem } (danglingEvents (some "other.cpp".toList))).map (·.logged "log.txt".toList) =
      some [⟨"gen.cpp".toList, 7, "run".toList, "hello".toList⟩] :=
  ⟨_, rfl, by decide, by decide⟩

end Pluto.Props
