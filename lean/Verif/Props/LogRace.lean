import Verif.Proofs.LogRaceLive
import Verif.Proofs.LogRaceFoot

/-!
# The accesses of a logger to its memory (C118, C119, C120)

`Reachable ok s`: any number of threads use a logger, any number of log files and two writers, which may call the logger; they have come to
the state `s` by steps that each make at most a few accesses to memory.  Opening, rotating and writing files may fail at any time.
-/

namespace Pluto.Props
open Pluto.LogRace

/-- C118: no two threads can access the same memory at the same time when one of them writes, from the construction of the logger to the end
of its destruction; only memory that exists is accessed. -/
theorem C118_no_race {s : State} (h : Reachable (fun _ _ => True) s) : (∀ i j l, ¬ Race s i j l) ∧ s.sh.bad = false := by
  obtain ⟨u, w, I⟩ := inv_reachable (nf := False) (fun h => h.elim) h
  exact ⟨fun i j l => I.no_race, I.glob.bad⟩

/-- C118: the accesses that are considered are all there are: a step writes to no other memory, and what it does depends on no other memory. -/
theorem C118_accesses {s s' : Shared} {i : Nat} {c : Choice} {st st' : List Frame} :
    (go s i c st = some (s', st') → ∀ l, Agree s s' l ∨ (l, true) ∈ accesses s st) ∧
    (∀ t, SameSync s t → (∀ l w, (l, w) ∈ accesses s st → Agree s t l) → SameStep i c s t st) :=
  ⟨fun hg l => foot_writes hg l, fun _ hs ha => foot_reads hs ha⟩

/-- C118: when the destructor has returned, no thread uses the logger any more. -/
theorem C118_end {s : State} (h : Reachable (fun _ _ => True) s) (hd : Destroyed s) : ∀ t ∈ s.threads, t = [] := by
  obtain ⟨u, w, I⟩ := inv_reachable (nf := False) (fun h => h.elim) h
  intro t ht
  obtain ⟨i, hi⟩ := List.mem_iff_getElem?.1 ht
  exact (I.destroyed hd).2.1 i t hi

/-- C119: the entries of a log file for which the log writer has been called are the first ones put into its buffer, each once and in the same
order. -/
theorem C119_prefix {s : State} (h : Reachable (fun _ _ => True) s) (f : File) : s.sh.given f <+: s.sh.added f := by
  obtain ⟨u, w, I⟩ := inv_reachable (nf := False) (fun h => h.elim) h
  rw [I.glob.hist f]
  exact List.prefix_append _ _

/-- C119: when the destructor has returned and nothing failed in it, the log writer has been called for all of them. -/
theorem C119_all {s : State} (h : Reachable NoFail s) (hd : Destroyed s) (f : File) : s.sh.given f = s.sh.added f := by
  obtain ⟨u, w, I⟩ := inv_reachable (nf := True) (fun _ _ _ h => h) h
  rw [I.glob.hist f, (I.destroyed hd).2.2 trivial f]
  simp

/-- C120: as long as a thread is in a function of the logger, in a writer or in the destructor, some thread can go on. -/
theorem C120_live {s : State} (h : Reachable (fun _ _ => True) s) {t : List Frame} (ht : t ∈ s.threads) (hne : t ≠ []) :
    ∃ i, (step s (.go i .go)).isSome = true := by
  obtain ⟨u, w, I⟩ := inv_reachable (nf := False) (fun h => h.elim) h
  obtain ⟨i, hi⟩ := List.mem_iff_getElem?.1 ht
  exact I.live hi hne

/-- C120: a thread that waits for a mutex of the logger holds none itself. -/
theorem C120_one_mutex {s : State} (h : Reachable (fun _ _ => True) s) (i : Nat) :
    (s.sh.log = some i → (step s (.go i .go)).isSome = true) ∧ (s.sh.cfg = some i → (step s (.go i .go)).isSome = true) := by
  obtain ⟨u, w, I⟩ := inv_reachable (nf := False) (fun h => h.elim) h
  refine ⟨fun e => ?_, fun e => ?_⟩
  · obtain ⟨t, ht, hl⟩ := (I.lock i).1 e
    exact step_go ht (locked_go _ hl)
  · obtain ⟨t, ht, hl⟩ := (I.cfg i).1 e
    exact step_go ht (cfgLocked_go _ hl)

/-- Thread `i` goes on `n` times. -/
def steps (i n : Nat) : List Event := List.replicate n (.go i .go)

theorem logRace_run {ok : State → Event → Prop} {s s' : State} (h : Reachable ok s) (evs : List Event) (hok : ∀ ev ∈ evs, ∀ s, ok s ev)
    (hr : run s evs = some s') : Reachable ok s' := by
  induction evs generalizing s with
  | nil => cases hr; exact h
  | cons ev evs ih =>
    simp only [run] at hr
    split at hr
    · rename_i s1 e
      exact ih (.step ev h (hok ev (by simp) s) e) (fun ev' h' => hok ev' (List.mem_cons_of_mem _ h')) hr
    · cases hr

/-- A thread logs the entry 100 to the log file 7; the logging thread is about to take it from the buffer; meanwhile the thread puts the entry
101 into the same buffer. -/
def walking : List Event :=
  [.go 0 .go, .user, .go 2 (.call (.log 7 100))] ++ steps 2 13 ++ steps 1 2 ++ [.go 1 (.file 7)] ++ steps 1 8 ++ [.go 1 .alt] ++
    [.go 2 (.call (.log 7 101))] ++ steps 2 8

/-- Both access the links of the buffer now, without a race: one holds the mutex, the other one does not. -/
example : ∃ s, Reachable (fun _ _ => True) s ∧ s.sh.log = some 2 ∧ (s.threads.map (accesses s.sh)) = [[], [(.prev 7 0, false)], [(.prev 7 1, true)]] :=
  ⟨(run {} walking).getD {}, logRace_run .init walking (fun _ _ _ => trivial) rfl, by decide, by decide⟩

/-- The log writer, called for the first entry, logs the entry 200 to another log file.  The entry is erased from the buffer.  The logger is
destroyed; the destructor writes the two entries that are left. -/
def ending : List Event :=
  steps 2 4 ++ steps 1 6 ++ [.go 1 (.call (.log 8 200))] ++ steps 1 13 ++ steps 1 9 ++ steps 2 1 ++ [.destroy] ++ steps 3 1 ++ steps 1 3 ++
    steps 3 2 ++ steps 3 8 ++ [.go 3 .alt] ++ steps 3 9 ++ steps 3 8 ++ [.go 3 .alt] ++ steps 3 10

theorem noFail_of {evs : List Event} (h : evs.all (fun | .go _ .fail => false | _ => true) = true) : ∀ ev ∈ evs, ∀ s, NoFail s ev := by
  intro ev hev s i e
  subst e
  have := List.all_eq_true.1 h _ hev
  cases this

/-- All three entries have been written when it has returned. -/
example : ∃ s, Reachable NoFail s ∧ Destroyed s ∧ s.sh.added 7 = [100, 101] ∧ s.sh.given 7 = [100, 101] ∧ s.sh.given 8 = [200] :=
  ⟨(run {} (walking ++ ending)).getD {}, logRace_run .init (walking ++ ending) (noFail_of (by decide)) rfl, by unfold Destroyed; exact ⟨3, by decide, by decide⟩,
    by decide, by decide, by decide⟩

/-- An entry is logged, and the logger is destroyed; in the destructor opening the file fails. -/
def failing : List Event :=
  [.go 0 .go, .user, .go 2 (.call (.log 7 100))] ++ steps 2 14 ++ [.destroy] ++ steps 3 1 ++ steps 1 3 ++ steps 3 7 ++ [.go 3 .fail, .go 3 .go]

/-- C119: then the entry is lost. -/
theorem C119_needs_noFail : ∃ s, Reachable (fun _ _ => True) s ∧ Destroyed s ∧ s.sh.added 7 = [100] ∧ s.sh.given 7 = [] := by
  refine ⟨(run {} failing).getD {}, logRace_run .init failing (fun _ _ _ => trivial) rfl, ?_, by decide, by decide⟩
  unfold Destroyed
  exact ⟨3, by decide, by decide⟩

/-- A third thread wants to log. -/
def waiting : List Event := walking ++ [.user, .go 3 (.call (.log 9 1)), .go 3 .go]

/-- It waits for the mutex that the second one holds. -/
example : ∃ s, Reachable (fun _ _ => True) s ∧ step s (.go 3 .go) = none ∧ s.threads[3]? = some [.add 9 1 .lock, .user] ∧ s.sh.log = some 2 :=
  ⟨(run {} waiting).getD {}, logRace_run .init waiting (fun _ _ _ => trivial) rfl, rfl, by decide, by decide⟩

end Pluto.Props
