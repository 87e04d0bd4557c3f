import Verif.Proofs.LogBytes
import Verif.Spec.LogNames

/-! # The logger: several names for one log file -/

namespace Pluto.Log
open Pluto.Spec.Log

/-- Without rotation, the entries of a name are only in the file it stands for. -/
theorem disk_placed_flat {paths : Nat → Path} {okIo : Io → Prop} {fs : Fs} {s : State} (h0 : okIo {})
    (hfs : Fresh fs) (h : Reaches paths (·.fileRotationSize = 0) okIo fs s) {n : Nat} {q : Path}
    (hq : own n (read s.fs q) ≠ []) : q = paths n := by
  have key := (disk_invariant (okIo := okIo) (I := fun fs _ => ∀ n q, q ≠ paths n → own n (read fs q) = [])
    (J := fun l => l.fileRotationSize = 0) h0 ?_ (fun _ h => h) ?_ (fun n q _ => fresh_own hfs n q) h).1
  · by_contra hne
    exact hq (key n q hne)
  · intro σ m fs fs' ps _ ho hI n q hn
    rw [opened_own ho n, hI n q hn]
  · intro σ m io l e fs ps _ _ hl hI
    rcases turn_cases σ io (paths m) l m e fs with ⟨hno, ht⟩ | ⟨h1, -, -⟩
    · rw [ht]
      refine turnHeader_own (fun l b h => h) ?_ ?_ hl hI
      · intro fs fs' ps h _ _ hI n q hn
        rw [h, hI n q hn]
      · intro fs fs' ps b h _ _ hI n q hn
        rw [h, hI n q hn, if_neg, List.append_nil]
        rintro ⟨h1, -, rfl⟩
        exact hn h1
    · exact absurd hl h1

theorem entries_named (c : List Chunk) : entries c = (c.filterMap namedEntry).map (·.2) := by
  unfold entries
  rw [List.map_filterMap]
  refine List.filterMap_congr fun x _ => ?_
  cases hk : x.kind <;> simp [anyEntry, namedEntry, hk]

theorem own_named (name : Nat) (c : List Chunk) : own name (some c) = ofName name (c.filterMap namedEntry) := by
  unfold own ofName
  rw [Option.getD_some, List.filterMap_filterMap]
  refine List.filterMap_congr fun x _ => ?_
  cases hk : x.kind <;> simp [entryOf, namedEntry, hk]

end Pluto.Log
