import Verif.Proofs.LogBuf

/-!
# Reading a log buffer without the mutex (C88)

`Life h l`: the linked list `h` came about by adding and flushing, and its entries should be `l`, the newest first.
`run es (start h) = some s`: the steps `es` of the logging thread (which does not hold the mutex) and of other threads
(which add entries) led from the list `h` to `s`.
-/

namespace Pluto.Props
open Pluto.LogBuf
variable {α : Type}

/-- C88: no memory cell the logging thread reads without the mutex is written by another thread meanwhile (and the logging
thread writes none), so there is no data race; and it never dereferences an end or erased node. -/
theorem C88_no_race (h : Heap α) (l : List α) (hl : Life h l) (hne : l ≠ []) (es : List (Event α)) (s : State α)
    (hs : run es (start h) = some s) : (∀ c ∈ s.reads, c ∉ s.writes) ∧ s.ub = false := by
  obtain ⟨L, h1, h2⟩ := life_holds hl
  obtain ⟨N, R, D, h3, _, _⟩ := session h1 (by rintro rfl; exact hne h2.symm) hs
  exact ⟨fun c hc hw => safe_not_read (h3.writes c hw) (h3.reads c hc), h3.ub⟩

/-- C88: what it reads are the entries that were in the list when it unlocked the mutex, the oldest first, each once; when
it has reached the first one it has read them all, and until then it can go on. -/
theorem C88_reads (h : Heap α) (l : List α) (hl : Life h l) (hne : l ≠ []) (es : List (Event α)) (s : State α)
    (hs : run es (start h) = some s) :
    s.out = l.reverse.take s.out.length ∧ (step s .read = none ↔ s.out = l.reverse) := by
  obtain ⟨L, h1, h2⟩ := life_holds hl
  obtain ⟨N, R, D, h3, h4, _⟩ := session h1 (by rintro rfl; exact hne h2.symm) hs
  have ho : l.reverse = s.out ++ (R.map (·.2)).reverse := by
    rw [h3.out, ← h2, ← h4]; simp
  refine ⟨by rw [ho]; simp, ?_⟩
  have hstep : step s .read = none ↔ s.it = s.first := by
    unfold step
    by_cases hi : s.it = s.first
    · simp [hi]
    · simp only [hi, if_false, iff_false]
      split <;> simp
  rw [hstep, ho, h3.it, h3.first]
  have hn := h3.holds.nodup
  have hz := h3.holds.zero
  rw [List.map_append] at hn hz
  replace hn := (List.nodup_append.1 hn).2.1
  replace hz : 0 ∉ (R ++ D).map (·.1) := fun hx => hz (List.mem_append_right _ hx)
  cases R with
  | nil => simp
  | cons r R =>
    simp only [List.cons_append, List.map_cons, List.headD_cons, List.reverse_cons, List.nodup_cons, List.mem_cons,
      not_or, List.map_append, List.mem_append] at hn hz ⊢
    constructor
    · intro hd
      cases D with
      | nil => exact absurd hd hz.1
      | cons d D =>
        simp only [List.map_cons, List.headD_cons, List.mem_cons, not_or] at hd hn
        exact absurd hd.symm hn.1.2.1
    · intro hx
      have := congrArg List.length hx
      simp at this

/-- C88: when the logging thread has locked the mutex again, wherever it stopped, erasing what it read is defined and
leaves exactly the entries it did not read and, in front of them, those that other threads added meanwhile. -/
theorem C88_erase (h : Heap α) (l : List α) (hl : Life h l) (hne : l ≠ []) (es : List (Event α)) (s : State α)
    (hs : run es (start h) = some s) (hp : s.pending = []) :
    ∃ h', eraseFrom s.heap.size s.heap s.it = some h' ∧
      h'.entries = added es ++ l.take (l.length - s.out.length) := by
  obtain ⟨L, h1, h2⟩ := life_holds hl
  obtain ⟨h', M, h3, h4, h5⟩ := session_erase h1 (by rintro rfl; exact hne h2.symm) hs hp
  refine ⟨h', h3, ?_⟩
  rw [entries_eq h4, h5, ← h2, List.length_map]

/-- C88: so over the whole life of the buffer, flushed any number of times while entries are added, a thread that holds the
mutex finds exactly the entries that should be there, in order, and `size()` is their number. -/
theorem C88_entries (h : Heap α) (l : List α) (hl : Life h l) : h.entries = l ∧ h.size = l.length := by
  obtain ⟨L, h1, h2⟩ := life_holds hl
  exact ⟨by rw [entries_eq h1, h2], by rw [h1.size, ← h2, List.length_map]⟩

/-- A list of three entries; two are read while a fourth and a fifth are added, at the same time. -/
def exampleEvents : List (Event Nat) :=
  [.call 4, .write, .read, .write, .write, .write, .write, .write, .call 5, .write, .write, .write, .write, .read, .write,
    .write]

example : Life (emplace (emplace (emplace Heap.empty 1) 2) 3) [3, 2, 1] := .add 3 (.add 2 (.add 1 .new))

example : ((run exampleEvents (start (emplace (emplace (emplace Heap.empty 1) 2) 3))).map
    fun s => (s.out, s.pending, (eraseFrom s.heap.size s.heap s.it).map Heap.entries)) =
    some ([1, 2], [], some [5, 4, 3]) := by decide

/-- The comment in the code (lines 904-909) is right: were entries added at the back, the link of the end node, which the
logging thread reads first, would be written by other threads. -/
def emplaceBack (h : Heap α) (a : α) : List (Write α) :=
  [.data h.fresh a, .next h.fresh 0, .prev h.fresh (h.prev 0), .next (h.prev 0) h.fresh, .prev 0 h.fresh,
    .size (h.size + 1)]

example (h : Heap α) (a : α) (s : State α) (hne : h.next 0 ≠ 0) (hs : step (start h) .read = some s) :
    ∃ c ∈ s.reads, c ∈ (emplaceBack h a).map Write.cell := by
  refine ⟨.prev 0, ?_, by simp [emplaceBack, Write.cell]⟩
  unfold step start at hs
  simp only at hs
  rw [if_neg (Ne.symm hne)] at hs
  split at hs <;> · cases hs; simp

end Pluto.Props
