import Verif.Proofs.LogIo

/-! # The logger: what is on disk -/

namespace Pluto.Log
open Pluto.Spec.Log

/-! ## Entries are written as a whole -/

theorem put_writable {p : Path} {k : Kind} {text : List Char} {fs : Fs} :
    put p k text none true fs = (store fs p ((read fs p).getD [] ++ [⟨k, text⟩]), true) := rfl

/-- In an iteration without failing writes, an entry that is given to the log writer is
written as a whole. -/
theorem turn_whole {σ : Settings} {io : Io} {p : Path} {l : Locals} {name : Nat} {e : Entry} {fs : Fs}
    (hσ : GoodWriter σ) (hio : Writable io) (hl : l.good = true) :
    match turn σ io p l name e fs with
    | .next _ l' whole => whole = true ∧ l'.good = true
    | .after _ => False
    | _ => True := by
  have hentry : ∀ (l : Locals) fs, l.good = true →
      match turnEntry σ io p l name e fs with
      | .next _ l' whole => whole = true ∧ l'.good = true
      | .after _ => False
      | _ => True := by
    intro l fs hl
    obtain ⟨text, ht⟩ := hσ e
    rcases turnEntry_cases σ io p l name e fs with ⟨text, fs₁, r, -, hp, heq⟩ | ⟨text', fs₁, r, hw, hp, heq⟩ | heq
    · rw [heq]
      rw [hio.2, hl, put_writable] at hp
      cases hp
      exact ⟨rfl, rfl⟩
    · rw [ht] at hw; cases hw
    · rw [heq]; trivial
  have hheader : ∀ (l : Locals) k fs, l.good = true →
      match turnHeader σ io p l k name e fs with
      | .next _ l' whole => whole = true ∧ l'.good = true
      | .after _ => False
      | _ => True := by
    intro l k fs hl
    rcases turnHeader_cases σ io p l k name e fs with ⟨-, heq⟩ | ⟨text, fs₁, r, -, -, -, hp, heq⟩ |
      ⟨text, fs₁, r, -, -, -, hp, heq⟩ | ⟨-, -, -, heq⟩ <;> rw [heq]
    · exact hentry l fs hl
    · rw [hio.1, hl, put_writable] at hp
      cases hp
      exact hentry _ _ rfl
    · trivial
    · trivial
  rcases turn_cases σ io p l name e fs with ⟨-, ht⟩ | ⟨-, -, fs₁, b, hr, ⟨-, ht⟩ | ⟨-, fs₂, r, ho, ⟨-, ht⟩ | ⟨-, ht⟩⟩⟩ <;>
    rw [ht]
  · exact hheader _ _ _ hl
  · trivial
  · trivial
  · exact hheader _ _ _ rfl

theorem passed_whole {paths : Nat → Path} {fs : Fs} {s : State}
    (h : Reaches paths GoodWriter Writable fs s) : ∀ x ∈ s.passed, x.2.2 = true := by
  refine (disk_invariant (I := fun _ ps => ∀ x ∈ ps, x.2.2 = true) (J := fun l => l.good = true)
    ⟨rfl, rfl⟩ (fun _ _ _ _ _ _ _ h => h) (fun _ _ => rfl) ?_ (by simp) h).1
  intro σ n io l e fs ps hσ hio hl hI
  have := turn_whole (p := paths n) (name := n) (e := e) (fs := fs) hσ hio hl
  unfold After
  cases ht : turn σ io (paths n) l n e fs with
  | next fs' l' whole =>
    rw [ht] at this
    refine ⟨?_, this.2⟩
    intro x hx
    rcases List.mem_append.1 hx with hx | hx
    · exact hI x hx
    · simp only [List.mem_singleton] at hx
      subst hx
      exact this.1
  | before fs' => exact hI
  | after fs' => rw [ht] at this; exact this.elim
  | crash => trivial

theorem written_eq_passed {s : State} (h : ∀ x ∈ s.passed, x.2.2 = true) (n : Nat) :
    written s n = passed s n := by
  unfold written passed
  apply List.filterMap_congr
  intro x hx
  simp [h x hx]

theorem written_sublist_passed (s : State) (n : Nat) : (written s n).Sublist (passed s n) := by
  unfold written passed
  induction s.passed with
  | nil => exact .slnil
  | cons x xs ih =>
    rw [List.filterMap_cons, List.filterMap_cons]
    by_cases h1 : x.1 = n
    · by_cases h2 : x.2.2 = true
      · simpa [h1, h2] using ih
      · simp only [h1, h2, if_true]
        exact .cons _ ih
    · simpa [h1] using ih

/-! ## Properties of every piece of every file -/

theorem along_nil (P : List Chunk → Chunk → Prop) : Along P [] := by
  intro a x b h
  simp at h

theorem along_append {P : List Chunk → Chunk → Prop} {c : List Chunk} {y : Chunk} (h : Along P c)
    (hy : P c y) : Along P (c ++ [y]) := by
  intro a x b hab
  rcases List.eq_nil_or_concat b with rfl | ⟨b', z, rfl⟩
  · have := List.append_inj' hab rfl
    obtain ⟨rfl, h2⟩ := this
    cases h2
    exact hy
  · have : c ++ [y] = (a ++ x :: b') ++ [z] := by simpa using hab
    exact h a x b' (List.append_inj' this rfl).1

theorem everywhere_opened {P : List Chunk → Chunk → Prop} {p : Path} {fs fs' : Fs} (h : Everywhere P fs)
    (ho : Opened p fs fs') : Everywhere P fs' := by
  intro q c hq
  by_cases hqp : q = p
  · subst hqp
    rcases ho.2.2 with h1 | ⟨-, h1⟩
    · exact h q c (h1 ▸ hq)
    · rw [h1] at hq; cases hq; exact along_nil P
  · exact h q c (ho.2.1 q hqp ▸ hq)

theorem everywhere_shift {P : List Chunk → Chunk → Prop} {p : Path} {limit : Nat} {fs fs' : Fs}
    (h : Everywhere P fs) (hs : Shift p limit fs fs') : Everywhere P fs' := by
  intro q c hq
  obtain ⟨q', h'⟩ := shift_contents hs hq
  exact h q' c h'

theorem everywhere_store {P : List Chunk → Chunk → Prop} {p : Path} {fs : Fs} {x : Chunk}
    (h : Everywhere P fs) (hx : P ((read fs p).getD []) x) :
    Everywhere P (store fs p ((read fs p).getD [] ++ [x])) := by
  intro q c hq
  rw [read_store] at hq
  split at hq
  · cases hq
    refine along_append ?_ hx
    cases hr : read fs p with
    | none => exact along_nil P
    | some c => exact h p c hr
  · exact h q c hq

theorem everywhere_fresh {P : List Chunk → Chunk → Prop} {fs : Fs} (h : Fresh fs)
    (hP : ∀ a x, x.kind = .old → (∀ y ∈ a, y.kind = .old) → P a x) : Everywhere P fs := by
  intro q c hq a x b hab
  have := h q c hq
  rw [hab] at this
  exact hP a x (this x (by simp)) (fun y hy => this y (by simp [hy]))

theorem size_append (a b : List Chunk) : size (a ++ b) = size a + size b := by
  unfold size
  rw [List.map_append, List.sum_append]

theorem size_one (x : Chunk) : size [x] = x.text.length := by simp [size]

/-- After a successful rotation the new file is empty. -/
theorem rotated_empty {f : RotateFaults} {p : Path} {limit : Nat} {fs fs₁ fs₂ : Fs} {b : Bool}
    (hr : rotate f p limit fs = (fs₁, true)) (ho : openFile b p fs₁ = (fs₂, true)) :
    read fs₂ p = some [] := by
  have h1 := (rotate_shift hr).2 rfl
  obtain ⟨⟨-, -, h2⟩, h3⟩ := openFile_opened ho
  rcases h2 with h2 | ⟨-, h2⟩
  · rw [h1] at h2; exact absurd h2 (h3 rfl).1
  · exact h2

/-- Rotation respects the size. -/
theorem turn_small {σ : Settings} {io : Io} {p : Path} {l : Locals} {name : Nat} {e : Entry} {fs : Fs}
    {r : Nat} {ps : List (Nat × Entry × Bool)} (hr0 : 0 < r) (hl : l.fileRotationSize = r)
    (hI : Everywhere (Small r) fs) :
    After (fun fs _ => Everywhere (Small r) fs) (fun l => l.fileRotationSize = r) name e ps
      (turn σ io p l name e fs) := by
  have hentry : ∀ (l : Locals) fs, l.fileRotationSize = r → Everywhere (Small r) fs →
      (l.good = true → size ((read fs p).getD []) < r ∨
        ∃ z h, (read fs p).getD [] = z ++ [h] ∧ size z = 0 ∧ h.kind = .header) →
      After (fun fs _ => Everywhere (Small r) fs) (fun l => l.fileRotationSize = r) name e ps
        (turnEntry σ io p l name e fs) := by
    intro l fs hl hI hs
    rcases turnEntry_cases σ io p l name e fs with ⟨text, fs₁, b, -, hp, heq⟩ | ⟨text', fs₁, b, hw, hp, heq⟩ | heq
      <;> rw [heq]
    · refine ⟨?_, hl⟩
      rcases put_cases hp with ⟨-, rfl, -⟩ | ⟨hg, -, -, rfl⟩ | ⟨hg, -, n, -, rfl⟩
      · exact hI
      · exact everywhere_store hI (.inr (hs hg))
      · exact everywhere_store hI (.inr (hs hg))
    · rcases put_cases hp with ⟨-, rfl, -⟩ | ⟨hg, -, -, rfl⟩ | ⟨hg, -, n, -, rfl⟩
      · exact hI
      · exact everywhere_store hI (.inr (hs hg))
      · exact everywhere_store hI (.inr (hs hg))
    · trivial
  have hheader : ∀ (l : Locals) k fs, l.fileRotationSize = r → Everywhere (Small r) fs →
      (l.good = true → size ((read fs p).getD []) < r ∧ k = size ((read fs p).getD [])) →
      After (fun fs _ => Everywhere (Small r) fs) (fun l => l.fileRotationSize = r) name e ps
        (turnHeader σ io p l k name e fs) := by
    intro l k fs hl hI hs
    rcases turnHeader_cases σ io p l k name e fs with ⟨-, heq⟩ | ⟨text, fs₁, b, -, hk, -, hp, heq⟩ |
      ⟨text, fs₁, b, -, hk, -, hp, heq⟩ | ⟨-, -, -, heq⟩ <;> rw [heq]
    · exact hentry l fs hl hI fun hg => .inl (hs hg).1
    · rcases put_cases hp with ⟨-, rfl, rfl⟩ | ⟨hg, -, rfl, rfl⟩ | ⟨hg, rfl, n, -, rfl⟩
      · exact hentry _ _ hl hI (by simp)
      · refine hentry _ _ hl (everywhere_store hI (.inr (.inl (hs hg).1))) ?_
        intro _
        right
        rw [read_store_self]
        exact ⟨_, _, rfl, by rw [← (hs hg).2]; exact hk, rfl⟩
      · exact hentry _ _ hl (everywhere_store hI (.inr (.inl (hs hg).1))) (by simp)
    · rcases put_cases hp with ⟨-, rfl, rfl⟩ | ⟨hg, -, rfl, rfl⟩ | ⟨hg, rfl, n, -, rfl⟩
      · exact hI
      · exact everywhere_store hI (.inr (.inl (hs hg).1))
      · exact everywhere_store hI (.inr (.inl (hs hg).1))
    · trivial
  rcases turn_cases σ io p l name e fs with ⟨hno, ht⟩ | ⟨-, -, fs₁, b, hr, ⟨-, ht⟩ | ⟨rfl, fs₂, b', ho, ⟨-, ht⟩ | ⟨rfl, ht⟩⟩⟩ <;>
    rw [ht]
  · refine hheader l _ fs hl hI ?_
    intro hg
    unfold fileSize at hno ⊢
    rw [if_pos hg] at hno ⊢
    exact ⟨by omega, rfl⟩
  · exact everywhere_shift hI (rotate_shift hr).1
  · exact everywhere_opened (everywhere_shift hI (rotate_shift hr).1) (openFile_opened ho).1
  · refine hheader _ _ fs₂ hl (everywhere_opened (everywhere_shift hI (rotate_shift hr).1) (openFile_opened ho).1) ?_
    intro _
    unfold fileSize
    rw [if_pos rfl, rotated_empty hr ho]
    exact ⟨by simpa [size] using hr0, rfl⟩

theorem files_small {paths : Nat → Path} {r : Nat} {okIo : Io → Prop} {fs : Fs} {s : State} (hr : 0 < r)
    (hfs : Fresh fs) (h0 : okIo {}) (h : Reaches paths (·.fileRotationSize = r) okIo fs s) :
    Everywhere (Small r) s.fs := by
  refine (disk_invariant (okIo := okIo) (I := fun fs _ => Everywhere (Small r) fs)
    (J := fun l => l.fileRotationSize = r) h0
    (fun _ _ _ _ _ _ ho h => everywhere_opened h ho) (fun _ h => h) ?_ ?_ h).1
  · intro σ n io l e fs ps _ _ hl hI
    exact turn_small hr hl hI
  · exact everywhere_fresh hfs (fun a x hx _ => .inl hx)

/-- Files begin with a header. -/
theorem turn_headed {σ : Settings} {io : Io} {p : Path} {l : Locals} {name : Nat} {e : Entry} {fs : Fs}
    {ps : List (Nat × Entry × Bool)} (hσ : GoodWriter σ ∧ ∃ text, σ.headerWriter = .ok text)
    (hio : Writable io) (hl : l.writeHeader = true ∧ l.good = true) (hI : Everywhere Headed fs) :
    After (fun fs _ => Everywhere Headed fs) (fun l => l.writeHeader = true ∧ l.good = true) name e ps
      (turn σ io p l name e fs) := by
  have hentry : ∀ (l : Locals) fs, l.writeHeader = true ∧ l.good = true → Everywhere Headed fs →
      size ((read fs p).getD []) ≠ 0 →
      After (fun fs _ => Everywhere Headed fs) (fun l => l.writeHeader = true ∧ l.good = true) name e ps
        (turnEntry σ io p l name e fs) := by
    intro l fs hl hI hs
    obtain ⟨text₀, ht₀⟩ := hσ.1 e
    rcases turnEntry_cases σ io p l name e fs with ⟨text, fs₁, b, -, hp, heq⟩ | ⟨text', fs₁, b, hw, hp, heq⟩ | heq
    · rw [heq]
      rw [hio.2, hl.2, put_writable] at hp
      cases hp
      exact ⟨everywhere_store hI ⟨fun h => absurd h hs, by simp⟩, hl.1, rfl⟩
    · rw [ht₀] at hw; cases hw
    · rw [heq]; trivial
  have hheader : ∀ (l : Locals) fs, l.writeHeader = true ∧ l.good = true → Everywhere Headed fs →
      After (fun fs _ => Everywhere Headed fs) (fun l => l.writeHeader = true ∧ l.good = true) name e ps
        (turnHeader σ io p l (size ((read fs p).getD [])) name e fs) := by
    intro l fs hl hI
    obtain ⟨text₀, ht₀⟩ := hσ.2
    rcases turnHeader_cases σ io p l (size ((read fs p).getD [])) name e fs with ⟨hno, heq⟩ |
      ⟨text, fs₁, b, -, hk, -, hp, heq⟩ | ⟨text, fs₁, b, -, hk, hw, hp, heq⟩ | ⟨-, -, hw, heq⟩
    · rw [heq]
      exact hentry l fs hl hI (fun h => hno ⟨hl.1, h⟩)
    · rw [heq]
      rw [hio.1, hl.2, put_writable] at hp
      cases hp
      refine hentry _ _ ⟨hl.1, rfl⟩ (everywhere_store hI ⟨fun _ => .inl rfl, fun _ => hk⟩) ?_
      rw [read_store_self, Option.getD_some, size_append, size_one]
      simp
    · rw [ht₀] at hw; cases hw
    · rw [ht₀] at hw; cases hw
  rcases turn_cases σ io p l name e fs with ⟨hno, ht⟩ | ⟨-, -, fs₁, b, hr, ⟨-, ht⟩ | ⟨rfl, fs₂, b', ho, ⟨-, ht⟩ | ⟨rfl, ht⟩⟩⟩ <;>
    rw [ht]
  · unfold fileSize
    rw [if_pos hl.2]
    exact hheader l fs hl hI
  · exact everywhere_shift hI (rotate_shift hr).1
  · exact everywhere_opened (everywhere_shift hI (rotate_shift hr).1) (openFile_opened ho).1
  · unfold fileSize
    rw [if_pos rfl]
    exact hheader _ fs₂ ⟨hl.1, rfl⟩ (everywhere_opened (everywhere_shift hI (rotate_shift hr).1) (openFile_opened ho).1)

theorem files_headed {paths : Nat → Path} {fs : Fs} {s : State} (hfs : Fresh fs)
    (h : Reaches paths (fun σ => (GoodWriter σ ∧ ∃ text, σ.headerWriter = .ok text) ∧ σ.writeHeader = true)
      Writable fs s) : Everywhere Headed s.fs := by
  refine (disk_invariant (okIo := Writable) (I := fun fs _ => Everywhere Headed fs)
    (J := fun l => l.writeHeader = true ∧ l.good = true) ⟨rfl, rfl⟩
    (fun _ _ _ _ _ _ ho h => everywhere_opened h ho) (fun _ h => ⟨h.2, rfl⟩) ?_ ?_ h).1
  · intro σ n io l e fs ps hσ hio hl hI
    exact turn_headed hσ.1 hio hl hI
  · exact everywhere_fresh hfs (fun a x hx _ => ⟨fun _ => .inr hx, by rw [hx]; simp⟩)

/-! ## The entries on disk -/

/-- The entries in a record that were written as a whole. -/
def wr (ps : List (Nat × Entry × Bool)) (n : Nat) : List Entry :=
  ps.filterMap fun x => if x.1 = n ∧ x.2.2 = true then some x.2.1 else none

theorem written_eq (s : State) (n : Nat) : written s n = wr s.passed n := rfl

theorem wr_append (ps : List (Nat × Entry × Bool)) (name : Nat) (e : Entry) (w : Bool) (n : Nat) :
    wr (ps ++ [(name, e, w)]) n = wr ps n ++ if name = n ∧ w = true then [e] else [] := by
  unfold wr
  rw [List.filterMap_append]
  congr 1
  by_cases h : name = n ∧ w = true <;> simp [h]

theorem own_none (n : Nat) : own n none = [] := rfl

theorem own_append (n : Nat) (c : Option (List Chunk)) (x : Chunk) :
    own n (some (c.getD [] ++ [x])) = own n c ++ (entryOf n x).toList := by
  unfold own
  rw [Option.getD_some, List.filterMap_append]
  cases h : entryOf n x <;> simp [h]

theorem opened_own {p : Path} {fs fs' : Fs} (h : Opened p fs fs') (n : Nat) (q : Path) :
    own n (read fs' q) = own n (read fs q) := by
  by_cases hq : q = p
  · subst hq
    rcases h.2.2 with h1 | ⟨h1, h2⟩
    · rw [h1]
    · rw [h1, h2]; rfl
  · rw [h.2.1 q hq]

/-- Putting something into a file adds its entries there. -/
theorem put_own {p : Path} {k : Kind} {text : List Char} {bad : Option Nat} {good r : Bool} {fs fs' : Fs}
    (h : put p k text bad good fs = (fs', r)) (n : Nat) (q : Path) :
    own n (read fs' q) = own n (read fs q) ++
      if q = p ∧ r = true then (entryOf n ⟨k, text⟩).toList else [] := by
  rcases put_cases h with ⟨-, rfl, rfl⟩ | ⟨-, -, rfl, rfl⟩ | ⟨-, rfl, m, -, rfl⟩
  · simp
  · rw [read_store]
    by_cases hq : q = p
    · subst hq; simp [own_append]
    · simp [hq]
  · rw [read_store]
    by_cases hq : q = p
    · subst hq; simp [own_append, entryOf]
    · simp [hq]

/-- Without rotation, an iteration adds the entry to its file, if it is written as a whole. -/
theorem turnHeader_own {I : Fs → List (Nat × Entry × Bool) → Prop} {J : Locals → Prop}
    {σ : Settings} {io : Io} {p : Path} {l : Locals} {k name : Nat} {e : Entry} {fs : Fs}
    {ps : List (Nat × Entry × Bool)}
    (hJ : ∀ (l : Locals) b, J l → J { l with good := b })
    (hsame : ∀ fs fs' ps, (∀ n q, own n (read fs' q) = own n (read fs q)) →
      (∀ q, q ≠ p → read fs' q = read fs q) → (read fs p ≠ none → read fs' p ≠ none) → I fs ps → I fs' ps)
    (hput : ∀ fs fs' ps b, (∀ n q, own n (read fs' q) = own n (read fs q) ++
        if q = p ∧ b = true ∧ name = n then [e] else []) →
      (∀ q, q ≠ p → read fs' q = read fs q) → (read fs p ≠ none → read fs' p ≠ none) →
      I fs ps → I fs' (ps ++ [(name, e, b)]))
    (hl : J l) (hI : I fs ps) : After I J name e ps (turnHeader σ io p l k name e fs) := by
  have hother : ∀ {k text bad good fs fs' r}, put p k text bad good fs = (fs', r) →
      (∀ q, q ≠ p → read fs' q = read fs q) ∧ (read fs p ≠ none → read fs' p ≠ none) := by
    intro k text bad good fs fs' r h
    rcases put_cases h with ⟨-, rfl, rfl⟩ | ⟨-, -, rfl, rfl⟩ | ⟨-, rfl, m, -, rfl⟩
    · exact ⟨fun _ _ => rfl, fun h => h⟩
    · exact ⟨fun q hq => read_store_other _ _ hq, fun _ => by rw [read_store_self]; simp⟩
    · exact ⟨fun q hq => read_store_other _ _ hq, fun _ => by rw [read_store_self]; simp⟩
  have hentry : ∀ (l : Locals) fs, J l → I fs ps → After I J name e ps (turnEntry σ io p l name e fs) := by
    intro l fs hl hI
    rcases turnEntry_cases σ io p l name e fs with ⟨text, fs₁, b, -, hp, heq⟩ | ⟨text', fs₁, b, hw, hp, heq⟩ | heq
      <;> rw [heq]
    · refine ⟨hput fs fs₁ ps b ?_ (hother hp).1 (hother hp).2 hI, hJ _ _ hl⟩
      intro n q
      rw [put_own hp n q]
      congr 1
      by_cases h1 : q = p <;> by_cases h2 : b = true <;> by_cases h3 : name = n <;> simp [h1, h2, h3, entryOf]
    · refine hput fs fs₁ ps false ?_ (hother hp).1 (hother hp).2 hI
      intro n q
      rw [put_own hp n q]
      simp [entryOf]
    · trivial
  rcases turnHeader_cases σ io p l k name e fs with ⟨-, heq⟩ | ⟨text, fs₁, b, -, hk, -, hp, heq⟩ |
    ⟨text, fs₁, b, -, hk, -, hp, heq⟩ | ⟨-, -, -, heq⟩ <;> rw [heq]
  · exact hentry l fs hl hI
  · refine hentry _ _ (hJ _ _ hl) (hsame fs fs₁ ps ?_ (hother hp).1 (hother hp).2 hI)
    intro n q; rw [put_own hp n q]; simp [entryOf]
  · refine hsame fs fs₁ ps ?_ (hother hp).1 (hother hp).2 hI
    intro n q; rw [put_own hp n q]; simp [entryOf]
  · trivial

/-- Without rotation, each file contains exactly what was written for its log file. -/
theorem disk_exact {paths : Nat → Path} {okIo : Io → Prop} {fs : Fs} {s : State} (h0 : okIo {})
    (hfs : Fresh fs) (h : Reaches paths (·.fileRotationSize = 0) okIo fs s) (n : Nat) :
    own n (read s.fs (paths n)) = written s n := by
  refine (disk_invariant (okIo := okIo) (I := fun fs ps => ∀ n, own n (read fs (paths n)) = wr ps n)
    (J := fun l => l.fileRotationSize = 0) h0 ?_ (fun _ h => h) ?_ ?_ h).1 n
  · intro σ m fs fs' ps _ ho hI n
    rw [opened_own ho n, hI n]
  · intro σ m io l e fs ps _ _ hl hI
    rcases turn_cases σ io (paths m) l m e fs with ⟨hno, ht⟩ | ⟨h1, -, -⟩
    · rw [ht]
      refine turnHeader_own (fun l b h => h) ?_ ?_ hl hI
      · intro fs fs' ps h _ _ hI n
        rw [h, hI]
      · intro fs fs' ps b h _ _ hI n
        rw [h, hI, wr_append]
        congr 1
        by_cases hn : m = n
        · subst hn
          by_cases hb : b = true <;> simp [hb]
        · simp [hn]
    · exact absurd hl h1
  · intro n
    cases hr : read fs (paths n) with
    | none => rfl
    | some c =>
      unfold own wr
      rw [Option.getD_some, List.filterMap_nil, List.filterMap_eq_nil_iff]
      intro x hx
      simp [entryOf, hfs _ c hr x hx]

/-! ## Rotated files -/

/-- The entries `o n`, ..., `o 0`. -/
def chainOf (o : Nat → List Entry) : Nat → List Entry
  | 0 => o 0
  | n + 1 => o (n + 1) ++ chainOf o n

theorem chain_eq (fs : Fs) (p : Path) (name n : Nat) :
    chain fs p name n = chainOf (fun i => own name (read fs (pathAt p i))) n := by
  induction n with
  | zero => rfl
  | succ n ih => rw [chain, chainOf, ih]

theorem chainOf_congr {o o' : Nat → List Entry} {n : Nat} (h : ∀ i ≤ n, o' i = o i) :
    chainOf o' n = chainOf o n := by
  induction n with
  | zero => exact h 0 (Nat.le_refl _)
  | succ n ih => rw [chainOf, chainOf, h (n + 1) (Nat.le_refl _), ih (fun i hi => h i (by omega))]

theorem chain_congr {fs fs' : Fs} {p : Path} {name : Nat}
    (h : ∀ i, own name (read fs' (pathAt p i)) = own name (read fs (pathAt p i))) (n : Nat) :
    chain fs' p name n = chain fs p name n := by
  rw [chain_eq, chain_eq]
  exact chainOf_congr (fun i _ => h i)

theorem chainOf_sublist {o o' : Nat → List Entry} {n : Nat} (h : ∀ i ≤ n, (o' i).Sublist (o i)) :
    (chainOf o' n).Sublist (chainOf o n) := by
  induction n with
  | zero => exact h 0 (Nat.le_refl _)
  | succ n ih =>
    rw [chainOf, chainOf]
    exact (h (n + 1) (Nat.le_refl _)).append (ih (fun i hi => h i (by omega)))

/-- A file is given the next number. -/
theorem chainOf_move {o o' : Nat → List Entry} {i : Nat} (h1 : o (i + 1) = []) (h2 : o' i = [])
    (h3 : o' (i + 1) = o i) (h4 : ∀ j, j ≠ i → j ≠ i + 1 → o' j = o j) (n : Nat) :
    (chainOf o' n).Sublist (chainOf o n) := by
  have hlow : ∀ n, n < i → chainOf o' n = chainOf o n :=
    fun n hn => chainOf_congr (fun j hj => h4 j (by omega) (by omega))
  have hat : (chainOf o' i).Sublist (chainOf o i) ∧ o i ++ chainOf o' i = chainOf o i := by
    cases i with
    | zero => simp [chainOf, h2]
    | succ k =>
      rw [chainOf, chainOf, h2, hlow k (by omega)]
      exact ⟨List.sublist_append_right .., rfl⟩
  have hhigh : ∀ d, chainOf o' (i + 1 + d) = chainOf o (i + 1 + d) := by
    intro d
    induction d with
    | zero => rw [Nat.add_zero, chainOf, chainOf, h1, h3, hat.2, List.nil_append]
    | succ d ih => rw [← Nat.add_assoc, chainOf, chainOf, ih, h4 _ (by omega) (by omega)]
  rcases Nat.lt_trichotomy n i with h | h | h
  · rw [hlow n h]
  · rw [h]; exact hat.1
  · obtain ⟨d, rfl⟩ := Nat.exists_eq_add_of_le (show i + 1 ≤ n by omega)
    rw [hhigh d]

theorem shift_chain {p : Path} {limit : Nat} {fs fs' : Fs} (h : Shift p limit fs fs') (name n : Nat) :
    (chain fs' p name n).Sublist (chain fs p name n) := by
  induction h with
  | refl => exact List.Sublist.refl _
  | remove i hi _ ih =>
    refine ih.trans ?_
    rw [chain_eq, chain_eq]
    refine chainOf_sublist fun j _ => ?_
    rw [read_remove]
    split
    · rw [own_none]; exact List.nil_sublist _
    · exact List.Sublist.refl _
  | rename i c hi hc hf _ ih =>
    refine ih.trans ?_
    rw [chain_eq, chain_eq]
    refine chainOf_move (i := i) ?_ ?_ ?_ ?_ n
    · simp only [hf, own_none]
    · rw [read_store_other _ _ (pathAt_ne (by omega)), read_remove_self, own_none]
    · rw [read_store_self, hc]
    · intro j h1 h2
      rw [read_store_other _ _ (pathAt_ne h2), read_remove_other _ (pathAt_ne h1)]

/-- Adding to the current file adds to the end of the chain. -/
theorem chain_put {fs fs' : Fs} {p : Path} {name : Nat} {x : List Entry}
    (h0 : own name (read fs' p) = own name (read fs p) ++ x)
    (h : ∀ q, q ≠ p → read fs' q = read fs q) (n : Nat) :
    chain fs' p name n = chain fs p name n ++ x := by
  induction n with
  | zero => rw [chain, chain, pathAt_zero, h0]
  | succ n ih =>
    have hne : pathAt p (n + 1) ≠ p := by
      intro e
      have := pathAt_inj (e.trans (pathAt_zero p).symm)
      omega
    rw [chain, chain, ih, h _ hne, List.append_assoc]

theorem Separate.distinct {paths : Nat → Path} (h : Separate paths) : Distinct paths :=
  fun m n i j e => by rw [h m n i j e]

theorem fresh_own {fs : Fs} (h : Fresh fs) (n : Nat) (q : Path) : own n (read fs q) = [] := by
  cases hr : read fs q with
  | none => rfl
  | some c =>
    unfold own
    rw [Option.getD_some, List.filterMap_eq_nil_iff]
    intro x hx
    simp [entryOf, h _ c hr x hx]

theorem chain_fresh {fs : Fs} (h : Fresh fs) (p : Path) (name n : Nat) : chain fs p name n = [] := by
  induction n with
  | zero => exact fresh_own h ..
  | succ n ih => rw [chain, ih, fresh_own h]; rfl

/-- Whatever fails, the entries in the files of a log file, from the oldest file to the
newest, are entries that were written, in order. -/
theorem disk_sublist {paths : Nat → Path} {okσ : Settings → Prop} {okIo : Io → Prop} {fs : Fs} {s : State}
    (h0 : okIo {}) (hsep : Distinct paths) (hfs : Fresh fs) (h : Reaches paths okσ okIo fs s) (n k : Nat) :
    (chain s.fs (paths n) n k).Sublist (written s n) := by
  refine (disk_invariant (okIo := okIo)
    (I := fun fs ps => ∀ n k, (chain fs (paths n) n k).Sublist (wr ps n))
    (J := fun _ => True) h0 ?_ (fun _ _ => trivial) ?_ ?_ h).1 n k
  · intro σ m fs fs' ps _ ho hI n k
    rw [chain_congr (fun i => opened_own ho n _)]
    exact hI n k
  · intro σ m io l e fs ps _ _ _ hI
    have hshift : ∀ {limit fs'}, Shift (paths m) limit fs fs' →
        ∀ n k, (chain fs' (paths n) n k).Sublist (wr ps n) := by
      intro limit fs' hs n k
      by_cases hn : paths m = paths n
      · rw [hn] at hs; exact (shift_chain hs n k).trans (hI n k)
      · rw [chain_congr (fs := fs) (fun i => by rw [shift_other hs (fun j e => hn (hsep _ _ _ _ e).symm)])]
        exact hI n k
    have hheader : ∀ l k' fs, (∀ n k, (chain fs (paths n) n k).Sublist (wr ps n)) →
        After (fun fs ps => ∀ n k, (chain fs (paths n) n k).Sublist (wr ps n)) (fun _ => True) m e ps
          (turnHeader σ io (paths m) l k' m e fs) := by
      intro l k' fs hI
      refine turnHeader_own (fun l b h => trivial) ?_ ?_ trivial hI
      · intro fs fs' ps h _ _ hI n k
        rw [chain_congr (fun i => h n _)]
        exact hI n k
      · intro fs fs' ps b h ho _ hI n k
        rw [wr_append]
        by_cases hn : m = n
        · subst hn
          rw [chain_put (x := if m = m ∧ b = true then [e] else []) (by rw [h]; simp) ho]
          exact (hI m k).append (List.Sublist.refl _)
        · rw [chain_congr (fs := fs) (fun i => by rw [h]; simp [hn])]
          simpa [hn] using hI n k
    rcases turn_cases σ io (paths m) l m e fs with ⟨hno, ht⟩ | ⟨-, -, fs₁, b, hr, ⟨-, ht⟩ | ⟨rfl, fs₂, b', ho, ⟨-, ht⟩ | ⟨rfl, ht⟩⟩⟩ <;>
      rw [ht]
    · exact hheader _ _ _ hI
    · exact hshift (rotate_shift hr).1
    · intro n k
      rw [chain_congr (fun i => opened_own (openFile_opened ho).1 n _)]
      exact hshift (rotate_shift hr).1 n k
    · refine hheader _ _ _ ?_
      intro n k
      rw [chain_congr (fun i => opened_own (openFile_opened ho).1 n _)]
      exact hshift (rotate_shift hr).1 n k
  · intro n k
    rw [chain_fresh hfs]
    exact List.nil_sublist _

/-- With a fixed limit there are entries only in the files with numbers up to the limit. -/
theorem disk_limit {paths : Nat → Path} {limit : Nat} {okIo : Io → Prop} {fs : Fs} {s : State}
    (h0 : okIo {}) (hsep : Distinct paths) (hfs : Fresh fs)
    (h : Reaches paths (·.fileRotationLimit = limit) okIo fs s) (n i : Nat) (hi : limit < i) :
    own n (read s.fs (pathAt (paths n) i)) = [] := by
  refine (disk_invariant (okIo := okIo)
    (I := fun fs _ => ∀ n i, limit < i → own n (read fs (pathAt (paths n) i)) = [])
    (J := fun _ => True) h0 ?_ (fun _ _ => trivial) ?_ ?_ h).1 n i hi
  · intro σ m fs fs' ps _ ho hI n i hi
    rw [opened_own ho n _, hI n i hi]
  · intro σ m io l e fs ps hσ _ _ hI
    have hne : ∀ n i, 0 < i → pathAt (paths n) i ≠ paths m := by
      intro n i hi e
      rw [← pathAt_zero (paths m)] at e
      have hp := hsep _ _ _ _ e
      rw [hp] at e
      have := pathAt_inj e
      omega
    have hshift : ∀ {fs fs'}, Shift (paths m) limit fs fs' →
        (∀ n i, limit < i → own n (read fs (pathAt (paths n) i)) = []) →
        ∀ n i, limit < i → own n (read fs' (pathAt (paths n) i)) = [] := by
      intro fs fs' hs
      induction hs with
      | refl => exact fun h => h
      | remove j hj _ ih =>
        intro hI
        refine ih ?_
        intro n i hi
        rw [read_remove]
        split
        · rfl
        · exact hI n i hi
      | rename j c hj hc hf _ ih =>
        intro hI
        refine ih ?_
        intro n i hi
        rw [read_store_other, read_remove]
        · split
          · rfl
          · exact hI n i hi
        · intro e
          have hp := hsep _ _ _ _ e
          rw [hp] at e
          have := pathAt_inj e
          omega
    have hheader : ∀ l k' fs, (∀ n i, limit < i → own n (read fs (pathAt (paths n) i)) = []) →
        After (fun fs _ => ∀ n i, limit < i → own n (read fs (pathAt (paths n) i)) = []) (fun _ => True) m e ps
          (turnHeader σ io (paths m) l k' m e fs) := by
      intro l k' fs hI
      refine turnHeader_own (fun l b h => trivial) ?_ ?_ trivial hI
      · intro fs fs' ps h _ _ hI n i hi
        rw [h, hI n i hi]
      · intro fs fs' ps b h ho _ hI n i hi
        rw [ho _ (hne n i (by omega)), hI n i hi]
    have hrs : ∀ {fs₁ b}, rotate io.rotating (paths m) σ.fileRotationLimit fs = (fs₁, b) →
        Shift (paths m) limit fs fs₁ := by
      intro fs₁ b hr
      rw [show σ.fileRotationLimit = limit from hσ] at hr
      exact (rotate_shift hr).1
    rcases turn_cases σ io (paths m) l m e fs with ⟨hno, ht⟩ | ⟨-, -, fs₁, b, hr, ⟨-, ht⟩ | ⟨rfl, fs₂, b', ho, ⟨-, ht⟩ | ⟨rfl, ht⟩⟩⟩ <;>
      rw [ht]
    · exact hheader _ _ _ hI
    · exact hshift (hrs hr) hI
    · intro n i hi
      rw [opened_own (openFile_opened ho).1 n _, hshift (hrs hr) hI n i hi]
    · refine hheader _ _ _ ?_
      intro n i hi
      rw [opened_own (openFile_opened ho).1 n _, hshift (hrs hr) hI n i hi]
  · intro n i _
    exact fresh_own hfs ..

/-- Rotating without failures. -/
theorem chainOf_rotated {o o' : Nat → List Entry} {m : Nat} (h0 : o' 0 = [])
    (h1 : ∀ i, i < m → o' (i + 1) = o i) (h2 : ∀ i, m < i → o' i = []) (n : Nat) :
    chainOf o' n <:+ chainOf o n := by
  have heq : ∀ n, n < m → chainOf o' (n + 1) = chainOf o n := by
    intro n
    induction n with
    | zero => intro h; rw [chainOf, chainOf, chainOf, h0, h1 0 h, List.append_nil]
    | succ n ih => intro h; rw [chainOf, h1 _ h, ih (by omega), chainOf]
  induction n with
  | zero => rw [chainOf, h0]; exact List.nil_suffix
  | succ n ih =>
    by_cases h : n < m
    · rw [heq n h]
      exact List.suffix_append ..
    · rw [chainOf, h2 _ (by omega), List.nil_append]
      exact ih.trans (List.suffix_append ..)

/-- Unless rotation fails, the entries in the files of a log file are the last ones that were
written. -/
theorem disk_suffix {paths : Nat → Path} {okσ : Settings → Prop} {fs : Fs} {s : State}
    (hsep : Distinct paths) (hfs : Fresh fs)
    (h : Reaches paths okσ (fun io => io.rotating = {}) fs s) (n k : Nat) :
    chain s.fs (paths n) n k <:+ written s n := by
  let I : Fs → List (Nat × Entry × Bool) → Prop := fun fs ps =>
    (∀ n k, chain fs (paths n) n k <:+ wr ps n) ∧
    ∀ n i, own n (read fs (pathAt (paths n) i)) ≠ [] → ∀ j, 1 ≤ j → j ≤ i →
      read fs (pathAt (paths n) j) ≠ none
  have hsame : ∀ fs fs' ps, (∀ n q, own n (read fs' q) = own n (read fs q)) →
      (∀ q, read fs q ≠ none → read fs' q ≠ none) → I fs ps → I fs' ps := by
    intro fs fs' ps h1 h2 hI
    refine ⟨?_, ?_⟩
    · intro n k
      rw [chain_congr (fun i => h1 n _)]
      exact hI.1 n k
    · intro n i hne j hj hji
      rw [h1] at hne
      exact h2 _ (hI.2 n i hne j hj hji)
  have hopen : ∀ {p fs fs'} ps, Opened p fs fs' → I fs ps → I fs' ps := by
    intro p fs fs' ps ho
    refine hsame fs fs' ps (fun n q => opened_own ho n q) ?_
    intro q hq
    by_cases hqp : q = p
    · subst hqp
      rcases ho.2.2 with h1 | ⟨h1, -⟩
      · rw [h1]; exact hq
      · exact absurd h1 hq
    · rw [ho.2.1 q hqp]; exact hq
  refine (disk_invariant (okIo := fun io => io.rotating = {}) (I := I)
    (J := fun _ => True) rfl (fun σ m fs fs' ps _ ho hI => hopen ps ho hI) (fun _ _ => trivial) ?_ ?_ h).1.1 n k
  · intro σ m io l e fs ps _ hio _ hI
    have hheader : ∀ l k' fs, I fs ps → After I (fun _ => True) m e ps
          (turnHeader σ io (paths m) l k' m e fs) := by
      intro l k' fs hI
      refine turnHeader_own (fun l b h => trivial) ?_ ?_ trivial hI
      · intro fs fs' ps h ho hp hI
        refine hsame fs fs' ps h ?_ hI
        intro q hq
        by_cases hqp : q = paths m
        · subst hqp; exact hp hq
        · rw [ho q hqp]; exact hq
      · intro fs fs' ps b h ho hp hI
        refine ⟨?_, ?_⟩
        · intro n k
          rw [wr_append]
          by_cases hn : m = n
          · subst hn
            rw [chain_put (x := if m = m ∧ b = true then [e] else []) (by rw [h]; simp) ho]
            obtain ⟨t, ht⟩ := hI.1 m k
            exact ⟨t, by rw [← ht, List.append_assoc]⟩
          · rw [chain_congr (fs := fs) (fun i => by rw [h]; simp [hn])]
            simpa [hn] using hI.1 n k
        · intro n i hne j hj hji
          have hj' : pathAt (paths n) j ≠ paths m := by
            intro e
            rw [← pathAt_zero (paths m)] at e
            have hp := hsep _ _ _ _ e
            rw [hp] at e
            have := pathAt_inj e
            omega
          have hi' : pathAt (paths n) i ≠ paths m := by
            intro e
            rw [← pathAt_zero (paths m)] at e
            have hp := hsep _ _ _ _ e
            rw [hp] at e
            have := pathAt_inj e
            omega
          rw [ho _ hi'] at hne
          rw [ho _ hj']
          exact hI.2 n i hne j hj hji
    have hrot : ∀ {fs₁ b}, rotate io.rotating (paths m) σ.fileRotationLimit fs = (fs₁, b) → I fs₁ ps := by
      intro fs₁ b hr
      obtain ⟨k, hk1, hk2⟩ := exists_first fs (paths m)
      rw [hio] at hr
      obtain ⟨fs', h1, h2, h3, h4⟩ := rotate_spec (f := {}) (limit := σ.fileRotationLimit) rfl rfl hk1 hk2
      rw [h1] at hr
      cases hr
      have hoth : ∀ n, paths m ≠ paths n → ∀ i, read fs₁ (pathAt (paths n) i) = read fs (pathAt (paths n) i) := by
        intro n hn i
        exact h3 _ (fun j e => hn (hsep _ _ _ _ e).symm)
      have hbeyond : ∀ n, paths m = paths n → 0 < k → ∀ i, k ≤ i → own n (read fs (pathAt (paths m) i)) = [] := by
        intro n hn hk0 i hi
        by_contra hne
        rw [hn] at hne hk2
        exact hI.2 n i hne k hk0 hi hk2
      by_cases hk0 : k = 0
      · -- there is no current file
        subst hk0
        have heq : ∀ i, read fs₁ (pathAt (paths m) i) = read fs (pathAt (paths m) i) := by
          intro i
          rw [h4]
          unfold rotated
          by_cases hi : i = 0
          · rw [if_pos hi, hi, hk2]
          · rw [if_neg hi, if_neg (by omega), if_neg (by omega)]
        have heq' : ∀ n i, read fs₁ (pathAt (paths n) i) = read fs (pathAt (paths n) i) := by
          intro n i
          by_cases hn : paths m = paths n
          · rw [← hn]; exact heq i
          · exact hoth n hn i
        refine ⟨?_, ?_⟩
        · intro n k
          rw [chain_congr (fs := fs) (fun i => by rw [heq'])]
          exact hI.1 n k
        · intro n i hne j hj hji
          rw [heq'] at hne ⊢
          exact hI.2 n i hne j hj hji
      · refine ⟨?_, ?_⟩
        · intro n k'
          by_cases hn : paths m = paths n
          · have hb := hbeyond n hn (by omega)
            refine List.IsSuffix.trans ?_ (hI.1 n k')
            rw [← hn, chain_eq, chain_eq]
            refine chainOf_rotated (m := min k σ.fileRotationLimit) ?_ ?_ ?_ k'
            · rw [h4]; rfl
            · intro i hi
              rw [h4]
              unfold rotated
              rw [if_neg (by omega), if_pos (by omega)]
              rfl
            · intro i hi
              rw [h4]
              unfold rotated
              rw [if_neg (by omega), if_neg (by omega)]
              split
              · rfl
              · exact hb i (by omega)
          · rw [chain_congr (fs := fs) (fun i => by rw [hoth n hn])]
            exact hI.1 n k'
        · intro n i hne j hj hji
          by_cases hn : paths m = paths n
          · have hb := hbeyond n hn (by omega)
            rw [← hn, h4] at hne ⊢
            unfold rotated at hne ⊢
            by_cases hi0 : i = 0
            · omega
            rw [if_neg hi0] at hne
            rw [if_neg (by omega)]
            by_cases hi1 : i ≤ k ∧ i ≤ σ.fileRotationLimit
            · rw [if_pos (by omega)]
              exact hk1 _ (by omega)
            · rw [if_neg hi1] at hne
              split at hne
              · exact absurd rfl hne
              · exact absurd (hb i (by omega)) hne
          · rw [hoth n hn] at hne ⊢
            exact hI.2 n i hne j hj hji
    rcases turn_cases σ io (paths m) l m e fs with ⟨hno, ht⟩ | ⟨-, -, fs₁, b, hr, ⟨-, ht⟩ | ⟨rfl, fs₂, b', ho, ⟨-, ht⟩ | ⟨rfl, ht⟩⟩⟩ <;>
      rw [ht]
    · exact hheader _ _ _ hI
    · exact hrot hr
    · exact hopen ps (openFile_opened ho).1 (hrot hr)
    · exact hheader _ _ _ (hopen ps (openFile_opened ho).1 (hrot hr))
  · refine ⟨?_, ?_⟩
    · intro n k
      rw [chain_fresh hfs]
      exact List.nil_suffix
    · intro n i hne
      exact absurd (fresh_own hfs ..) hne

/-- A file is given the next number. -/
theorem chainOf_move_suffix {o o' : Nat → List Entry} {i : Nat} (h1 : o (i + 1) = []) (h2 : o' i = [])
    (h3 : o' (i + 1) = o i) (h4 : ∀ j, j ≠ i → j ≠ i + 1 → o' j = o j) (n : Nat) :
    chainOf o' n <:+ chainOf o n := by
  have hlow : ∀ n, n < i → chainOf o' n = chainOf o n :=
    fun n hn => chainOf_congr (fun j hj => h4 j (by omega) (by omega))
  have hat : o i ++ chainOf o' i = chainOf o i := by
    cases i with
    | zero => simp [chainOf, h2]
    | succ k => rw [chainOf, chainOf, h2, hlow k (by omega)]; rfl
  have hhigh : ∀ d, chainOf o' (i + 1 + d) = chainOf o (i + 1 + d) := by
    intro d
    induction d with
    | zero => rw [Nat.add_zero, chainOf, chainOf, h1, h3, hat, List.nil_append]
    | succ d ih => rw [← Nat.add_assoc, chainOf, chainOf, ih, h4 _ (by omega) (by omega)]
  rcases Nat.lt_trichotomy n i with h | h | h
  · rw [hlow n h]; exact List.suffix_refl _
  · rw [h]; exact ⟨_, hat⟩
  · obtain ⟨d, rfl⟩ := Nat.exists_eq_add_of_le (show i + 1 ≤ n by omega)
    rw [hhigh d]; exact List.suffix_refl _

/-- The oldest file is removed. -/
theorem chainOf_oldest {o o' : Nat → List Entry} {i : Nat} (h1 : ∀ j, i < j → o j = []) (h2 : o' i = [])
    (h3 : ∀ j, j ≠ i → o' j = o j) (n : Nat) : chainOf o' n <:+ chainOf o n := by
  induction n with
  | zero =>
    by_cases h : i = 0
    · subst h; rw [chainOf, h2]; exact List.nil_suffix
    · rw [chainOf, chainOf, h3 0 (by omega)]; exact List.suffix_refl _
  | succ n ih =>
    rcases Nat.lt_trichotomy (n + 1) i with h | h | h
    · rw [chainOf_congr (o := o) (fun j hj => h3 j (by omega))]; exact List.suffix_refl _
    · subst h
      rw [chainOf, h2, List.nil_append]
      exact ih.trans ⟨_, rfl⟩
    · rw [chainOf, h3 _ (by omega), h1 _ h, List.nil_append]
      exact ih.trans ⟨_, rfl⟩

/-- With a fixed limit the entries in the files of a log file are the last ones that were
written, whatever fails. -/
theorem disk_suffix_fixed {paths : Nat → Path} {limit : Nat} {okIo : Io → Prop} {fs : Fs} {s : State}
    (h0 : okIo {}) (hsep : Distinct paths) (hfs : Fresh fs)
    (h : Reaches paths (·.fileRotationLimit = limit) okIo fs s) (n k : Nat) :
    chain s.fs (paths n) n k <:+ written s n := by
  let I : Fs → List (Nat × Entry × Bool) → Prop := fun fs ps =>
    (∀ n k, chain fs (paths n) n k <:+ wr ps n) ∧
    ∀ n i, limit < i → own n (read fs (pathAt (paths n) i)) = []
  have hsame : ∀ fs fs' ps, (∀ n q, own n (read fs' q) = own n (read fs q)) → I fs ps → I fs' ps := by
    intro fs fs' ps h1 hI
    refine ⟨fun n k => ?_, fun n i hi => ?_⟩
    · rw [chain_congr (fun i => h1 n _)]; exact hI.1 n k
    · rw [h1]; exact hI.2 n i hi
  have hopen : ∀ {p fs fs'} ps, Opened p fs fs' → I fs ps → I fs' ps :=
    fun ps ho => hsame _ _ ps fun n q => opened_own ho n q
  refine (disk_invariant (okIo := okIo) (I := I)
    (J := fun _ => True) h0 (fun σ m fs fs' ps _ ho hI => hopen ps ho hI) (fun _ _ => trivial) ?_ ?_ h).1.1 n k
  · intro σ m io l e fs ps hσ _ _ hI
    have hheader : ∀ l k' fs, I fs ps → After I (fun _ => True) m e ps
          (turnHeader σ io (paths m) l k' m e fs) := by
      intro l k' fs hI
      refine turnHeader_own (fun l b h => trivial) ?_ ?_ trivial hI
      · intro fs fs' ps h ho hp hI
        exact hsame fs fs' ps h hI
      · intro fs fs' ps b h ho hp hI
        refine ⟨?_, ?_⟩
        · intro n k
          rw [wr_append]
          by_cases hn : m = n
          · subst hn
            rw [chain_put (x := if m = m ∧ b = true then [e] else []) (by rw [h]; simp) ho]
            obtain ⟨t, ht⟩ := hI.1 m k
            exact ⟨t, by rw [← ht, List.append_assoc]⟩
          · rw [chain_congr (fs := fs) (fun i => by rw [h]; simp [hn])]
            simpa [hn] using hI.1 n k
        · intro n i hi
          rw [ho, hI.2 n i hi]
          intro e
          rw [← pathAt_zero (paths m)] at e
          have hp := hsep _ _ _ _ e
          rw [hp] at e
          have := pathAt_inj e
          omega
    have hshift : ∀ {fs fs'}, Shift (paths m) limit fs fs' → I fs ps → I fs' ps := by
      intro fs fs' hs
      induction hs with
      | refl => exact fun h => h
      | @remove fs fs' j hj _ ih =>
        intro hI
        refine ih ⟨?_, ?_⟩
        · intro n k
          by_cases hn : paths m = paths n
          · refine List.IsSuffix.trans ?_ (hI.1 n k)
            rw [← hn, chain_eq, chain_eq]
            refine chainOf_oldest (i := j) (fun i hi => by rw [hn]; exact hI.2 n i (by omega)) ?_ ?_ k
            · rw [read_remove_self]; rfl
            · intro i hi
              rw [read_remove_other _ (pathAt_ne hi)]
          · rw [chain_congr (fs := fs)
              (fun i => by rw [read_remove_other _ (fun e => hn (hsep _ _ _ _ e).symm)])]
            exact hI.1 n k
        · intro n i hi
          rw [read_remove]
          split
          · rfl
          · exact hI.2 n i hi
      | @rename fs fs' j c hj hc hf _ ih =>
        intro hI
        refine ih ⟨?_, ?_⟩
        · intro n k
          by_cases hn : paths m = paths n
          · refine List.IsSuffix.trans ?_ (hI.1 n k)
            rw [← hn, chain_eq, chain_eq]
            refine chainOf_move_suffix (i := j) ?_ ?_ ?_ ?_ k
            · rw [hf]; rfl
            · rw [read_store_other _ _ (pathAt_ne (by omega)), read_remove_self]; rfl
            · rw [read_store_self, hc]
            · intro i h1 h2
              rw [read_store_other _ _ (pathAt_ne h2), read_remove_other _ (pathAt_ne h1)]
          · rw [chain_congr (fs := fs)
              (fun i => by
                rw [read_store_other _ _ (fun e => hn (hsep _ _ _ _ e).symm),
                  read_remove_other _ (fun e => hn (hsep _ _ _ _ e).symm)])]
            exact hI.1 n k
        · intro n i hi
          rw [read_store_other, read_remove]
          · split
            · rfl
            · exact hI.2 n i hi
          · intro e
            have hp := hsep _ _ _ _ e
            rw [hp] at e
            have := pathAt_inj e
            omega
    have hrs : ∀ {fs₁ b}, rotate io.rotating (paths m) σ.fileRotationLimit fs = (fs₁, b) →
        Shift (paths m) limit fs fs₁ := by
      intro fs₁ b hr
      rw [show σ.fileRotationLimit = limit from hσ] at hr
      exact (rotate_shift hr).1
    rcases turn_cases σ io (paths m) l m e fs with ⟨hno, ht⟩ | ⟨-, -, fs₁, b, hr, ⟨-, ht⟩ | ⟨rfl, fs₂, b', ho, ⟨-, ht⟩ | ⟨rfl, ht⟩⟩⟩ <;>
      rw [ht]
    · exact hheader _ _ _ hI
    · exact hshift (hrs hr) hI
    · exact hopen ps (openFile_opened ho).1 (hshift (hrs hr) hI)
    · exact hheader _ _ _ (hopen ps (openFile_opened ho).1 (hshift (hrs hr) hI))
  · refine ⟨?_, ?_⟩
    · intro n k
      rw [chain_fresh hfs]
      exact List.nil_suffix
    · intro n i _
      exact fresh_own hfs ..

theorem disk_placed {paths : Nat → Path} {okσ : Settings → Prop} {okIo : Io → Prop} {fs : Fs} {s : State}
    (h0 : okIo {}) (hsep : Distinct paths) (hfs : Fresh fs) (h : Reaches paths okσ okIo fs s) :
    Placed paths s.fs := by
  refine (disk_invariant (okIo := okIo) (I := fun fs _ => Placed paths fs)
    (J := fun _ => True) h0 ?_ (fun _ _ => trivial) ?_ ?_ h).1
  · intro σ m fs fs' ps _ ho hI q n hne
    rw [opened_own ho n q] at hne
    exact hI q n hne
  · intro σ m io l e fs ps _ _ _ hI
    have hshift : ∀ {limit fs fs'}, Shift (paths m) limit fs fs' → Placed paths fs → Placed paths fs' := by
      intro limit fs fs' hs
      induction hs with
      | refl => exact fun h => h
      | remove j hj _ ih =>
        intro hI
        refine ih ?_
        intro q n hne
        rw [read_remove] at hne
        split at hne
        · exact absurd rfl hne
        · exact hI q n hne
      | rename j c hj hc hf _ ih =>
        intro hI
        refine ih ?_
        intro q n hne
        rw [read_store] at hne
        split at hne
        · rename_i hq
          rw [← hc] at hne
          obtain ⟨i, hi⟩ := hI _ n hne
          have hp := hsep _ _ _ _ hi
          exact ⟨j + 1, by rw [← hp]; exact hq⟩
        · rw [read_remove] at hne
          split at hne
          · exact absurd rfl hne
          · exact hI q n hne
    have hheader : ∀ l k' fs, Placed paths fs →
        After (fun fs _ => Placed paths fs) (fun _ => True) m e ps
          (turnHeader σ io (paths m) l k' m e fs) := by
      intro l k' fs hI
      refine turnHeader_own (fun l b h => trivial) ?_ ?_ trivial hI
      · intro fs fs' ps h _ _ hI q n hne
        rw [h] at hne
        exact hI q n hne
      · intro fs fs' ps b h ho _ hI q n hne
        rw [h] at hne
        by_cases hc : q = paths m ∧ b = true ∧ m = n
        · exact ⟨0, by rw [pathAt_zero, hc.1, hc.2.2]⟩
        · rw [if_neg hc, List.append_nil] at hne
          exact hI q n hne
    have hopened : ∀ {p fs fs'}, Opened p fs fs' → Placed paths fs → Placed paths fs' := by
      intro p fs fs' ho hI q n hne
      rw [opened_own ho n q] at hne
      exact hI q n hne
    rcases turn_cases σ io (paths m) l m e fs with ⟨hno, ht⟩ | ⟨-, -, fs₁, b, hr, ⟨-, ht⟩ | ⟨rfl, fs₂, b', ho, ⟨-, ht⟩ | ⟨rfl, ht⟩⟩⟩ <;>
      rw [ht]
    · exact hheader _ _ _ hI
    · exact hshift (rotate_shift hr).1 hI
    · exact hopened (openFile_opened ho).1 (hshift (rotate_shift hr).1 hI)
    · exact hheader _ _ _ (hopened (openFile_opened ho).1 (hshift (rotate_shift hr).1 hI))
  · intro q n hne
    exact absurd (fresh_own hfs ..) hne

end Pluto.Log
