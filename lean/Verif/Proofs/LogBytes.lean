import Verif.Proofs.LogEnd
import Mathlib.Data.List.Induction

/-! # The logger: the bytes in the files -/

namespace Pluto.Log
open Pluto.Spec.Log

/-- The text of every piece is what it should be. -/
theorem turn_worded {w : Entry → List Char} {header : List Char} {σ : Settings} {io : Io} {p : Path} {l : Locals}
    {name : Nat} {e : Entry} {fs : Fs} {ps : List (Nat × Entry × Bool)} (hσ : Writers w header σ)
    (hI : Everywhere (fun _ => Worded w header) fs) :
    After (fun fs _ => Everywhere (fun _ => Worded w header) fs) (fun _ => True) name e ps
      (turn σ io p l name e fs) := by
  have hentry : ∀ (l : Locals) fs, Everywhere (fun _ => Worded w header) fs →
      After (fun fs _ => Everywhere (fun _ => Worded w header) fs) (fun _ => True) name e ps
        (turnEntry σ io p l name e fs) := by
    intro l fs hI
    rcases turnEntry_cases σ io p l name e fs with ⟨text, fs₁, b, hw, hp, heq⟩ | ⟨text', fs₁, b, hw, hp, heq⟩ | heq
    · rw [heq]
      rw [hσ.1] at hw
      cases hw
      rcases put_cases hp with ⟨-, rfl, rfl⟩ | ⟨hg, -, rfl, rfl⟩ | ⟨hg, rfl, n, -, rfl⟩
      · exact ⟨hI, trivial⟩
      · exact ⟨everywhere_store hI rfl, trivial⟩
      · exact ⟨everywhere_store hI (.inr ⟨e, List.take_prefix ..⟩), trivial⟩
    · rw [hσ.1] at hw; cases hw
    · rw [heq]; trivial
  have hheader : ∀ (l : Locals) k fs, Everywhere (fun _ => Worded w header) fs →
      After (fun fs _ => Everywhere (fun _ => Worded w header) fs) (fun _ => True) name e ps
        (turnHeader σ io p l k name e fs) := by
    intro l k fs hI
    rcases turnHeader_cases σ io p l k name e fs with ⟨-, heq⟩ | ⟨text, fs₁, b, -, hk, hw, hp, heq⟩ |
      ⟨text, fs₁, b, -, hk, hw, hp, heq⟩ | ⟨-, -, -, heq⟩ <;> rw [heq]
    · exact hentry l fs hI
    · rw [hσ.2] at hw
      cases hw
      rcases put_cases hp with ⟨-, rfl, rfl⟩ | ⟨hg, -, rfl, rfl⟩ | ⟨hg, rfl, n, -, rfl⟩
      · exact hentry _ _ hI
      · exact hentry _ _ (everywhere_store hI rfl)
      · exact hentry _ _ (everywhere_store hI (.inl (List.take_prefix ..)))
    · rw [hσ.2] at hw; cases hw
    · trivial
  rcases turn_cases σ io p l name e fs with ⟨hno, ht⟩ | ⟨-, -, fs₁, b, hr, ⟨-, ht⟩ | ⟨rfl, fs₂, b', ho, ⟨-, ht⟩ | ⟨rfl, ht⟩⟩⟩ <;>
    rw [ht]
  · exact hheader _ _ _ hI
  · exact everywhere_shift hI (rotate_shift hr).1
  · exact everywhere_opened (everywhere_shift hI (rotate_shift hr).1) (openFile_opened ho).1
  · exact hheader _ _ _ (everywhere_opened (everywhere_shift hI (rotate_shift hr).1) (openFile_opened ho).1)

theorem files_worded {paths : Nat → Path} {w : Entry → List Char} {header : List Char} {okIo : Io → Prop}
    {fs : Fs} {s : State} (hfs : Fresh fs) (h0 : okIo {}) (h : Reaches paths (Writers w header) okIo fs s) :
    Everywhere (fun _ => Worded w header) s.fs := by
  refine (disk_invariant (okIo := okIo) (I := fun fs _ => Everywhere (fun _ => Worded w header) fs)
    (J := fun _ => True) h0
    (fun _ _ _ _ _ _ ho h => everywhere_opened h ho) (fun _ _ => trivial) ?_ ?_ h).1
  · intro σ n io l e fs ps hσ _ hl hI
    exact turn_worded hσ hI
  · refine everywhere_fresh hfs (fun a x hx _ => ?_)
    unfold Worded
    rw [hx]
    trivial

/-- Without headers there are none, and nothing is torn if writing does not fail. -/
theorem turn_plain {b : Bool} {σ : Settings} {io : Io} {p : Path} {l : Locals} {name : Nat} {e : Entry} {fs : Fs}
    {ps : List (Nat × Entry × Bool)} (hσ : GoodWriter σ ∧ ∃ text, σ.headerWriter = .ok text) (hio : Writable io)
    (hl : l.writeHeader = b ∧ l.good = true)
    (hI : Everywhere (fun _ x => x.kind ≠ .torn ∧ (x.kind = .header → b = true)) fs) :
    After (fun fs _ => Everywhere (fun _ x => x.kind ≠ .torn ∧ (x.kind = .header → b = true)) fs)
      (fun l => l.writeHeader = b ∧ l.good = true) name e ps (turn σ io p l name e fs) := by
  have hentry : ∀ (l : Locals) fs, l.writeHeader = b ∧ l.good = true →
      Everywhere (fun _ x => x.kind ≠ .torn ∧ (x.kind = .header → b = true)) fs →
      After (fun fs _ => Everywhere (fun _ x => x.kind ≠ .torn ∧ (x.kind = .header → b = true)) fs)
        (fun l => l.writeHeader = b ∧ l.good = true) name e ps (turnEntry σ io p l name e fs) := by
    intro l fs hl hI
    obtain ⟨text₀, ht₀⟩ := hσ.1 e
    rcases turnEntry_cases σ io p l name e fs with ⟨text, fs₁, b, -, hp, heq⟩ | ⟨text', fs₁, b, hw, hp, heq⟩ | heq
    · rw [heq]
      rw [hio.2, hl.2, put_writable] at hp
      cases hp
      exact ⟨everywhere_store hI ⟨by simp, by simp⟩, hl.1, rfl⟩
    · rw [ht₀] at hw; cases hw
    · rw [heq]; trivial
  have hheader : ∀ (l : Locals) k fs, l.writeHeader = b ∧ l.good = true →
      Everywhere (fun _ x => x.kind ≠ .torn ∧ (x.kind = .header → b = true)) fs →
      After (fun fs _ => Everywhere (fun _ x => x.kind ≠ .torn ∧ (x.kind = .header → b = true)) fs)
        (fun l => l.writeHeader = b ∧ l.good = true) name e ps (turnHeader σ io p l k name e fs) := by
    intro l k fs hl hI
    obtain ⟨text₀, ht₀⟩ := hσ.2
    rcases turnHeader_cases σ io p l k name e fs with ⟨hno, heq⟩ |
      ⟨text, fs₁, b, hwh, hk, -, hp, heq⟩ | ⟨text, fs₁, b, -, hk, hw, hp, heq⟩ | ⟨-, -, hw, heq⟩
    · rw [heq]
      exact hentry l fs hl hI
    · rw [heq]
      rw [hio.1, hl.2, put_writable] at hp
      cases hp
      exact hentry _ _ ⟨hl.1, rfl⟩ (everywhere_store hI ⟨by simp, fun _ => hl.1.symm.trans hwh⟩)
    · rw [ht₀] at hw; cases hw
    · rw [ht₀] at hw; cases hw
  rcases turn_cases σ io p l name e fs with ⟨hno, ht⟩ | ⟨-, -, fs₁, b, hr, ⟨-, ht⟩ | ⟨rfl, fs₂, b', ho, ⟨-, ht⟩ | ⟨rfl, ht⟩⟩⟩ <;>
    rw [ht]
  · exact hheader _ _ _ hl hI
  · exact everywhere_shift hI (rotate_shift hr).1
  · exact everywhere_opened (everywhere_shift hI (rotate_shift hr).1) (openFile_opened ho).1
  · exact hheader _ _ _ ⟨hl.1, rfl⟩ (everywhere_opened (everywhere_shift hI (rotate_shift hr).1) (openFile_opened ho).1)

theorem files_plain {paths : Nat → Path} {b : Bool} {fs : Fs} {s : State} (hfs : Fresh fs)
    (h : Reaches paths (fun σ => (GoodWriter σ ∧ ∃ text, σ.headerWriter = .ok text) ∧ σ.writeHeader = b)
      Writable fs s) :
    Everywhere (fun _ x => x.kind ≠ .torn ∧ (x.kind = .header → b = true)) s.fs := by
  refine (disk_invariant (okIo := Writable)
    (I := fun fs _ => Everywhere (fun _ x => x.kind ≠ .torn ∧ (x.kind = .header → b = true)) fs)
    (J := fun l => l.writeHeader = b ∧ l.good = true) ⟨rfl, rfl⟩
    (fun _ _ _ _ _ _ ho h => everywhere_opened h ho) (fun _ h => ⟨h.2, rfl⟩) ?_ ?_ h).1
  · intro σ n io l e fs ps hσ hio hl hI
    exact turn_plain hσ.1 hio hl hI
  · exact everywhere_fresh hfs (fun a x hx _ => ⟨by rw [hx]; simp, by rw [hx]; simp⟩)

/-- What was there before precedes what is added. -/
theorem files_after {paths : Nat → Path} {okσ : Settings → Prop} {okIo : Io → Prop} {fs : Fs} {s : State}
    (hfs : Fresh fs) (h0 : okIo {}) (h : Reaches paths okσ okIo fs s) :
    Everywhere (fun a x => x.kind = .old → ∀ y ∈ a, y.kind = .old) s.fs := by
  refine (disk_invariant (okIo := okIo)
    (I := fun fs _ => Everywhere (fun a x => x.kind = .old → ∀ y ∈ a, y.kind = .old) fs)
    (J := fun _ => True) h0
    (fun _ _ _ _ _ _ ho h => everywhere_opened h ho) (fun _ _ => trivial) ?_ ?_ h).1
  · intro σ n io l e fs ps _ _ _ hI
    generalize paths n = p
    have hput : ∀ {k : Kind} {text bad good fs fs' r}, k ≠ .old → put p k text bad good fs = (fs', r) →
        Everywhere (fun a x => x.kind = .old → ∀ y ∈ a, y.kind = .old) fs →
        Everywhere (fun a x => x.kind = .old → ∀ y ∈ a, y.kind = .old) fs' := by
      intro k text bad good fs fs' r hk hp hI
      rcases put_cases hp with ⟨-, rfl, rfl⟩ | ⟨hg, -, rfl, rfl⟩ | ⟨hg, rfl, n, -, rfl⟩
      · exact hI
      · exact everywhere_store hI fun h => absurd h hk
      · exact everywhere_store hI fun h => by cases h
    have hentry : ∀ (l : Locals) fs, Everywhere (fun a x => x.kind = .old → ∀ y ∈ a, y.kind = .old) fs →
        After (fun fs _ => Everywhere (fun a x => x.kind = .old → ∀ y ∈ a, y.kind = .old) fs) (fun _ => True) n e ps
          (turnEntry σ io p l n e fs) := by
      intro l fs hI
      rcases turnEntry_cases σ io p l n e fs with ⟨text, fs₁, b, hw, hp, heq⟩ | ⟨text', fs₁, b, hw, hp, heq⟩ | heq <;>
        rw [heq]
      · exact ⟨hput (by simp) hp hI, trivial⟩
      · exact hput (by simp) hp hI
      · trivial
    have hheader : ∀ (l : Locals) k fs, Everywhere (fun a x => x.kind = .old → ∀ y ∈ a, y.kind = .old) fs →
        After (fun fs _ => Everywhere (fun a x => x.kind = .old → ∀ y ∈ a, y.kind = .old) fs) (fun _ => True) n e ps
          (turnHeader σ io p l k n e fs) := by
      intro l k fs hI
      rcases turnHeader_cases σ io p l k n e fs with ⟨-, heq⟩ | ⟨text, fs₁, b, -, hk, hw, hp, heq⟩ |
        ⟨text, fs₁, b, -, hk, hw, hp, heq⟩ | ⟨-, -, -, heq⟩ <;> rw [heq]
      · exact hentry l fs hI
      · exact hentry _ _ (hput (by simp) hp hI)
      · exact hput (by simp) hp hI
      · trivial
    rcases turn_cases σ io p l n e fs with ⟨hno, ht⟩ | ⟨-, -, fs₁, b, hr, ⟨-, ht⟩ | ⟨rfl, fs₂, b', ho, ⟨-, ht⟩ | ⟨rfl, ht⟩⟩⟩ <;>
      rw [ht]
    · exact hheader _ _ _ hI
    · exact everywhere_shift hI (rotate_shift hr).1
    · exact everywhere_opened (everywhere_shift hI (rotate_shift hr).1) (openFile_opened ho).1
    · exact hheader _ _ _ (everywhere_opened (everywhere_shift hI (rotate_shift hr).1) (openFile_opened ho).1)
  · exact everywhere_fresh hfs (fun a x hx h _ => h)

/-- No file ends with a header. -/
def Closed (p : Option Path) (fs : Fs) : Prop :=
  ∀ q a x, some q ≠ p → read fs q = some (a ++ [x]) → x.kind ≠ .header

theorem closed_opened {o : Option Path} {p : Path} {fs fs' : Fs} (ho : Opened p fs fs') (h : Closed o fs) : Closed o fs' := by
  intro q a x hq hr
  by_cases hqp : q = p
  · subst hqp
    rcases ho.2.2 with h1 | ⟨-, h1⟩
    · exact h q a x hq (h1 ▸ hr)
    · rw [h1] at hr
      simp at hr
  · exact h q a x hq (ho.2.1 q hqp ▸ hr)

theorem closed_shift {p : Path} {limit : Nat} {fs fs' : Fs} (hs : Shift p limit fs fs') (h : Closed none fs) :
    Closed none fs' := by
  intro q a x hq hr
  obtain ⟨q', h'⟩ := shift_contents hs hr
  exact h q' a x (by simp) h'

theorem files_closed {paths : Nat → Path} {fs : Fs} {s : State} (hfs : Fresh fs)
    (h : Reaches paths (fun σ => GoodWriter σ ∧ ∃ text, σ.headerWriter = .ok text) Writable fs s) :
    Closed none s.fs := by
  refine (disk_invariant (okIo := Writable) (I := fun fs _ => Closed none fs)
    (J := fun l => l.good = true) ⟨rfl, rfl⟩
    (fun _ _ _ _ _ _ ho h => closed_opened ho h) (fun _ h => rfl) ?_ ?_ h).1
  · intro σ n io l e fs ps hσ hio hl hI
    generalize paths n = p
    have hentry : ∀ (l : Locals) fs, l.good = true → Closed (some p) fs →
        After (fun fs _ => Closed none fs) (fun l => l.good = true) n e ps (turnEntry σ io p l n e fs) := by
      intro l fs hl hI
      obtain ⟨text₀, ht₀⟩ := hσ.1 e
      rcases turnEntry_cases σ io p l n e fs with ⟨text, fs₁, b, -, hp, heq⟩ | ⟨text', fs₁, b, hw, hp, heq⟩ | heq
      · rw [heq]
        rw [hio.2, hl, put_writable] at hp
        cases hp
        refine ⟨?_, rfl⟩
        intro q a x _ hr
        rw [read_store] at hr
        split at hr
        · have := (List.append_inj' (Option.some.inj hr) rfl).2
          cases this
          simp
        · rename_i hq
          exact hI q a x (by simpa using hq) hr
      · rw [ht₀] at hw; cases hw
      · rw [heq]; trivial
    have hheader : ∀ (l : Locals) k fs, l.good = true → Closed none fs →
        After (fun fs _ => Closed none fs) (fun l => l.good = true) n e ps (turnHeader σ io p l k n e fs) := by
      intro l k fs hl hI
      obtain ⟨text₀, ht₀⟩ := hσ.2
      rcases turnHeader_cases σ io p l k n e fs with ⟨hno, heq⟩ |
        ⟨text, fs₁, b, hwh, hk, -, hp, heq⟩ | ⟨text, fs₁, b, -, hk, hw, hp, heq⟩ | ⟨-, -, hw, heq⟩
      · rw [heq]
        exact hentry l fs hl fun q a x _ hr => hI q a x (by simp) hr
      · rw [heq]
        rw [hio.1, hl, put_writable] at hp
        cases hp
        refine hentry _ _ rfl ?_
        intro q a x hq hr
        rw [read_store, if_neg (by simpa using hq)] at hr
        exact hI q a x (by simp) hr
      · rw [ht₀] at hw; cases hw
      · rw [ht₀] at hw; cases hw
    rcases turn_cases σ io p l n e fs with ⟨hno, ht⟩ | ⟨-, -, fs₁, b, hr, ⟨-, ht⟩ | ⟨rfl, fs₂, b', ho, ⟨-, ht⟩ | ⟨rfl, ht⟩⟩⟩ <;>
      rw [ht]
    · exact hheader _ _ _ hl hI
    · exact closed_shift (rotate_shift hr).1 hI
    · exact closed_opened (openFile_opened ho).1 (closed_shift (rotate_shift hr).1 hI)
    · exact hheader _ _ _ rfl (closed_opened (openFile_opened ho).1 (closed_shift (rotate_shift hr).1 hI))
  · intro q a x _ hr
    have := hfs q _ hr x (by simp)
    rw [this]
    simp

theorem along_prefix {P : List Chunk → Chunk → Prop} {c : List Chunk} {y : Chunk} (h : Along P (c ++ [y])) :
    Along P c ∧ P c y :=
  ⟨fun a x b hab => h a x (b ++ [y]) (by rw [hab]; simp), h c y [] rfl⟩

theorem bytes_append (a b : List Chunk) : bytes (a ++ b) = bytes a ++ bytes b := by simp [bytes]

theorem bytes_size (c : List Chunk) : size c = (bytes c).length := by
  simp [bytes, size, List.length_flatMap]

theorem line_ne (t : List Char) : line t ≠ [] := by simp [line]

theorem entries_append (a b : List Chunk) : entries (a ++ b) = entries a ++ entries b := by simp [entries]

/-- The bytes of a file with these properties. -/
theorem bytes_shape {w : Entry → List Char} {header : List Char} {b : Bool} :
    ∀ {c : List Chunk}, Along (fun a x => x.kind = .old → ∀ y ∈ a, y.kind = .old) c →
      Along (fun _ x => x.kind ≠ .torn ∧ (x.kind = .header → b = true)) c →
      Along (fun _ => Worded w header) c → (b = true → Along Headed c) →
      bytes c = bytes (former c) ++ (if ∃ x ∈ c, x.kind = .header then line header else []) ++
          (entries c).flatMap (fun e => line (w e)) ∧
        (b = true → entries c ≠ [] → bytes (former c) = [] → ∃ x ∈ c, x.kind = .header) ∧
        ((∃ x ∈ c, x.kind = .header) → b = true ∧ bytes (former c) = []) := by
  intro c
  induction c using List.reverseRecOn with
  | nil => intros; simp [bytes, former, entries]
  | append_singleton c x ih =>
    intro h1 h2 h3 h4
    obtain ⟨h1, h1x⟩ := along_prefix h1
    obtain ⟨h2, h2x⟩ := along_prefix h2
    obtain ⟨h3, h3x⟩ := along_prefix h3
    have h4x : b = true → Headed c x := fun hb => (along_prefix (h4 hb)).2
    replace h4 : b = true → Along Headed c := fun hb => (along_prefix (h4 hb)).1
    obtain ⟨i1, i2, i3⟩ := ih h1 h2 h3 h4
    cases hk : x.kind with
    | old =>
      have hall := h1x hk
      have hown : entries c = [] := by
        unfold entries
        rw [List.filterMap_eq_nil_iff]
        intro y hy
        simp [anyEntry, hall y hy]
      have hf : former (c ++ [x]) = c ++ [x] := by
        unfold former
        rw [List.filter_eq_self]
        intro y hy
        rcases List.mem_append.1 hy with hy | hy
        · simp [hall y hy]
        · rw [List.mem_singleton.1 hy]; simp [hk]
      have hno : ¬ ∃ y ∈ c ++ [x], y.kind = .header := by
        rintro ⟨y, hy, hyk⟩
        rcases List.mem_append.1 hy with hy | hy
        · rw [hall y hy] at hyk; cases hyk
        · rw [List.mem_singleton.1 hy, hk] at hyk; cases hyk
      have hx : anyEntry x = none := by simp [anyEntry, hk]
      rw [hf, if_neg hno, entries_append, hown]
      exact ⟨by simp [entries, hx], by simp [entries, hx], fun h => absurd h hno⟩
    | torn => exact absurd hk h2x.1
    | header =>
      have hb := h2x.2 hk
      have hs : size c = 0 := (h4x hb).2 hk
      rw [bytes_size, List.length_eq_zero_iff] at hs
      have hx : anyEntry x = none := by simp [anyEntry, hk]
      have hf : former (c ++ [x]) = former c := by simp [former, hk]
      rw [hs] at i1
      have j := i1.symm
      rw [List.append_eq_nil_iff, List.append_eq_nil_iff] at j
      obtain ⟨⟨j1, -⟩, j3⟩ := j
      have hyes : ∃ y ∈ c ++ [x], y.kind = .header := ⟨x, by simp, hk⟩
      have ht : x.text = line header := by unfold Worded at h3x; rwa [hk] at h3x
      refine ⟨?_, fun _ _ _ => hyes, fun _ => ⟨hb, by rw [hf, j1]⟩⟩
      rw [hf, if_pos hyes, bytes_append, hs, j1, entries_append, List.flatMap_append, j3]
      simp [bytes, entries, ht, hx]
    | entry n e =>
      have hx : anyEntry x = some e := by simp [anyEntry, hk]
      have hf : former (c ++ [x]) = former c := by simp [former, hk]
      have hiff : (∃ y ∈ c ++ [x], y.kind = .header) ↔ ∃ y ∈ c, y.kind = .header := by
        constructor
        · rintro ⟨y, hy, hyk⟩
          rcases List.mem_append.1 hy with hy | hy
          · exact ⟨y, hy, hyk⟩
          · rw [List.mem_singleton.1 hy, hk] at hyk; cases hyk
        · rintro ⟨y, hy, hyk⟩
          exact ⟨y, by simp [hy], hyk⟩
      have ht : x.text = line (w e) := by unfold Worded at h3x; rwa [hk] at h3x
      refine ⟨?_, ?_, ?_⟩
      · rw [hf, bytes_append, i1, entries_append, List.flatMap_append]
        by_cases hh : ∃ y ∈ c, y.kind = .header
        · rw [if_pos hh, if_pos (hiff.2 hh)]; simp [bytes, entries, ht, hx]
        · rw [if_neg hh, if_neg (fun h => hh (hiff.1 h))]; simp [bytes, entries, ht, hx]
      · rw [hf]
        intro hb _ hfo
        refine hiff.2 (Classical.byContradiction fun hh => ?_)
        have hs : size c ≠ 0 := by
          intro hs
          rcases (h4x hb).1 hs with h | h <;> rw [hk] at h <;> cases h
        refine hh (i2 hb ?_ hfo)
        intro hown
        rw [bytes_size] at hs
        rw [i1, hfo, if_neg hh, hown] at hs
        exact hs rfl
      · intro h
        rw [hf]
        exact i3 (hiff.1 h)

theorem reaches_mono {paths : Nat → Path} {okσ okσ' : Settings → Prop} {okIo okIo' : Io → Prop} {fs : Fs} {s : State}
    (h : Reaches paths okσ okIo fs s) (hσ : ∀ σ, okσ σ → okσ' σ) (hio : ∀ io, okIo io → okIo' io) :
    Reaches paths okσ' okIo' fs s := by
  obtain ⟨σ, h1, hr⟩ := h
  refine ⟨σ, hσ σ h1, reachableBy_mono hr ?_⟩
  intro s ev hok
  cases ev with
  | set x => exact hσ _ hok
  | thread io => exact hio _ hok
  | flush io ios => exact ⟨hio _ hok.1, fun io h => hio _ (hok.2 io h)⟩
  | _ => exact hok

/-- Whatever is put into an open file gets there: the bytes of the files. -/
theorem files_bytes_all {paths : Nat → Path} {w : Entry → List Char} {header : List Char} {b : Bool} {fs : Fs}
    {s : State} (hfs : Fresh fs)
    (h : Reaches paths (fun σ => Writers w header σ ∧ σ.writeHeader = b) Writable fs s) {p : Path}
    {c : List Chunk} (hc : read s.fs p = some c) :
    bytes c = bytes (former c) ++
        (if b = true ∧ bytes (former c) = [] ∧ entries c ≠ [] then line header else []) ++
        (entries c).flatMap (fun e => line (w e)) := by
  have hg : ∀ σ, Writers w header σ → GoodWriter σ ∧ ∃ text, σ.headerWriter = .ok text :=
    fun σ h => ⟨fun e => ⟨w e, h.1 e⟩, header, h.2⟩
  have h1 := files_after (okσ := fun _ => True) hfs (okIo := Writable) ⟨rfl, rfl⟩
    (reaches_mono h (fun _ _ => trivial) (fun _ h => h)) _ _ hc
  have h2 := files_plain (b := b) hfs (reaches_mono h (fun σ h => ⟨hg σ h.1, h.2⟩) (fun _ h => h)) _ _ hc
  have h3 := files_worded (w := w) (header := header) hfs (okIo := Writable) ⟨rfl, rfl⟩
    (reaches_mono h (fun σ h => h.1) (fun _ h => h)) _ _ hc
  have h4 : b = true → Along Headed c := fun hb =>
    files_headed hfs (reaches_mono h (fun σ h => ⟨hg σ h.1, h.2.trans hb⟩) (fun _ h => h)) _ _ hc
  have h6 := files_closed hfs (reaches_mono h (fun σ h => hg σ h.1) (fun _ h => h))
  obtain ⟨i1, i2, i3⟩ := bytes_shape h1 h2 h3 h4
  have hiff : (∃ x ∈ c, x.kind = .header) ↔ b = true ∧ bytes (former c) = [] ∧ entries c ≠ [] := by
    constructor
    · intro hh
      obtain ⟨j1, j2⟩ := i3 hh
      refine ⟨j1, j2, ?_⟩
      intro hown
      unfold entries at hown
      rw [List.filterMap_eq_nil_iff] at hown
      obtain ⟨x, hx, hk⟩ := hh
      rcases List.eq_nil_or_concat' c with rfl | ⟨a, y, rfl⟩
      · cases hx
      · have hy := h6 _ a y (by simp) hc
        have hyt := (along_prefix h2).2.1
        have hyo := hown y (by simp)
        cases hyk : y.kind with
        | header => exact hy hyk
        | torn => exact hyt hyk
        | entry n e => simp [anyEntry, hyk] at hyo
        | old =>
          rcases List.mem_append.1 hx with hx | hx
          · have := (along_prefix h1).2 hyk x hx
            rw [hk] at this; cases this
          · rw [List.mem_singleton.1 hx, hyk] at hk; cases hk
    · rintro ⟨j1, j2, j3⟩
      exact i2 j1 j3 j2
  rw [i1]
  congr 2
  by_cases hh : ∃ x ∈ c, x.kind = .header
  · rw [if_pos hh, if_pos (hiff.1 hh)]
  · rw [if_neg hh, if_neg (fun h => hh (hiff.2 h))]

/-- If no other name stands for the same file, all entries in it are the ones of its name. -/
theorem files_bytes {paths : Nat → Path} {w : Entry → List Char} {header : List Char} {b : Bool} {fs : Fs} {s : State}
    (hsep : Separate paths) (hfs : Fresh fs)
    (h : Reaches paths (fun σ => Writers w header σ ∧ σ.writeHeader = b) Writable fs s) {name i : Nat}
    {c : List Chunk} (hc : read s.fs (pathAt (paths name) i) = some c) :
    bytes c = bytes (former c) ++
        (if b = true ∧ bytes (former c) = [] ∧ own name (some c) ≠ [] then line header else []) ++
        (own name (some c)).flatMap (fun e => line (w e)) := by
  have h5 : ∀ x ∈ c, ∀ n e, x.kind = .entry n e → n = name := by
    intro x hx n e hk
    have hp := disk_placed (okσ := fun _ => True) (okIo := Writable) ⟨rfl, rfl⟩ (Separate.distinct hsep) hfs
      (reaches_mono h (fun _ _ => trivial) (fun _ h => h))
    obtain ⟨j, hj⟩ := hp (pathAt (paths name) i) n (by
      rw [hc]
      unfold own
      intro h0
      rw [Option.getD_some, List.filterMap_eq_nil_iff] at h0
      have := h0 x hx
      simp [entryOf, hk] at this)
    exact (hsep _ _ _ _ hj).symm
  have hall : own name (some c) = entries c := by
    unfold own entries
    rw [Option.getD_some]
    refine List.filterMap_congr fun x hx => ?_
    cases hk : x.kind with
    | entry n e => simp [entryOf, anyEntry, hk, h5 x hx n e hk]
    | _ => simp [entryOf, anyEntry, hk]
  rw [hall]
  exact files_bytes_all hfs h hc

/-- The files with a number have `Q`. -/
def Numbered (paths : Nat → Path) (Q : List Chunk → Prop) (fs : Fs) : Prop :=
  ∀ n i c, read fs (pathAt (paths n) (i + 1)) = some c → Q c

/-- Files are rotated only when they have `Q`. -/
theorem numbered_shift {paths : Nat → Path} {Q : List Chunk → Prop} {m limit : Nat} {fs fs' : Fs}
    (hs : Shift (paths m) limit fs fs') :
    Numbered paths Q fs → (∀ c, read fs (paths m) = some c → Q c) → Numbered paths Q fs' := by
  induction hs with
  | refl => exact fun h _ => h
  | remove j hj _ ih =>
    intro hI h0
    refine ih ?_ ?_
    · intro n i c hr
      rw [read_remove] at hr
      split at hr
      · cases hr
      · exact hI n i c hr
    · intro c hr
      rw [read_remove] at hr
      split at hr
      · cases hr
      · exact h0 c hr
  | rename j c hj hc hf _ ih =>
    intro hI h0
    have hcs : Q c := by
      cases j with
      | zero => rw [pathAt_zero] at hc; exact h0 c hc
      | succ j => exact hI m j c hc
    refine ih ?_ ?_
    · intro n i c' hr
      rw [read_store] at hr
      split at hr
      · cases hr; exact hcs
      · rw [read_remove] at hr
        split at hr
        · cases hr
        · exact hI n i c' hr
    · intro c' hr
      rw [read_store] at hr
      split at hr
      · rename_i heq
        have := pathAt_inj ((pathAt_zero (paths m)).trans heq)
        cases this
      · rw [read_remove] at hr
        split at hr
        · cases hr
        · exact h0 c' hr

/-- Files are rotated only when they are full. -/
theorem files_numbered {paths : Nat → Path} {r : Nat} {Q : List Chunk → Prop} {fs : Fs} {s : State}
    (hsep : Distinct paths) (hQ : ∀ c, r ≤ size c → Q c) (hfs : Numbered paths Q fs)
    (h : Reaches paths (fun σ => σ.fileRotationSize = r) Writable fs s) : Numbered paths Q s.fs := by
  have hstore : ∀ {m fs c}, Numbered paths Q fs → Numbered paths Q (store fs (paths m) c) := by
    intro m fs c hI n i c' hr
    rw [read_store, if_neg ?_] at hr
    · exact hI n i c' hr
    · intro heq
      rw [← pathAt_zero (paths m)] at heq
      have hp := hsep _ _ _ _ heq
      rw [hp] at heq
      have := pathAt_inj heq
      cases this
  have hopened : ∀ {m fs fs'}, Opened (paths m) fs fs' → Numbered paths Q fs → Numbered paths Q fs' := by
    intro m fs fs' ho hI n i c hr
    rw [ho.2.1] at hr
    · exact hI n i c hr
    · intro heq
      rw [← pathAt_zero (paths m)] at heq
      have hp := hsep _ _ _ _ heq
      rw [hp] at heq
      have := pathAt_inj heq
      cases this
  refine (disk_invariant (okIo := Writable) (I := fun fs _ => Numbered paths Q fs)
    (J := fun l => l.fileRotationSize = r ∧ l.good = true) ⟨rfl, rfl⟩
    (fun _ _ _ _ _ _ ho h => hopened ho h) (fun _ h => ⟨h, rfl⟩) ?_ ?_ h).1
  · intro σ m io l e fs ps _ hio hl hI
    have hput : ∀ {k text fs fs' b}, put (paths m) k text none true fs = (fs', b) →
        Numbered paths Q fs → Numbered paths Q fs' ∧ b = true := by
      intro k text fs fs' b hp hI
      rw [put_writable] at hp
      cases hp
      exact ⟨hstore hI, rfl⟩
    have hentry : ∀ (l : Locals) fs, l.fileRotationSize = r ∧ l.good = true → Numbered paths Q fs →
        After (fun fs _ => Numbered paths Q fs) (fun l => l.fileRotationSize = r ∧ l.good = true) m e ps
          (turnEntry σ io (paths m) l m e fs) := by
      intro l fs hl hI
      rcases turnEntry_cases σ io (paths m) l m e fs with ⟨text, fs₁, b, -, hp, heq⟩ | ⟨text', fs₁, b, hw, hp, heq⟩ | heq <;>
        rw [heq]
      · rw [hio.2, hl.2] at hp
        obtain ⟨h1, rfl⟩ := hput hp hI
        exact ⟨h1, hl.1, rfl⟩
      · rw [hio.2, hl.2] at hp
        exact (hput hp hI).1
      · trivial
    have hheader : ∀ (l : Locals) k fs, l.fileRotationSize = r ∧ l.good = true → Numbered paths Q fs →
        After (fun fs _ => Numbered paths Q fs) (fun l => l.fileRotationSize = r ∧ l.good = true) m e ps
          (turnHeader σ io (paths m) l k m e fs) := by
      intro l k fs hl hI
      rcases turnHeader_cases σ io (paths m) l k m e fs with ⟨hno, heq⟩ |
        ⟨text, fs₁, b, hwh, hk, -, hp, heq⟩ | ⟨text, fs₁, b, -, hk, hw, hp, heq⟩ | ⟨-, -, hw, heq⟩ <;> rw [heq]
      · exact hentry l fs hl hI
      · rw [hio.1, hl.2] at hp
        obtain ⟨h1, rfl⟩ := hput hp hI
        exact hentry _ _ ⟨hl.1, rfl⟩ h1
      · rw [hio.1, hl.2] at hp
        exact (hput hp hI).1
      · trivial
    rcases turn_cases σ io (paths m) l m e fs with ⟨hno, ht⟩ | ⟨-, hsz, fs₁, b, hr, hcase⟩
    · rw [ht]
      exact hheader _ _ _ hl hI
    · have hfull : Numbered paths Q fs₁ := by
        refine numbered_shift (rotate_shift hr).1 hI ?_
        intro c hc
        unfold fileSize at hsz
        rw [hl.1, hl.2, if_pos rfl, hc] at hsz
        exact hQ c hsz
      rcases hcase with ⟨-, ht⟩ | ⟨rfl, fs₂, b', ho, ⟨-, ht⟩ | ⟨rfl, ht⟩⟩ <;> rw [ht]
      · exact hfull
      · exact hopened (openFile_opened ho).1 hfull
      · exact hheader _ _ _ ⟨hl.1, rfl⟩ (hopened (openFile_opened ho).1 hfull)
  · exact hfs

theorem files_filled {paths : Nat → Path} {r : Nat} {fs : Fs} {s : State} (hsep : Distinct paths) (hfs : Fresh fs)
    (h : Reaches paths (fun σ => σ.fileRotationSize = r) Writable fs s) : Filled paths r s.fs :=
  files_numbered hsep (fun _ h => .inl h) (fun _ _ _ hr => .inr (hfs _ _ hr)) h

end Pluto.Log
