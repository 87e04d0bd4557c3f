import Verif.Spec.LogLink
import Verif.Proofs.LogStream
import Verif.Proofs.LogIo

/-! # A file system with links: single operations -/

namespace Pluto.LogLink
open Pluto.Log Pluto.Spec.LogLink

theorem find_filter {α : Type} (l : List (Path × α)) (p q : Path) :
    ((l.filter (·.1 ≠ p)).find? (·.1 = q)).map (·.2) = if q = p then none else (l.find? (·.1 = q)).map (·.2) := by
  induction l with
  | nil => simp
  | cons x l ih =>
    by_cases hx : x.1 = p
    · rw [List.filter_cons_of_neg (by simp [hx]), ih]
      split
      · rfl
      · rename_i hq
        rw [List.find?_cons_of_neg (by simp [hx]; exact fun h => hq h.symm)]
    · rw [List.filter_cons_of_pos (by simp [hx])]
      by_cases hq : x.1 = q
      · rw [List.find?_cons_of_pos (by simp [hq]), List.find?_cons_of_pos (by simp [hq]),
          if_neg (fun h => hx (hq.trans h))]
      · rw [List.find?_cons_of_neg (by simp [hq]), List.find?_cons_of_neg (by simp [hq]), ih]

theorem find_cons {α : Type} (l : List (Path × α)) (p q : Path) (a : α) :
    (((p, a) :: l).find? (·.1 = q)).map (·.2) = if q = p then some a else (l.find? (·.1 = q)).map (·.2) := by
  by_cases h : q = p
  · rw [List.find?_cons_of_pos (by simp [h]), if_pos h]; rfl
  · rw [List.find?_cons_of_neg (by simp; exact fun e => h e.symm), if_neg h]

theorem lookup_remove (t : Tree) (p q : Path) :
    lookup (removeTree t p) q = if q = p then none else lookup t q := find_filter _ _ _

theorem lookup_rename (t : Tree) (old new q : Path) (n : Node) :
    lookup { t with entries := (new, n) :: ((t.entries.filter (·.1 ≠ old)).filter (·.1 ≠ new)) } q =
      if q = new then some n else if q = old then none else lookup t q := by
  unfold lookup
  simp only
  rw [find_cons, find_filter, find_filter]
  by_cases h : q = new
  · simp [h]
  · simp [h]

theorem lookup_create (t : Tree) (p q : Path) (n : Node) (x : Nat → List Chunk) (k : Nat) :
    lookup { t with entries := (p, n) :: t.entries, text := x, nextId := k } q =
      if q = p then some n else lookup t q := find_cons _ _ _ _

/-- Where a path links to. -/
def linkAt (t : Tree) (p : Path) : Option Path :=
  match lookup t p with
  | some (.link q) => some q
  | _ => none

theorem linkAt_some {t : Tree} {p q : Path} : linkAt t p = some q ↔ lookup t p = some (.link q) := by
  unfold linkAt
  split
  · rename_i h; simp [h]
  · rename_i h; simp; exact h q

theorem follow_none {t : Tree} {p : Path} (h : linkAt t p = none) (n : Nat) : follow t n p = some p := by
  have hl : ∀ q, lookup t p ≠ some (.link q) := fun q hq => by rw [linkAt_some.2 hq] at h; cases h
  cases n <;> unfold follow <;> split <;> first | rfl | (rename_i q hq; exact absurd hq (hl q))

theorem follow_link {t : Tree} {p q : Path} (h : linkAt t p = some q) (n : Nat) : follow t (n + 1) p = follow t n q := by
  rw [follow, linkAt_some.1 h]

theorem follow_zero {t : Tree} {p q : Path} (h : linkAt t p = some q) : follow t 0 p = none := by
  rw [follow, linkAt_some.1 h]

theorem follow_end {t : Tree} (n : Nat) : ∀ {p q : Path}, follow t n p = some q → linkAt t q = none := by
  induction n with
  | zero =>
    intro p q h
    cases hl : linkAt t p with
    | none => rw [follow_none hl] at h; cases h; exact hl
    | some r => rw [follow_zero hl] at h; cases h
  | succ n ih =>
    intro p q h
    cases hl : linkAt t p with
    | none => rw [follow_none hl] at h; cases h; exact hl
    | some r => rw [follow_link hl] at h; exact ih h

theorem follow_outside {N : Path → Prop} {t : Tree} (hl : ∀ p q, lookup t p = some (.link q) → ¬ N q) (n : Nat) :
    ∀ {p q : Path}, ¬ N p → follow t n p = some q → ¬ N q := by
  induction n with
  | zero =>
    intro p q hp h
    cases hl' : linkAt t p with
    | none => rw [follow_none hl'] at h; cases h; exact hp
    | some r => rw [follow_zero hl'] at h; cases h
  | succ n ih =>
    intro p q hp h
    cases hl' : linkAt t p with
    | none => rw [follow_none hl'] at h; cases h; exact hp
    | some r => rw [follow_link hl'] at h; exact ih (hl p r (linkAt_some.1 hl')) h

theorem follow_congr {N : Path → Prop} {t t' : Tree} (hl : ∀ p q, lookup t p = some (.link q) → ¬ N q)
    (h : ∀ p, ¬ N p → linkAt t' p = linkAt t p) (n : Nat) : ∀ {p : Path}, ¬ N p → follow t' n p = follow t n p := by
  induction n with
  | zero =>
    intro p hp
    cases hl' : linkAt t p with
    | none => rw [follow_none hl', follow_none (by rw [h p hp, hl'])]
    | some r => rw [follow_zero hl', follow_zero (q := r) (by rw [h p hp, hl'])]
  | succ n ih =>
    intro p hp
    cases hl' : linkAt t p with
    | none => rw [follow_none hl', follow_none (by rw [h p hp, hl'])]
    | some r =>
      rw [follow_link hl', follow_link (q := r) (by rw [h p hp, hl'])]
      exact ih (hl p r (linkAt_some.1 hl'))

theorem target_congr {N : Path → Prop} {t t' : Tree} (hl : ∀ p q, lookup t p = some (.link q) → ¬ N q)
    (h : ∀ p, ¬ N p → linkAt t' p = linkAt t p) {p : Path} (hp : linkAt t' p = linkAt t p) :
    target t' p = target t p := by
  unfold target
  cases hl' : linkAt t p with
  | none => rw [follow_none hl', follow_none (by rw [hp, hl'])]
  | some r =>
    rw [follow_link hl' 39, follow_link (q := r) (by rw [hp, hl']) 39]
    exact follow_congr hl h 39 (hl p r (linkAt_some.1 hl'))

theorem target_none {t : Tree} {p : Path} (h : linkAt t p = none) : target t p = some p := follow_none h 40

/-- A name leads to itself or out of the names. -/
theorem target_own {N : Path → Prop} {t : Tree} (hl : ∀ p q, lookup t p = some (.link q) → ¬ N q) {p q : Path}
    (h : target t p = some q) : q = p ∨ ¬ N q := by
  unfold target at h
  cases hl' : linkAt t p with
  | none => rw [follow_none hl'] at h; cases h; exact .inl rfl
  | some r => rw [follow_link hl' 39] at h; exact .inr (follow_outside hl 39 (hl p r (linkAt_some.1 hl')) h)

/-- The file at a place. -/
def fileOf : Option Node → Option Nat
  | some (.file i) => some i
  | _ => none

theorem fileAt_eq {t : Tree} {p q : Path} (h : target t p = some q) : fileAt t p = fileOf (lookup t q) := by
  unfold fileAt
  rw [h]
  simp only
  cases lookup t q with
  | none => rfl
  | some n => cases n <;> rfl

theorem fileAt_some {t : Tree} {p : Path} {i : Nat} (h : fileAt t p = some i) :
    ∃ q, target t p = some q ∧ lookup t q = some (.file i) := by
  unfold fileAt at h
  split at h
  · rename_i q hq
    split at h
    · rename_i j hj; cases h; exact ⟨q, hq, hj⟩
    · cases h
  · cases h

/-- What a step leaves of the files that are not files of the logger: they are still there, nothing of them is removed, and
if no name of the logger leads to a file, it is not changed. -/
def Keeps (N : Path → Prop) (t t' : Tree) : Prop :=
  ∀ q i, ¬ N q → fileAt t q = some i → fileAt t' q = some i ∧ (∃ c, t'.text i = t.text i ++ c) ∧
    ((∀ p, N p → fileAt t p ≠ some i) → (∀ p, N p → fileAt t' p ≠ some i) ∧ t'.text i = t.text i)

theorem keeps_refl (N : Path → Prop) (t : Tree) : Keeps N t t :=
  fun _ _ _ h => ⟨h, ⟨[], by simp⟩, fun h => ⟨h, rfl⟩⟩

theorem keeps_trans {N : Path → Prop} {t t' t'' : Tree} (h : Keeps N t t') (h' : Keeps N t' t'') : Keeps N t t'' := by
  intro q i hq hf
  obtain ⟨h1, ⟨c, h2⟩, h3⟩ := h q i hq hf
  obtain ⟨h4, ⟨c', h5⟩, h6⟩ := h' q i hq h1
  refine ⟨h4, ⟨c ++ c', by rw [h5, h2, List.append_assoc]⟩, fun hn => ?_⟩
  obtain ⟨h7, h8⟩ := h3 hn
  obtain ⟨h9, h10⟩ := h6 h7
  exact ⟨h9, h10.trans h8⟩

/-- The files as they are read through the names of the logger; the links do no harm; what was there has been kept. -/
structure Sees (N : Path → Prop) (t₀ t : Tree) (fs : Fs) : Prop where
  tidy : Tidy N t
  dirs : t.dirs = fs.dirs
  files : ∀ p, N p → readTree t p = read fs p
  keeps : Keeps N t₀ t

/-! ## Removing -/

theorem remove_fileAt {N : Path → Prop} {t : Tree} (hl : ∀ p q, lookup t p = some (.link q) → ¬ N q) {p q : Path}
    (hp : N p) (hq : q ≠ p) : fileAt (removeTree t p) q = fileAt t q := by
  have hlk := lookup_remove t p
  have ht : target (removeTree t p) q = target t q := by
    apply target_congr hl
    · intro r hr
      unfold linkAt
      rw [hlk, if_neg (show ¬ r = p from fun e => hr (e ▸ hp))]
    · unfold linkAt
      rw [hlk, if_neg hq]
  unfold fileAt
  rw [ht]
  cases ht' : target t q with
  | none => rfl
  | some r =>
    simp only
    have hr : r ≠ p := by
      rcases target_own hl ht' with rfl | hn
      · exact hq
      · intro e; exact hn (e ▸ hp)
    rw [hlk, if_neg hr]

theorem remove_sees {N : Path → Prop} {t₀ t : Tree} {fs : Fs} (h : Sees N t₀ t fs) {p : Path} (hp : N p) :
    Sees N t₀ (removeTree t p) (remove fs p) := by
  have hlk := lookup_remove t p
  have hout : ∀ q, ¬ N q → linkAt (removeTree t p) q = linkAt t q := by
    intro q hq
    unfold linkAt
    rw [hlk, if_neg (show ¬ q = p from fun e => hq (e ▸ hp))]
  have hself : target (removeTree t p) p = some p := target_none (by unfold linkAt; rw [hlk, if_pos rfl])
  have hother : ∀ q, q ≠ p → target (removeTree t p) q = target t q := by
    intro q hq
    apply target_congr h.tidy.links hout
    unfold linkAt
    rw [hlk, if_neg hq]
  have fself : fileAt (removeTree t p) p = none := by rw [fileAt_eq hself, hlk, if_pos rfl]; rfl
  have fother : ∀ q, q ≠ p → fileAt (removeTree t p) q = fileAt t q :=
    fun q hq => remove_fileAt h.tidy.links hp hq
  refine ⟨⟨?_, ?_, ?_, ?_, ?_⟩, ?_, ?_, ?_⟩
  · intro q r hl
    rw [hlk] at hl
    split at hl
    · cases hl
    · exact h.tidy.links q r hl
  · intro q hq
    by_cases e : q = p
    · subst e; exact ⟨q, hself, .inl rfl⟩
    · obtain ⟨r, h1, h2⟩ := h.tidy.ends q hq
      exact ⟨r, by rw [hother q e, h1], h2⟩
  · intro q q' hq hq' he
    by_cases e : q = p
    · by_cases e' : q' = p
      · rw [e, e']
      · subst e
        rw [hself, hother q' e'] at he
        rcases target_own h.tidy.links he.symm with h1 | h1
        · exact h1
        · exact absurd hq h1
    · by_cases e' : q' = p
      · subst e'
        rw [hself, hother q e] at he
        rcases target_own h.tidy.links he with h1 | h1
        · exact h1.symm
        · exact absurd hq' h1
      · rw [hother q e, hother q' e'] at he
        exact h.tidy.apart q q' hq hq' he
  · intro q q' i hq hq' h1 h2
    by_cases e : q = p
    · subst e; rw [fself] at h1; cases h1
    · by_cases e' : q' = p
      · subst e'; rw [fself] at h2; cases h2
      · rw [fother q e] at h1
        rw [fother q' e'] at h2
        exact h.tidy.unshared q q' i hq hq' h1 h2
  · intro q i hl
    rw [hlk] at hl
    split at hl
    · cases hl
    · exact h.tidy.ids q i hl
  · exact h.dirs
  · intro q hq
    unfold readTree
    rw [read_remove]
    by_cases e : q = p
    · subst e; rw [fself, if_pos rfl]; rfl
    · rw [fother q e, if_neg e]
      exact h.files q hq
  · refine keeps_trans h.keeps ?_
    intro q i hq hf
    refine ⟨by rw [fother q (fun e => hq (e ▸ hp)), hf], ⟨[], by simp [removeTree]⟩, fun hn => ⟨fun r hr => ?_, rfl⟩⟩
    by_cases e : r = p
    · subst e; rw [fself]; simp
    · rw [fother r e]; exact hn r hr

/-! ## Renaming -/

theorem rename_sees {N : Path → Prop} {t₀ t : Tree} {fs : Fs} (h : Sees N t₀ t fs) {old new : Path} (ho : N old)
    (hn : N new) (hne : old ≠ new) (hr : read fs old ≠ none) :
    ∃ t' fs', renameTree t old new = (t', true) ∧ rename fs old new = (fs', true) ∧ Sees N t₀ t' fs' ∧
      lookup t' old = none ∧ fileAt t' new = fileAt t old ∧ ∀ q, q ≠ old → q ≠ new → fileAt t' q = fileAt t q := by
  have hfo : readTree t old ≠ none := by rw [h.files old ho]; exact hr
  obtain ⟨i, hi⟩ : ∃ i, fileAt t old = some i := by
    cases hx : fileAt t old with
    | none => unfold readTree at hfo; rw [hx] at hfo; exact absurd rfl hfo
    | some i => exact ⟨i, rfl⟩
  obtain ⟨q₀, hq₀, hlq⟩ := fileAt_some hi
  have hlo : lookup t old ≠ none := by
    intro hx
    have : linkAt t old = none := by unfold linkAt; rw [hx]
    rw [target_none this] at hq₀
    cases hq₀
    rw [hx] at hlq
    cases hlq
  obtain ⟨n, hnode⟩ := Option.ne_none_iff_exists'.1 hlo
  have hnot : ¬ (isFile n = true ∧ lookup t new = some n) := by
    rintro ⟨h1, h2⟩
    cases n with
    | link _ => cases h1
    | file j =>
      have e1 : fileAt t old = some j := by
        rw [fileAt_eq (target_none (by unfold linkAt; rw [hnode])), hnode]; rfl
      have e2 : fileAt t new = some j := by
        rw [fileAt_eq (target_none (by unfold linkAt; rw [h2])), h2]; rfl
      exact hne (h.tidy.unshared old new j ho hn e1 e2)
  obtain ⟨c, hc⟩ := Option.ne_none_iff_exists'.1 hr
  refine ⟨{ t with entries := (new, n) :: ((t.entries.filter (·.1 ≠ old)).filter (·.1 ≠ new)) },
    store (remove fs old) new c, ?_, ?_, ?_⟩
  · unfold renameTree
    rw [hnode]
    simp only
    rw [if_neg hnot]
  · unfold rename
    rw [hc]
  generalize ht' : ({ t with entries := (new, n) :: ((t.entries.filter (·.1 ≠ old)).filter (·.1 ≠ new)) } : Tree) = t'
  have hlk : ∀ q, lookup t' q = if q = new then some n else if q = old then none else lookup t q := by
    intro q; rw [← ht']; exact lookup_rename ..
  have htext : t'.text = t.text := by rw [← ht']
  have hdirs : t'.dirs = t.dirs := by rw [← ht']
  have hid : t'.nextId = t.nextId := by rw [← ht']
  have hout : ∀ q, ¬ N q → linkAt t' q = linkAt t q := by
    intro q hq
    unfold linkAt
    rw [hlk, if_neg (show ¬ q = new from fun e => hq (e ▸ hn)), if_neg (show ¬ q = old from fun e => hq (e ▸ ho))]
  have told : target t' old = some old := target_none (by unfold linkAt; rw [hlk, if_neg hne, if_pos rfl])
  have tother : ∀ q, q ≠ old → q ≠ new → target t' q = target t q := by
    intro q h1 h2
    apply target_congr h.tidy.links hout
    unfold linkAt
    rw [hlk, if_neg h2, if_neg h1]
  have tnew : (target t old = some old ∧ target t' new = some new) ∨
      (∃ r, ¬ N r ∧ target t old = some r ∧ target t' new = some r) := by
    cases hl : linkAt t old with
    | none =>
      refine .inl ⟨target_none hl, target_none ?_⟩
      unfold linkAt at hl ⊢
      rw [hlk, if_pos rfl, ← hnode]
      exact hl
    | some r =>
      have hl' : linkAt t' new = some r := by
        unfold linkAt at hl ⊢
        rw [hlk, if_pos rfl, ← hnode]
        exact hl
      have hrN := h.tidy.links old r (linkAt_some.1 hl)
      have e : target t' new = target t old := by
        unfold target
        rw [follow_link hl' 39, follow_link hl 39]
        exact follow_congr h.tidy.links hout 39 hrN
      refine .inr ⟨q₀, ?_, hq₀, e.trans hq₀⟩
      unfold target at hq₀
      rw [follow_link hl 39] at hq₀
      exact follow_outside h.tidy.links 39 hrN hq₀
  have fold : fileAt t' old = none := by rw [fileAt_eq told, hlk, if_neg hne, if_pos rfl]; rfl
  have fother : ∀ q, q ≠ old → q ≠ new → fileAt t' q = fileAt t q := by
    intro q h1 h2
    unfold fileAt
    rw [tother q h1 h2]
    cases ht : target t q with
    | none => rfl
    | some r =>
      simp only
      have hr : r ≠ old ∧ r ≠ new := by
        rcases target_own h.tidy.links ht with rfl | hx
        · exact ⟨h1, h2⟩
        · exact ⟨by intro e; exact hx (e ▸ ho), by intro e; exact hx (e ▸ hn)⟩
      rw [hlk, if_neg hr.2, if_neg hr.1]
  have fnew : fileAt t' new = fileAt t old := by
    rcases tnew with ⟨h1, h2⟩ | ⟨r, h1, h2, h3⟩
    · rw [fileAt_eq h1, fileAt_eq h2, hlk, if_pos rfl, hnode]
    · rw [fileAt_eq h2, fileAt_eq h3, hlk, if_neg (show ¬ r = new from fun e => h1 (e ▸ hn)),
        if_neg (show ¬ r = old from fun e => h1 (e ▸ ho))]
  refine ⟨⟨⟨?_, ?_, ?_, ?_, ?_⟩, ?_, ?_, ?_⟩, by rw [hlk, if_neg hne, if_pos rfl], fnew, fother⟩
  · intro q r hl
    rw [hlk] at hl
    split at hl
    · exact h.tidy.links old r (hnode.trans hl)
    · split at hl
      · cases hl
      · exact h.tidy.links q r hl
  · intro q hq
    by_cases e : q = old
    · subst e; exact ⟨q, told, .inl rfl⟩
    · by_cases e' : q = new
      · subst e'
        rcases tnew with ⟨-, h2⟩ | ⟨r, h1, h2, h3⟩
        · exact ⟨q, h2, .inl rfl⟩
        · obtain ⟨r', h4, h5⟩ := h.tidy.ends old ho
          rw [h2] at h4
          cases h4
          refine ⟨r, h3, .inr ?_⟩
          rw [hdirs]
          exact h5.resolve_left (by intro e; exact h1 (e ▸ ho))
      · obtain ⟨r, h1, h2⟩ := h.tidy.ends q hq
        exact ⟨r, by rw [tother q e e', h1], by rw [hdirs]; exact h2⟩
  · have main : ∀ q q', N q → N q' → q ≠ old → target t' q = target t' q' → q' ≠ old := by
      intro q q' hq hq' e he e'
      subst e'
      rw [told] at he
      by_cases e2 : q = new
      · subst e2
        rcases tnew with ⟨-, h2⟩ | ⟨r, h1, -, h3⟩
        · rw [h2] at he; cases he; exact e rfl
        · rw [h3] at he; cases he; exact h1 ho
      · rw [tother q e e2] at he
        rcases target_own h.tidy.links he with h1 | h1
        · exact e h1.symm
        · exact h1 ho
    have main2 : ∀ q, N q → q ≠ old → q ≠ new → target t' q ≠ target t' new := by
      intro q hq e e' he
      rw [tother q e e'] at he
      rcases tnew with ⟨-, h2⟩ | ⟨r, h1, h2, h3⟩
      · rw [h2] at he
        rcases target_own h.tidy.links he with h4 | h4
        · exact e' h4.symm
        · exact h4 hn
      · rw [h3] at he
        exact e (h.tidy.apart q old hq ho (by rw [he, h2]))
    intro q q' hq hq' he
    by_cases e : q = old
    · by_cases e' : q' = old
      · rw [e, e']
      · exact absurd e (main q' q hq' hq e' he.symm)
    · have e' := main q q' hq hq' e he
      by_cases e2 : q = new
      · by_cases e3 : q' = new
        · rw [e2, e3]
        · rw [e2] at he; exact absurd he.symm (main2 q' hq' e' e3)
      · by_cases e3 : q' = new
        · rw [e3] at he; exact absurd he (main2 q hq e e2)
        · rw [tother q e e2, tother q' e' e3] at he
          exact h.tidy.apart q q' hq hq' he
  · intro q q' j hq hq' h1 h2
    have e : q ≠ old := fun e => by subst e; rw [fold] at h1; cases h1
    have e' : q' ≠ old := fun e => by subst e; rw [fold] at h2; cases h2
    by_cases e2 : q = new
    · by_cases e3 : q' = new
      · rw [e2, e3]
      · subst e2
        rw [fnew] at h1
        rw [fother q' e' e3] at h2
        exact absurd (h.tidy.unshared old q' j ho hq' h1 h2).symm e'
    · by_cases e3 : q' = new
      · subst e3
        rw [fnew] at h2
        rw [fother q e e2] at h1
        exact absurd (h.tidy.unshared q old j hq ho h1 h2) e
      · rw [fother q e e2] at h1
        rw [fother q' e' e3] at h2
        exact h.tidy.unshared q q' j hq hq' h1 h2
  · intro q j hl
    rw [hid]
    rw [hlk] at hl
    split at hl
    · exact h.tidy.ids old j (hnode.trans hl)
    · split at hl
      · cases hl
      · exact h.tidy.ids q j hl
  · rw [hdirs]; exact h.dirs
  · intro q hq
    unfold readTree
    rw [read_store, read_remove, htext]
    by_cases e2 : q = new
    · subst e2
      rw [fnew, if_pos rfl, ← hc, ← h.files old ho]
      rfl
    · rw [if_neg e2]
      by_cases e : q = old
      · subst e; rw [fold, if_pos rfl]; rfl
      · rw [fother q e e2, if_neg e]
        exact h.files q hq
  · refine keeps_trans h.keeps ?_
    intro q j hq hf
    refine ⟨by rw [fother q (fun e => hq (e ▸ ho)) (fun e => hq (e ▸ hn)), hf], ⟨[], by rw [htext]; simp⟩,
      fun hx => ⟨fun r hr' => ?_, by rw [htext]⟩⟩
    by_cases e : r = old
    · subst e; rw [fold]; simp
    · by_cases e2 : r = new
      · subst e2; rw [fnew]; exact hx old ho
      · rw [fother r e e2]; exact hx r hr'

/-! ## Creating and appending -/

theorem exists_sees {N : Path → Prop} {t₀ t : Tree} {fs : Fs} (h : Sees N t₀ t fs) {p : Path} (hp : N p) :
    existsTree t p = some (exists' fs p) := by
  obtain ⟨q, hq, -⟩ := h.tidy.ends p hp
  unfold existsTree
  rw [hq]
  have := h.files p hp
  unfold readTree at this
  unfold exists'
  rw [← this]
  cases fileAt t p <;> rfl

theorem fileAt_iff {N : Path → Prop} {t₀ t : Tree} {fs : Fs} (h : Sees N t₀ t fs) {p : Path} (hp : N p) :
    fileAt t p = none ↔ read fs p = none := by
  have := h.files p hp
  unfold readTree at this
  rw [← this]
  cases fileAt t p <;> simp

theorem open_sees {N : Path → Prop} {t₀ t : Tree} {fs : Fs} (h : Sees N t₀ t fs) {p : Path} (hp : N p) (b : Bool) :
    (openTree b p t).2 = (openFile b p fs).2 ∧ Sees N t₀ (openTree b p t).1 (openFile b p fs).1 ∧
      ((openFile b p fs).2 = true → read (openFile b p fs).1 p ≠ none) := by
  unfold openTree openFile
  rw [h.dirs]
  split
  · exact ⟨rfl, h, fun h => by cases h⟩
  rename_i hc
  push Not at hc
  obtain ⟨q, hq, hqd⟩ := h.tidy.ends p hp
  rw [hq]
  simp only
  cases hr : read fs p with
  | some c =>
    have : (fileAt t p).isSome = true := by
      cases hx : fileAt t p with
      | none => rw [(fileAt_iff h hp).1 hx] at hr; cases hr
      | some _ => rfl
    rw [if_pos this]
    exact ⟨rfl, h, fun _ => by simp only; rw [hr]; simp⟩
  | none =>
    have hnone := (fileAt_iff h hp).2 hr
    rw [if_neg (by rw [hnone]; simp)]
    have hqd' : q.dir ∈ fs.dirs := by
      rcases hqd with rfl | hqd
      · exact hc.2
      · rw [← h.dirs]; exact hqd
    rw [if_pos hqd']
    simp only
    have hql : lookup t q = none := by
      have h1 := hnone
      rw [fileAt_eq hq] at h1
      have h2 := follow_end 40 hq
      unfold linkAt at h2
      cases hx : lookup t q with
      | none => rfl
      | some n =>
        rw [hx] at h1 h2
        cases n with
        | file i => cases h1
        | link r => cases h2
    refine ⟨trivial, ?_, fun _ => by rw [read_store, if_pos rfl]; simp⟩
    rw [← h.dirs]
    generalize ht' : (Tree.mk ((q, .file t.nextId) :: t.entries) (fun i => if i = t.nextId then [] else t.text i) t.dirs
      (t.nextId + 1)) = t'
    have hlk : ∀ r, lookup t' r = if r = q then some (.file t.nextId) else lookup t r := by
      intro r; rw [← ht']; exact lookup_create ..
    have htext : ∀ i, t'.text i = if i = t.nextId then [] else t.text i := by intro i; rw [← ht']
    have hdirs : t'.dirs = t.dirs := by rw [← ht']
    have hid : t'.nextId = t.nextId + 1 := by rw [← ht']
    have hlink : ∀ r, linkAt t' r = linkAt t r := by
      intro r
      unfold linkAt
      rw [hlk]
      by_cases e : r = q
      · rw [if_pos e, e, hql]
      · rw [if_neg e]
    have htarget : ∀ r, target t' r = target t r := fun r => target_congr h.tidy.links (fun r _ => hlink r) (hlink r)
    have hfile : ∀ r, fileAt t' r = if target t r = some q then some t.nextId else fileAt t r := by
      intro r
      cases hx : target t r with
      | none =>
        rw [if_neg (by simp)]
        unfold fileAt
        rw [htarget, hx]
      | some r' =>
        rw [fileAt_eq ((htarget r).trans hx), fileAt_eq hx, hlk]
        by_cases e : r' = q
        · rw [if_pos e, if_pos (by rw [e])]; rfl
        · rw [if_neg e, if_neg (by simpa using e)]
    have hold : ∀ r i, fileAt t r = some i → i < t.nextId ∧ target t r ≠ some q := by
      intro r i hf
      obtain ⟨r', h1, h2⟩ := fileAt_some hf
      refine ⟨h.tidy.ids r' i h2, fun e => ?_⟩
      rw [h1] at e
      cases e
      rw [hql] at h2
      cases h2
    have hpq : ∀ r, N r → target t r = some q → r = p := fun r hr e => h.tidy.apart r p hr hp (e.trans hq.symm)
    refine ⟨⟨?_, ?_, ?_, ?_, ?_⟩, ?_, ?_, ?_⟩
    · intro r r' hl
      rw [hlk] at hl
      split at hl
      · cases hl
      · exact h.tidy.links r r' hl
    · intro r hr
      obtain ⟨r', h1, h2⟩ := h.tidy.ends r hr
      exact ⟨r', by rw [htarget, h1], by rw [hdirs]; exact h2⟩
    · intro r r' hr hr' he
      rw [htarget, htarget] at he
      exact h.tidy.apart r r' hr hr' he
    · intro r r' i hr hr' h1 h2
      rw [hfile] at h1 h2
      split at h1
      · rename_i e
        cases h1
        split at h2
        · rename_i e'
          exact h.tidy.apart r r' hr hr' (e.trans e'.symm)
        · exact absurd (hold r' _ h2).1 (by omega)
      · split at h2
        · cases h2
          exact absurd (hold r _ h1).1 (by omega)
        · exact h.tidy.unshared r r' i hr hr' h1 h2
    · intro r i hl
      rw [hid]
      rw [hlk] at hl
      split at hl
      · cases hl; omega
      · have := h.tidy.ids r i hl; omega
    · rw [hdirs]; exact h.dirs
    · intro r hr
      rw [read_store]
      unfold readTree
      rw [hfile]
      by_cases e : target t r = some q
      · rw [if_pos e, if_pos (hpq r hr e)]
        simp only [Option.map_some]
        rw [htext, if_pos rfl]
      · have hrp : r ≠ p := by intro e'; subst e'; exact e hq
        rw [if_neg e, if_neg hrp, ← h.files r hr]
        unfold readTree
        cases hf : fileAt t r with
        | none => rfl
        | some i =>
          have := (hold r i hf).1
          simp only [Option.map_some]
          rw [htext, if_neg (by omega)]
    · refine keeps_trans h.keeps ?_
      intro r i hr hf
      obtain ⟨h1, h2⟩ := hold r i hf
      have h3 : t'.text i = t.text i := by rw [htext, if_neg (by omega)]
      refine ⟨by rw [hfile, if_neg h2, hf], ⟨[], by rw [h3]; simp⟩, fun hx => ⟨fun r' hr' => ?_, h3⟩⟩
      rw [hfile]
      split
      · intro e; cases e; omega
      · exact hx r' hr'

theorem append_sees {N : Path → Prop} {t₀ t : Tree} {fs : Fs} (h : Sees N t₀ t fs) {p : Path} (hp : N p)
    (hr : read fs p ≠ none) (c : Chunk) :
    Sees N t₀ (appendTree t p c) (store fs p ((read fs p).getD [] ++ [c])) := by
  obtain ⟨i, hi⟩ : ∃ i, fileAt t p = some i := by
    cases hx : fileAt t p with
    | none => exact absurd ((fileAt_iff h hp).1 hx) hr
    | some i => exact ⟨i, rfl⟩
  have hread : read fs p = some (t.text i) := by
    rw [← h.files p hp]; unfold readTree; rw [hi]; rfl
  unfold appendTree
  rw [hi]
  simp only
  generalize ht' : ({ t with text := fun j => if j = i then t.text i ++ [c] else t.text j } : Tree) = t'
  have hlk : ∀ q, lookup t' q = lookup t q := by intro q; rw [← ht']; rfl
  have hdirs : t'.dirs = t.dirs := by rw [← ht']
  have hid : t'.nextId = t.nextId := by rw [← ht']
  have htext : ∀ j, t'.text j = if j = i then t.text i ++ [c] else t.text j := by intro j; rw [← ht']
  have hlink : ∀ r, linkAt t' r = linkAt t r := by intro r; unfold linkAt; rw [hlk]
  have htarget : ∀ r, target t' r = target t r := fun r => target_congr h.tidy.links (fun r _ => hlink r) (hlink r)
  have hfile : ∀ r, fileAt t' r = fileAt t r := by
    intro r
    unfold fileAt
    rw [htarget]
    cases target t r with
    | none => rfl
    | some q => simp only; rw [hlk]
  refine ⟨⟨?_, ?_, ?_, ?_, ?_⟩, ?_, ?_, ?_⟩
  · intro r r' hl; exact h.tidy.links r r' ((hlk r).symm.trans hl)
  · intro r hr'
    obtain ⟨r', h1, h2⟩ := h.tidy.ends r hr'
    exact ⟨r', by rw [htarget, h1], by rw [hdirs]; exact h2⟩
  · intro r r' hr hr' he
    rw [htarget, htarget] at he
    exact h.tidy.apart r r' hr hr' he
  · intro r r' j hr hr' h1 h2
    rw [hfile] at h1 h2
    exact h.tidy.unshared r r' j hr hr' h1 h2
  · intro r j hl
    rw [hid]
    exact h.tidy.ids r j ((hlk r).symm.trans hl)
  · rw [hdirs]; exact h.dirs
  · intro r hr'
    rw [read_store]
    unfold readTree
    rw [hfile]
    by_cases e : r = p
    · subst e
      rw [hi, if_pos rfl, hread]
      simp only [Option.map_some, Option.getD_some]
      rw [htext, if_pos rfl]
    · rw [if_neg e, ← h.files r hr']
      unfold readTree
      cases hf : fileAt t r with
      | none => rfl
      | some j =>
        have hj : j ≠ i := fun e' => e (h.tidy.unshared r p i hr' hp (e' ▸ hf) hi)
        simp only [Option.map_some]
        rw [htext, if_neg hj]
  · refine keeps_trans h.keeps ?_
    intro r j hr' hf
    refine ⟨by rw [hfile, hf], ?_, fun hx => ⟨fun r' hr' => by rw [hfile]; exact hx r' hr', ?_⟩⟩
    · rw [htext]
      split
      · rename_i e; exact ⟨[c], by rw [e]⟩
      · exact ⟨[], by simp⟩
    · rw [htext, if_neg]
      rintro rfl
      exact hx p hp hi

theorem mkdir_sees {N : Path → Prop} {t₀ t : Tree} {fs : Fs} (h : Sees N t₀ t fs) (d : List Char) :
    Sees N t₀ { t with dirs := d :: t.dirs } { fs with dirs := d :: fs.dirs } := by
  have hlk : ∀ n p, follow { t with dirs := d :: t.dirs } n p = follow t n p := by
    intro n
    induction n with
    | zero => intro p; rfl
    | succ n ih =>
      intro p
      unfold follow
      have : lookup { t with dirs := d :: t.dirs } p = lookup t p := rfl
      rw [this]
      split
      · rename_i q hq; rw [ih q]
      · rfl
  have htarget : ∀ r, target { t with dirs := d :: t.dirs } r = target t r := fun r => hlk 40 r
  have hfile : ∀ r, fileAt { t with dirs := d :: t.dirs } r = fileAt t r := by
    intro r
    unfold fileAt
    rw [htarget]
    rfl
  refine ⟨⟨h.tidy.links, ?_, ?_, ?_, h.tidy.ids⟩, by simp only; rw [h.dirs], ?_, ?_⟩
  · intro r hr
    obtain ⟨r', h1, h2⟩ := h.tidy.ends r hr
    exact ⟨r', by rw [htarget, h1], h2.imp_right (List.mem_cons_of_mem _)⟩
  · intro r r' hr hr' he
    rw [htarget, htarget] at he
    exact h.tidy.apart r r' hr hr' he
  · intro r r' j hr hr' h1 h2
    rw [hfile] at h1 h2
    exact h.tidy.unshared r r' j hr hr' h1 h2
  · intro r hr
    unfold readTree
    rw [hfile]
    exact h.files r hr
  · intro q i hq hf
    rw [hfile]
    obtain ⟨h1, h2, h3⟩ := h.keeps q i hq hf
    exact ⟨h1, h2, fun hx => ⟨fun p hp => by rw [hfile]; exact (h3 hx).1 p hp, (h3 hx).2⟩⟩

/-! ## Rotation -/

/-- The fuel of the first loop is never used up: the loop does not depend on it. -/
theorem scanTree_fuel {f : RotateFaults} {p : Path} {limit : Nat} {k : Nat} :
    ∀ {fuel fuel' i n : Nat} {t : Tree}, k - i < fuel → k - i < fuel' → i ≤ k → lookup t (pathAt p k) = none →
      scanTree f p limit fuel i n t = scanTree f p limit fuel' i n t := by
  intro fuel
  induction fuel with
  | zero => intro _ i n t h; omega
  | succ fuel ih =>
    intro fuel' i n t h h' hik hk
    cases fuel' with
    | zero => omega
    | succ fuel' =>
      unfold scanTree
      split
      · rfl
      · cases he : existsTree t (pathAt p i) with
        | none => rfl
        | some b =>
          cases b with
          | false => rfl
          | true =>
            simp only
            have hne : i ≠ k := by
              intro e
              subst e
              have hl : linkAt t (pathAt p i) = none := by unfold linkAt; rw [hk]
              unfold existsTree at he
              rw [fileAt_eq (target_none hl), hk, target_none hl] at he
              simp [fileOf] at he
            split
            · exact ih (by omega) (by omega) (by omega) hk
            · refine ih (by omega) (by omega) (by omega) ?_
              rw [lookup_remove, if_neg (pathAt_ne (by omega))]
              exact hk

/-- Some of the rotated files has no entry, and its number is at most the number of entries. -/
theorem exists_free (t : Tree) (p : Path) : ∃ k, k ≤ t.entries.length ∧ lookup t (pathAt p k) = none := by
  obtain ⟨k, h1, h2⟩ := exists_first ⟨t.entries.map fun x => (x.1, []), []⟩ p
  have h3 := consecutive_le h1
  refine ⟨k, by simpa using h3, ?_⟩
  unfold Log.read at h2
  unfold lookup
  rw [Option.map_eq_none_iff, List.find?_eq_none] at h2 ⊢
  intro x hx
  exact h2 (x.1, []) (List.mem_map_of_mem hx)

theorem scan_sees {N : Path → Prop} {t₀ : Tree} {f : RotateFaults} {p : Path} {limit : Nat}
    (hN : ∀ i, N (pathAt p i)) (fuel : Nat) : ∀ {i n : Nat} {t : Tree} {fs : Fs}, Sees N t₀ t fs → n ≤ i →
      (∀ j < n, read fs (pathAt p j) ≠ none) → (i < limit → n = i) →
      (scanTree f p limit fuel i n t).2 = (scanFiles f p limit fuel i n fs).2 ∧
      Sees N t₀ (scanTree f p limit fuel i n t).1 (scanFiles f p limit fuel i n fs).1 ∧
      ∀ m, (scanFiles f p limit fuel i n fs).2 = some m →
        ∀ j < m, read (scanFiles f p limit fuel i n fs).1 (pathAt p j) ≠ none := by
  induction fuel with
  | zero => intro i n t fs h _ _ _; exact ⟨rfl, h, fun _ h => by cases h⟩
  | succ fuel ih =>
    intro i n t fs h hn hex hl
    unfold scanTree scanFiles
    rw [exists_sees h (hN i)]
    split
    · exact ⟨rfl, h, fun _ h => by cases h⟩
    · cases he : exists' fs (pathAt p i) with
      | false => exact ⟨rfl, h, fun m hm => by simp only [Bool.not_false, if_true] at hm ⊢; cases hm; exact hex⟩
      | true =>
        simp only [Bool.not_true, Bool.false_eq_true, if_false]
        split
        · rename_i hlt
          have := hl hlt
          subst this
          refine ih h (by omega) ?_ (fun _ => rfl)
          intro j hj
          by_cases e : j = n
          · subst e; exact exists_iff.1 he
          · exact hex j (by omega)
        · rename_i hlt
          refine ih (remove_sees h (hN i)) (by omega) ?_ (fun _ => by omega)
          intro j hj
          rw [read_remove_other _ (pathAt_ne (by omega))]
          exact hex j hj

theorem renames_sees {N : Path → Prop} {t₀ : Tree} {f : RotateFaults} {p : Path} (hN : ∀ i, N (pathAt p i)) (n : Nat) :
    ∀ {t : Tree} {fs : Fs}, Sees N t₀ t fs → (∀ j < n, read fs (pathAt p j) ≠ none) →
      (renamesTree f p n t).2 = (renameFiles f p n fs).2 ∧
      Sees N t₀ (renamesTree f p n t).1 (renameFiles f p n fs).1 := by
  induction n with
  | zero => intro t fs h _; exact ⟨rfl, h⟩
  | succ n ih =>
    intro t fs h hex
    unfold renamesTree renameFiles
    split
    · exact ⟨rfl, h⟩
    · obtain ⟨t', fs', h1, h2, h3, -⟩ := rename_sees h (hN n) (hN (n + 1)) (pathAt_ne (by omega)) (hex n (by omega))
      rw [h1, h2]
      simp only
      refine ih h3 fun j hj => ?_
      have : fs' = store (remove fs (pathAt p n)) (pathAt p (n + 1)) ((read fs (pathAt p n)).getD []) := by
        unfold rename at h2
        cases hr : read fs (pathAt p n) with
        | none => exact absurd hr (hex n (by omega))
        | some c => rw [hr] at h2; cases h2; rfl
      rw [this, read_store, read_remove, if_neg (pathAt_ne (by omega)), if_neg (pathAt_ne (by omega))]
      exact hex j (by omega)

theorem rotate_sees {N : Path → Prop} {t₀ t : Tree} {fs : Fs} {f : RotateFaults} {p : Path} {limit : Nat}
    (hN : ∀ i, N (pathAt p i)) (h : Sees N t₀ t fs) :
    (rotateTree f p limit t).2 = (rotate f p limit fs).2 ∧
      Sees N t₀ (rotateTree f p limit t).1 (rotate f p limit fs).1 := by
  obtain ⟨k, hk1, hk2⟩ := exists_free t p
  obtain ⟨k', hk1', hk2'⟩ := exists_first fs p
  have hle := consecutive_le hk1'
  have e1 := scanTree_fuel (f := f) (limit := limit) (fuel := t.entries.length + 1)
    (fuel' := t.entries.length + fs.files.length + 1) (i := 0) (n := 0) (by omega) (by omega) (by omega) hk2
  have e2 := scanFiles_fuel (f := f) (limit := limit) (fuel := fs.files.length + 1)
    (fuel' := t.entries.length + fs.files.length + 1) (i := 0) (n := 0) (by omega) (by omega) (by omega) hk2'
  unfold rotateTree rotate
  rw [e1, e2]
  obtain ⟨h1, h2, h3⟩ := scan_sees (f := f) (p := p) (limit := limit) hN (t.entries.length + fs.files.length + 1)
    (i := 0) (n := 0) h (Nat.le_refl _) (by omega) (fun _ => rfl)
  rcases hA : scanTree f p limit (t.entries.length + fs.files.length + 1) 0 0 t with ⟨t₁, r⟩
  rcases hB : scanFiles f p limit (t.entries.length + fs.files.length + 1) 0 0 fs with ⟨fs₁, r'⟩
  rw [hA, hB] at h1 h2
  rw [hB] at h3
  simp only at h1 h2 h3
  subst h1
  cases r with
  | none => exact ⟨rfl, h2⟩
  | some n => exact renames_sees hN n h2 (h3 n rfl)

theorem scan_keeps {N : Path → Prop} {f : RotateFaults} {p : Path} {limit : Nat} (hN : ∀ i, N (pathAt p i)) {q : Path}
    (hq : ∀ i, limit ≤ i → q ≠ pathAt p i) (fuel : Nat) : ∀ {i n : Nat} {t : Tree},
      (∀ p q, lookup t p = some (.link q) → ¬ N q) → fileAt (scanTree f p limit fuel i n t).1 q = fileAt t q := by
  induction fuel with
  | zero => intro i n t _; rfl
  | succ fuel ih =>
    intro i n t hl
    unfold scanTree
    split
    · rfl
    · cases existsTree t (pathAt p i) with
      | none => rfl
      | some b =>
        cases b with
        | false => rfl
        | true =>
          simp only
          split
          · exact ih hl
          · rename_i hlt
            rw [ih]
            · exact remove_fileAt hl (hN i) (hq i (by omega))
            · intro r r' hr
              rw [lookup_remove] at hr
              split at hr
              · cases hr
              · exact hl r r' hr

theorem renames_moves {N : Path → Prop} {t₀ : Tree} {f : RotateFaults} {p : Path} (hN : ∀ i, N (pathAt p i)) (n : Nat) :
    ∀ {t : Tree} {fs : Fs}, Sees N t₀ t fs → (∀ j < n + 1, read fs (pathAt p j) ≠ none) →
      (renamesTree f p (n + 1) t).2 = true → fileAt (renamesTree f p (n + 1) t).1 (pathAt p 1) = fileAt t (pathAt p 0) ∧
      lookup (renamesTree f p (n + 1) t).1 (pathAt p 0) = none := by
  induction n with
  | zero =>
    intro t fs h hex hr
    unfold renamesTree at hr ⊢
    split at hr
    · cases hr
    · rename_i hf
      rw [if_neg hf]
      obtain ⟨t', fs', h1, h2, h3, h4, h5, h6⟩ := rename_sees h (hN 0) (hN 1) (pathAt_ne (by omega)) (hex 0 (by omega))
      rw [h1]
      exact ⟨h5, h4⟩
  | succ n ih =>
    intro t fs h hex hr
    rw [renamesTree] at hr ⊢
    split at hr
    · cases hr
    · rename_i hf
      rw [if_neg hf]
      obtain ⟨t', fs', h1, h2, h3, h4, h5, h6⟩ := rename_sees h (hN (n + 1)) (hN (n + 2)) (pathAt_ne (by omega))
        (hex (n + 1) (by omega))
      rw [h1] at hr ⊢
      simp only at hr ⊢
      rw [← h6 (pathAt p 0) (pathAt_ne (by omega)) (pathAt_ne (by omega))]
      refine ih h3 (fun j hj => ?_) hr
      have : fs' = store (remove fs (pathAt p (n + 1))) (pathAt p (n + 2)) ((read fs (pathAt p (n + 1))).getD []) := by
        unfold rename at h2
        cases hr : read fs (pathAt p (n + 1)) with
        | none => exact absurd hr (hex (n + 1) (by omega))
        | some c => rw [hr] at h2; cases h2; rfl
      rw [this, read_store, read_remove, if_neg (pathAt_ne (by omega)), if_neg (pathAt_ne (by omega))]
      exact hex j (by omega)

/-- Rotating a link moves the link. -/
theorem rotate_moves {N : Path → Prop} {t₀ t : Tree} {fs : Fs} {f : RotateFaults} {p : Path} {limit : Nat}
    (hN : ∀ i, N (pathAt p i)) (h : Sees N t₀ t fs) (hlim : 1 ≤ limit) (hf : fileAt t p ≠ none)
    (hr : (rotateTree f p limit t).2 = true) :
    fileAt (rotateTree f p limit t).1 (pathAt p 1) = fileAt t p ∧ lookup (rotateTree f p limit t).1 p = none := by
  have hN0 : N p := by rw [← pathAt_zero p]; exact hN 0
  have hex : read fs (pathAt p 0) ≠ none := by
    rw [pathAt_zero]; exact fun e => hf ((fileAt_iff h hN0).2 e)
  unfold rotateTree at hr ⊢
  obtain ⟨m, hm⟩ : ∃ m, t.entries.length + 1 = m + 1 := ⟨_, rfl⟩
  obtain ⟨h1, h2, h3⟩ := scan_sees (f := f) (p := p) (limit := limit) hN (t.entries.length + 1)
    (i := 0) (n := 0) h (Nat.le_refl _) (by omega) (fun _ => rfl)
  have h4 := scan_keeps (f := f) (p := p) (limit := limit) hN (q := p)
    (fun i hi e => pathAt_ne (p := p) (i := 0) (j := i) (by omega) (by rw [pathAt_zero]; exact e))
    (t.entries.length + 1) (i := 0) (n := 0) h.tidy.links
  have hpos : ∀ k, (scanTree f p limit (t.entries.length + 1) 0 0 t).2 = some k → 1 ≤ k := by
    intro k hk
    unfold scanTree at hk
    split at hk
    · cases hk
    · rw [exists_sees h (hN 0), show exists' fs (pathAt p 0) = true from exists_iff.2 hex] at hk
      simp only at hk
      rw [if_pos (by omega)] at hk
      have mono : ∀ fuel i n (t : Tree) k, (scanTree f p limit fuel i n t).2 = some k → n ≤ k := by
        intro fuel
        induction fuel with
        | zero => intro i n t k h; cases h
        | succ fuel ih =>
          intro i n t k h
          unfold scanTree at h
          split at h
          · cases h
          · split at h
            · cases h
            · cases h; exact Nat.le_refl _
            · split at h
              · have := ih _ _ _ _ h; omega
              · exact ih _ _ _ _ h
      exact mono _ _ _ _ _ hk
  rcases hA : scanTree f p limit (t.entries.length + 1) 0 0 t with ⟨t₁, r⟩
  rw [hA] at hr h1 h2 h4 hpos
  simp only at hr h1 h2 h4 hpos
  cases r with
  | none => cases hr
  | some n =>
    simp only at hr ⊢
    obtain ⟨n, rfl⟩ : ∃ k, n = k + 1 := ⟨n - 1, by have := hpos n rfl; omega⟩
    obtain ⟨h5, h6⟩ := renames_moves hN n h2 (h3 (n + 1) h1.symm) hr
    rw [pathAt_zero] at h5 h6
    exact ⟨h5.trans h4, h6⟩

/-- As long as the first rotated file is a link to itself, rotation changes nothing and fails. -/
theorem rotate_stuck {t : Tree} {p : Path} {limit : Nat} (hlim : 1 ≤ limit) (hf : fileAt t p ≠ none)
    (hl : lookup t (pathAt p 1) = some (.link (pathAt p 1))) (f : RotateFaults) : rotateTree f p limit t = (t, false) := by
  have hloop : ∀ n, follow t n (pathAt p 1) = none := by
    intro n
    induction n with
    | zero => exact follow_zero (linkAt_some.2 hl)
    | succ n ih => rw [follow_link (linkAt_some.2 hl)]; exact ih
  have h0 : existsTree t (pathAt p 0) = some true := by
    rw [pathAt_zero]
    unfold existsTree
    cases hi : fileAt t p with
    | none => exact absurd hi hf
    | some i =>
      obtain ⟨q, hq, -⟩ := fileAt_some hi
      rw [hq]; rfl
  have h1 : existsTree t (pathAt p 1) = none := by unfold existsTree target; rw [hloop]; rfl
  obtain ⟨m, hm⟩ : ∃ m, t.entries.length = m + 1 := by
    cases he : t.entries with
    | nil => unfold lookup at hl; rw [he] at hl; cases hl
    | cons x l => exact ⟨l.length, rfl⟩
  unfold rotateTree
  have : scanTree f p limit (t.entries.length + 1) 0 0 t = (t, none) := by
    rw [hm]
    unfold scanTree
    split
    · rfl
    · rw [h0]
      simp only
      rw [if_pos (by omega)]
      unfold scanTree
      split
      · rfl
      · rw [h1]
  rw [this]

/-- A file is created where there is no entry; other names lead where they led. -/
theorem open_moved {N : Path → Prop} {t₀ t u : Tree} {fs : Fs} (h : Sees N t₀ t fs) {p q : Path} {i : Option Nat}
    (hf : fileAt t q = i) (hi : i ≠ none) (hl : lookup t p = none) (ho : openTree false p t = (u, true)) :
    fileAt u q = i ∧ (∃ j, lookup u p = some (.file j)) ∧ readTree u p = some [] := by
  have htp : target t p = some p := target_none (by unfold linkAt; rw [hl])
  have hfp : fileAt t p = none := by rw [fileAt_eq htp, hl]; rfl
  unfold openTree at ho
  split at ho
  · cases ho
  rename_i hc
  push Not at hc
  rw [htp] at ho
  simp only [hfp, Option.isSome_none, Bool.false_eq_true, if_false] at ho
  rw [if_pos hc.2] at ho
  have hu : Tree.mk ((p, .file t.nextId) :: t.entries) (fun i => if i = t.nextId then [] else t.text i) t.dirs
      (t.nextId + 1) = u := (Prod.mk.inj ho).1
  have hlk : ∀ r, lookup u r = if r = p then some (.file t.nextId) else lookup t r := by
    intro r; rw [← hu]; exact lookup_create ..
  have hlink : ∀ r, linkAt u r = linkAt t r := by
    intro r
    unfold linkAt
    rw [hlk]
    by_cases e : r = p
    · rw [if_pos e, e, hl]
    · rw [if_neg e]
  have htarget : ∀ r, target u r = target t r := fun r => target_congr h.tidy.links (fun r _ => hlink r) (hlink r)
  have hup : fileAt u p = some t.nextId := by
    rw [fileAt_eq ((htarget p).trans htp), hlk, if_pos rfl]; rfl
  refine ⟨?_, ⟨_, by rw [hlk, if_pos rfl]⟩, ?_⟩
  · obtain ⟨j, hj⟩ := Option.ne_none_iff_exists'.1 hi
    rw [hj] at hf
    obtain ⟨r, h1, h2⟩ := fileAt_some hf
    have hr : r ≠ p := by intro e; rw [e, hl] at h2; cases h2
    rw [fileAt_eq ((htarget q).trans h1), hlk, if_neg hr, h2, hj]
    rfl
  · unfold readTree
    rw [hup, ← hu]
    simp

/-! ## Writing -/

/-- The files as they are seen, with an open file. -/
def SeesOpen (N : Path → Prop) (t₀ : Tree) (p : Path) (t : Tree) (fs : Fs) : Prop :=
  Sees N t₀ t fs ∧ read fs p ≠ none

/-- What an iteration does with links and without. -/
def Alike (N : Path → Prop) (t₀ : Tree) (p : Path) : TurnT → Turn → Prop
  | .next t l w, .next fs l' w' => SeesOpen N t₀ p t fs ∧ l = l' ∧ w = w'
  | .before t, .before fs => Sees N t₀ t fs
  | .after t, .after fs => Sees N t₀ t fs
  | .crash, .crash => True
  | _, _ => False

theorem put_sees {N : Path → Prop} {t₀ t : Tree} {fs : Fs} {p : Path} (hp : N p) (h : SeesOpen N t₀ p t fs) (k : Kind)
    (text : List Char) (bad : Option Nat) (good : Bool) :
    (putTree p k text bad good t).2 = (put p k text bad good fs).2 ∧
      SeesOpen N t₀ p (putTree p k text bad good t).1 (put p k text bad good fs).1 := by
  unfold putTree put
  split
  · cases bad with
    | none => exact ⟨rfl, append_sees h.1 hp h.2 _, by simp only; rw [read_store, if_pos rfl]; simp⟩
    | some n => exact ⟨rfl, append_sees h.1 hp h.2 _, by simp only; rw [read_store, if_pos rfl]; simp⟩
  · exact ⟨rfl, h⟩

theorem size_sees {N : Path → Prop} {t₀ t : Tree} {fs : Fs} {p : Path} (hp : N p) (h : Sees N t₀ t fs) (good : Bool) :
    sizeTree p good t = fileSize p good fs := by
  unfold sizeTree fileSize
  rw [h.files p hp]

theorem entry_alike {N : Path → Prop} {t₀ t : Tree} {fs : Fs} {p : Path} (hp : N p) (h : SeesOpen N t₀ p t fs)
    {σ : Settings} {io : Io} {l : Locals} {name : Nat} {e : Entry} :
    Alike N t₀ p (turnEntryT σ io p l name e t) (turnEntry σ io p l name e fs) := by
  unfold turnEntryT turnEntry
  cases σ.logWriter e with
  | ok text =>
    obtain ⟨h1, h2⟩ := put_sees hp h (.entry name e) (text ++ ['\n']) io.entry l.good
    rcases hA : putTree p (.entry name e) (text ++ ['\n']) io.entry l.good t with ⟨t', r⟩
    rcases hB : put p (.entry name e) (text ++ ['\n']) io.entry l.good fs with ⟨fs', r'⟩
    rw [hA, hB] at h1 h2
    simp only at h1 h2
    subst h1
    simp only [hA, hB]
    exact ⟨h2, rfl, rfl⟩
  | fsError text =>
    obtain ⟨h1, h2⟩ := put_sees hp h .torn text io.entry l.good
    rcases hA : putTree p .torn text io.entry l.good t with ⟨t', r⟩
    rcases hB : put p .torn text io.entry l.good fs with ⟨fs', r'⟩
    rw [hA, hB] at h1 h2
    simp only [hA, hB]
    exact h2.1
  | error => trivial

theorem header_alike {N : Path → Prop} {t₀ t : Tree} {fs : Fs} {p : Path} (hp : N p) (h : SeesOpen N t₀ p t fs)
    {σ : Settings} {io : Io} {l : Locals} {k name : Nat} {e : Entry} :
    Alike N t₀ p (turnHeaderT σ io p l k name e t) (turnHeader σ io p l k name e fs) := by
  unfold turnHeaderT turnHeader
  split
  · cases σ.headerWriter with
    | ok text =>
      obtain ⟨h1, h2⟩ := put_sees hp h .header (text ++ ['\n']) io.header l.good
      rcases hA : putTree p .header (text ++ ['\n']) io.header l.good t with ⟨t', r⟩
      rcases hB : put p .header (text ++ ['\n']) io.header l.good fs with ⟨fs', r'⟩
      rw [hA, hB] at h1 h2
      simp only at h1 h2
      subst h1
      simp only [hA, hB]
      exact entry_alike hp h2
    | fsError text =>
      obtain ⟨h1, h2⟩ := put_sees hp h .torn text io.header l.good
      rcases hA : putTree p .torn text io.header l.good t with ⟨t', r⟩
      rcases hB : put p .torn text io.header l.good fs with ⟨fs', r'⟩
      rw [hA, hB] at h1 h2
      simp only [hA, hB]
      exact h2.1
    | error => trivial
  · exact entry_alike hp h

theorem turn_alike {N : Path → Prop} {t₀ t : Tree} {fs : Fs} {p : Path} (hN : ∀ i, N (pathAt p i))
    (h : SeesOpen N t₀ p t fs) {σ : Settings} {io : Io} {l : Locals} {name : Nat} {e : Entry} :
    Alike N t₀ p (turnT σ io p l name e t) (turn σ io p l name e fs) := by
  have hp : N p := pathAt_zero p ▸ hN 0
  unfold turnT turn
  rw [size_sees hp h.1]
  split
  · obtain ⟨h1, h2⟩ := rotate_sees (f := io.rotating) (limit := σ.fileRotationLimit) hN h.1
    rcases hA : rotateTree io.rotating p σ.fileRotationLimit t with ⟨t₁, r⟩
    rcases hB : rotate io.rotating p σ.fileRotationLimit fs with ⟨fs₁, r'⟩
    rw [hA, hB] at h1 h2
    simp only at h1 h2
    subst h1
    cases r with
    | false => exact h2
    | true =>
      obtain ⟨h3, h4, h5⟩ := open_sees h2 hp io.opening
      rcases hC : openTree io.opening p t₁ with ⟨t₂, r⟩
      rcases hD : openFile io.opening p fs₁ with ⟨fs₂, r'⟩
      rw [hC, hD] at h3 h4
      rw [hD] at h5
      simp only at h3 h4 h5
      subst h3
      simp only
      rw [hC, hD]
      cases r with
      | false => exact h4
      | true =>
        simp only
        rw [size_sees hp h4]
        exact header_alike hp ⟨h4, h5 rfl⟩
  · exact header_alike hp h

theorem prepare_alike {N : Path → Prop} {t₀ t : Tree} {fs : Fs} {p : Path} (hp : N p) (h : Sees N t₀ t fs)
    {σ : Settings} {io : Io} {f : LogFile} (hk : f.filePath.getD p = p) :
    ∃ f' t' fs' l, prepareT σ io p f t = (f', t', l) ∧ prepare σ io p f fs = (f', fs', l) ∧ Sees N t₀ t' fs' ∧
      ∀ l', l = some l' → f'.filePath.getD p = p ∧ SeesOpen N t₀ p t' fs' := by
  unfold prepareT prepare
  split
  · exact ⟨_, _, _, _, rfl, rfl, h, fun _ h => by cases h⟩
  · simp only
    split
    · exact ⟨_, _, _, _, rfl, rfl, h, fun _ h => by cases h⟩
    · by_cases hd : σ.createDirs = true ∧ f.dirsCreated = false
      · simp only [if_pos hd, Option.getD_some, hk]
        obtain ⟨h1, h2, h3⟩ := open_sees (mkdir_sees h p.dir) hp io.opening
        rcases hC : openTree io.opening p { t with dirs := p.dir :: t.dirs } with ⟨t', r⟩
        rcases hD : openFile io.opening p { fs with dirs := p.dir :: fs.dirs } with ⟨fs', r'⟩
        rw [hC, hD] at h1 h2
        rw [hD] at h3
        simp only at h1 h2 h3
        subst h1
        cases r with
        | true => exact ⟨_, t', fs', _, rfl, rfl, h2, fun l' hl => by cases hl; exact ⟨rfl, h2, h3 rfl⟩⟩
        | false => exact ⟨_, t', fs', _, rfl, rfl, h2, fun _ h => by cases h⟩
      · simp only [if_neg hd, Option.getD_some, hk]
        obtain ⟨h1, h2, h3⟩ := open_sees h hp io.opening
        rcases hC : openTree io.opening p t with ⟨t', r⟩
        rcases hD : openFile io.opening p fs with ⟨fs', r'⟩
        rw [hC, hD] at h1 h2
        rw [hD] at h3
        simp only at h1 h2 h3
        subst h1
        cases r with
        | true => exact ⟨_, t', fs', _, rfl, rfl, h2, fun l' hl => by cases hl; exact ⟨rfl, h2, h3 rfl⟩⟩
        | false => exact ⟨_, t', fs', _, rfl, rfl, h2, fun _ h => by cases h⟩

theorem writeLoop_alike {N : Path → Prop} {t₀ : Tree} {p : Path} (hN : ∀ i, N (pathAt p i)) {σ : Settings} {name : Nat}
    (todo : List Entry) : ∀ {l : Locals} {ios : List Io} {t : Tree} {fs : Fs}, SeesOpen N t₀ p t fs →
      match writeLoopT σ p name l todo ios t, writeLoop σ p name l todo ios fs with
      | some (t', ps), some (fs', ps') => ps = ps' ∧ Sees N t₀ t' fs'
      | none, none => True
      | _, _ => False := by
  induction todo with
  | nil => intro l ios t fs h; exact ⟨rfl, h.1⟩
  | cons e todo ih =>
    intro l ios t fs h
    have ht := turn_alike (σ := σ) (io := ios.headD {}) (l := l) (name := name) (e := e) hN h
    unfold writeLoopT writeLoop
    rcases hB : turnT σ (ios.headD {}) p l name e t with ⟨t', l', w⟩ | t' | t' | _ <;>
    rcases hT : turn σ (ios.headD {}) p l name e fs with ⟨fs', l'', w'⟩ | fs' | fs' | _ <;>
    rw [hB, hT] at ht <;> simp only [Alike] at ht ⊢
    · obtain ⟨h1, rfl, rfl⟩ := ht
      have := ih (l := l') (ios := ios.tail) h1
      rcases hX : writeLoopT σ p name l' todo ios.tail t' with _ | ⟨d, ps⟩ <;>
      rcases hY : writeLoop σ p name l' todo ios.tail fs' with _ | ⟨g, ps'⟩ <;>
      rw [hX, hY] at this <;> simp only at this ⊢
      exact ⟨by rw [this.1], this.2⟩
    · exact ⟨trivial, ht⟩
    · exact ⟨trivial, ht⟩

/-! ## Steps -/

/-- How a logger on a file system with links follows one on a file system without. -/
structure Follows (paths : Nat → Path) (t₀ : Tree) (b : State) (s : Log.State) : Prop where
  same : s = { b.s with fs := s.fs }
  sees : Sees (Names paths) t₀ b.tree s.fs
  opened : ∀ p l, Log.opened b.s.thread = some (p, l) → read s.fs p ≠ none

theorem names (paths : Nat → Path) (n i : Nat) : Names paths (pathAt (paths n) i) := ⟨n, i, rfl⟩

theorem name (paths : Nat → Path) (n : Nat) : Names paths (paths n) := ⟨n, 0, (pathAt_zero _).symm⟩

theorem known_getD {p : Path} {f : LogFile} (h : Known p f) : f.filePath.getD p = p := by
  rcases h with h | h <;> rw [h] <;> rfl

theorem threadStep_quiet {paths : Nat → Path} {io : Io} {s s' : Log.State} (x : Fs) (ho : Log.opened s.thread = none)
    (hn : ∀ name todo, s.thread ≠ .opening name todo) (h : threadStep paths s io = some s') :
    threadStep paths { s with fs := x } io = some { s' with fs := x } ∧ Log.opened s'.thread = none := by
  unfold threadStep at h ⊢
  simp only
  cases ht : s.thread with
  | writing name p l todo done => rw [ht] at ho; cases ho
  | opening name todo => exact absurd ht (hn name todo)
  | starting =>
    rw [ht] at h; simp only at h ⊢
    split at h <;> cases h
    exact ⟨by simp_all, rfl⟩
  | checking w =>
    rw [ht] at h; simp only at h ⊢
    split at h
    · split at h <;> cases h <;> exact ⟨by simp_all, rfl⟩
    · cases h
      exact ⟨by simp_all, rfl⟩
  | drowsy =>
    rw [ht] at h; simp only at h ⊢
    cases h
    exact ⟨by simp_all, rfl⟩
  | asleep => rw [ht] at h; cases h
  | woken =>
    rw [ht] at h; simp only at h ⊢
    split at h <;> cases h
    exact ⟨by simp_all, rfl⟩
  | scanning last w =>
    rw [ht] at h; simp only at h ⊢
    split at h
    · cases h
      exact ⟨by simp_all, rfl⟩
    · split at h <;> cases h <;> exact ⟨by simp_all, rfl⟩
  | returning name done =>
    rw [ht] at h; simp only at h ⊢
    split at h <;> cases h
    exact ⟨by simp_all, rfl⟩
  | exited => rw [ht] at h; cases h

theorem opened_of_quiet {paths : Nat → Path} {t₀ : Tree} {b : State} {s : Log.State} (h : Follows paths t₀ b s)
    {x : Log.State} (hx : Log.opened x.thread = Log.opened b.s.thread) :
    Follows paths t₀ ⟨x, b.tree⟩ { x with fs := s.fs } :=
  ⟨rfl, h.sees, fun p l hp => h.opened p l (hx.symm.trans hp)⟩

/-- A step with links is a step without. -/
theorem follows_step {paths : Nat → Path} {t₀ : Tree} {b b' : State} {s : Log.State} {ev : Event}
    (hk : PathsOk paths s) (hb : Base s)
    (hf : Follows paths t₀ b s) (h : step paths b ev = some b') :
    ∃ s', Log.step paths s ev = some s' ∧ Follows paths t₀ b' s' := by
  have hf₀ := hf
  obtain ⟨hsame, hsees, hopen⟩ := hf
  unfold step at h
  split at h
  · cases h
  rename_i hc
  have hfiles : s.files = b.s.files := by rw [hsame]
  have hthread : s.thread = b.s.thread := by rw [hsame]
  have hstage : s.stage = b.s.stage := by rw [hsame]
  generalize hx : s.fs = x at hsame hsees hopen
  by_cases hq : Quiet ev
  · have h' : (Log.step paths b.s ev).map (⟨·, b.tree⟩) = some b' := by
      cases ev <;> first | exact h | exact hq.elim
    rw [Option.map_eq_some_iff] at h'
    obtain ⟨u, h1, rfl⟩ := h'
    obtain ⟨h2, h3, h4, h5, h6⟩ := step_quiet hq h1 x
    refine ⟨_, by rw [hsame]; exact h2, ?_⟩
    have := opened_of_quiet hf₀ h5
    rw [hx] at this
    exact this
  · cases ev with
    | thread io =>
      simp only at h
      have hstep : Log.step paths s (.thread io) = threadStep paths { b.s with fs := x } io := by
        unfold Log.step
        rw [hsame, if_neg hc]
      rw [hstep]
      cases ht : b.s.thread with
      | opening nm todo =>
        rw [ht] at h
        simp only at h
        cases h
        have hkn : ((find b.s.files nm).getD {}).filePath.getD (paths nm) = paths nm := by
          cases hfd : find b.s.files nm with
          | none => rfl
          | some f => exact known_getD (hk.known nm f (by rw [hfiles]; exact hfd))
        obtain ⟨f', t', fs', l, h1, h2, h3, h4⟩ := prepare_alike (σ := b.s.settings) (io := io) (name paths nm) hsees hkn
        unfold threadStep openStepT
        simp only [ht]
        rw [h1, h2]
        cases l with
        | none => exact ⟨_, rfl, rfl, h3, fun p l hp => by cases hp⟩
        | some l =>
          obtain ⟨h5, h6⟩ := h4 l rfl
          refine ⟨_, rfl, rfl, h3, fun p l hp => ?_⟩
          simp only at hp ⊢
          cases hp
          rw [h5]
          exact h6.2
      | writing nm p l todo done =>
        rw [ht] at h
        simp only at h
        cases h
        have hp : p = paths nm := hk.writing nm p l todo done (hthread.trans ht)
        have hso : SeesOpen (Names paths) t₀ p b.tree x := ⟨hsees, hopen p l (by rw [ht]; rfl)⟩
        unfold threadStep writeStepT
        simp only [ht]
        cases todo with
        | nil => exact ⟨_, rfl, rfl, hsees, fun p l hp => by cases hp⟩
        | cons e todo =>
          simp only
          have ha := turn_alike (σ := b.s.settings) (io := io) (l := l) (name := nm) (e := e)
            (fun i => by rw [hp]; exact names paths nm i) hso
          rcases hB : turnT b.s.settings io p l nm e b.tree with ⟨t', l', w⟩ | t' | t' | _ <;>
          rcases hT : turn b.s.settings io p l nm e x with ⟨fs', l'', w'⟩ | fs' | fs' | _ <;>
          rw [hB, hT] at ha <;> simp only [Alike] at ha ⊢
          · obtain ⟨h1, rfl, rfl⟩ := ha
            exact ⟨_, rfl, rfl, h1.1, fun q l hq => by cases hq; exact h1.2⟩
          · exact ⟨_, rfl, rfl, ha, fun q l hq => by cases hq⟩
          · exact ⟨_, rfl, rfl, ha, fun q l hq => by cases hq⟩
          · refine ⟨_, rfl, rfl, hsees, fun q l' hq => ?_⟩
            exact hopen q l' (by rw [ht]; exact hq)
      | _ =>
        have h' : (threadStep paths b.s io).map (⟨·, b.tree⟩) = some b' := by rw [ht] at h; exact h
        rw [Option.map_eq_some_iff] at h'
        obtain ⟨u, h1, rfl⟩ := h'
        obtain ⟨h2, h3⟩ := threadStep_quiet x (by rw [ht]; rfl) (by rw [ht]; intro _ _ h; cases h) h1
        exact ⟨_, h2, rfl, hsees, fun p l hp => by simp only at hp; rw [h3] at hp; cases hp⟩
    | flush io ios =>
      simp only at h
      unfold Log.step
      rw [hsame, if_neg hc]
      simp only
      cases hst : b.s.stage with
      | flushing last =>
        rw [hst] at h
        simp only at h ⊢
        have hex : b.s.thread = .exited := by
          rw [← hthread]
          exact hb.ended.resolve_left (fun h => h.1 last (hstage.trans hst))
        have hno : ∀ p l, Log.opened b.s.thread = some (p, l) → ∀ fs, read fs p ≠ none := by
          intro p l hp; rw [hex] at hp; cases hp
        cases hn : next b.s.files last with
        | none => rw [hn] at h; cases h
        | some y =>
          obtain ⟨nm, f⟩ := y
          rw [hn] at h
          simp only at h ⊢
          cases h
          refine ⟨_, rfl, ?_⟩
          have hkn : f.filePath.getD (paths nm) = paths nm :=
            known_getD (hk.known nm f (by rw [hfiles]; exact (next_some (hfiles ▸ hb.sorted) hn).1))
          unfold flushFileT flushFile
          split
          · obtain ⟨f', t', fs', l, h1, h2, h3, h4⟩ := prepare_alike (σ := b.s.settings) (io := io) (name paths nm) hsees hkn
            simp only
            rw [h1, h2]
            cases l with
            | none => exact ⟨rfl, h3, fun p l hp => hno p l hp _⟩
            | some l =>
              obtain ⟨h5, h6⟩ := h4 l rfl
              simp only
              rw [h5]
              have hw := writeLoop_alike (σ := b.s.settings) (name := nm) (names paths nm) f'.buffer.reverse (l := l)
                (ios := ios) h6
              rcases hX : writeLoopT b.s.settings (paths nm) nm l f'.buffer.reverse ios t' with _ | ⟨d, ps⟩ <;>
              rcases hY : writeLoop b.s.settings (paths nm) nm l f'.buffer.reverse ios fs' with _ | ⟨g, ps'⟩ <;>
              rw [hX, hY] at hw <;> simp only at hw ⊢
              · exact ⟨by simp only; rw [hst], hsees, fun p l hp => hno p l hp _⟩
              · obtain ⟨rfl, h7⟩ := hw
                exact ⟨rfl, h7, fun p l hp => hno p l hp _⟩
          · exact ⟨rfl, hsees, fun p l hp => hno p l hp _⟩
      | _ => rw [hst] at h; cases h
    | _ => exact absurd trivial hq

theorem follows_run {paths : Nat → Path} {σ : Settings} {fs : Fs} {t₀ : Tree} (evs : List Event) :
    ∀ {b b' : State} {s : Log.State}, Reachable paths σ fs s → Follows paths t₀ b s → run paths b evs = some b' →
      ∃ s', Log.run paths s evs = some s' ∧ Follows paths t₀ b' s' := by
  induction evs with
  | nil => intro b b' s _ hf h; cases h; exact ⟨s, rfl, hf⟩
  | cons ev evs ih =>
    intro b b' s hr hf h
    unfold run at h
    cases hs : step paths b ev with
    | none => rw [hs] at h; cases h
    | some b₁ =>
      rw [hs] at h
      obtain ⟨s₁, h1, h2⟩ := follows_step (pathsOk hr) (base hr) hf hs
      obtain ⟨s', h3, h4⟩ := ih (.step ev hr h1) h2 h
      refine ⟨s', ?_, h4⟩
      rw [Log.run, h1]
      exact h3

/-- Whatever can happen without links can happen with them. -/
theorem follows_back {paths : Nat → Path} {t₀ : Tree} {b : State} {s s' : Log.State} {ev : Event}
    (hf : Follows paths t₀ b s) (h : Log.step paths s ev = some s') : ∃ b', step paths b ev = some b' := by
  obtain ⟨hsame, -, -⟩ := hf
  have hc : ¬ b.s.crashed = true := by
    intro hc
    unfold Log.step at h
    rw [if_pos (by rw [hsame]; exact hc)] at h
    cases h
  have hback : b.s = { s with fs := b.s.fs } := by rw [hsame]
  unfold step
  rw [if_neg hc]
  by_cases hq : Quiet ev
  · have h2 := (step_quiet hq h b.s.fs).1
    rw [← hback] at h2
    cases ev <;> first | exact hq.elim | exact ⟨_, by simp only; rw [h2]; rfl⟩
  · cases ev with
    | thread io =>
      have h1 : threadStep paths s io = some s' := by
        unfold Log.step at h
        split at h
        · cases h
        · exact h
      simp only
      cases ht : b.s.thread with
      | opening nm todo => exact ⟨_, rfl⟩
      | writing nm p l todo done => exact ⟨_, rfl⟩
      | _ =>
        have hth : s.thread = b.s.thread := by rw [hsame]
        obtain ⟨h2, -⟩ := threadStep_quiet b.s.fs (by rw [hth, ht]; rfl) (by rw [hth, ht]; intro _ _ h; cases h) h1
        rw [← hback] at h2
        exact ⟨_, by simp only; rw [h2]; rfl⟩
    | flush io ios =>
      unfold Log.step at h
      split at h
      · cases h
      · rw [hsame] at h
        simp only at h ⊢
        cases hst : b.s.stage with
        | flushing last =>
          rw [hst] at h
          simp only at h ⊢
          cases hn : next b.s.files last with
          | none => rw [hn] at h; cases h
          | some y => exact ⟨_, rfl⟩
        | _ => rw [hst] at h; cases h
    | _ => exact absurd trivial hq

theorem follows_run_back {paths : Nat → Path} {σ : Settings} {fs : Fs} {t₀ : Tree} (evs : List Event) :
    ∀ {b : State} {s s' : Log.State}, Reachable paths σ fs s → Follows paths t₀ b s → Log.run paths s evs = some s' →
      ∃ b', run paths b evs = some b' := by
  induction evs with
  | nil => intro b s s' _ hf h; exact ⟨b, rfl⟩
  | cons ev evs ih =>
    intro b s s' hr hf h
    rw [Log.run] at h
    cases hs : Log.step paths s ev with
    | none => rw [hs] at h; cases h
    | some s₁ =>
      rw [hs] at h
      obtain ⟨b₁, hb⟩ := follows_back hf hs
      obtain ⟨s₂, h1, h2⟩ := follows_step (pathsOk hr) (base hr) hf hb
      rw [hs] at h1
      cases h1
      obtain ⟨b', hb'⟩ := ih (.step ev hr hs) h2 h
      exact ⟨b', by rw [run, hb]; exact hb'⟩

theorem follows_init {paths : Nat → Path} {t : Tree} {fs : Fs} (σ : Settings) (hT : Tidy (Names paths) t)
    (hv : SameFiles t fs) : Follows paths t (init σ t) (Log.init σ fs) :=
  ⟨rfl, ⟨hT, hv.dirs, fun p _ => hv.files p, keeps_refl _ _⟩, fun p l h => by cases h⟩

/-- There is a file system without links that has the same files for one who reads them. -/
theorem flat (t : Tree) : ∃ fs, SameFiles t fs := by
  have key : ∀ (l : List (Path × Node)) (p : Path),
      ((l.filterMap fun x => (readTree t x.1).map fun c => (x.1, c)).find? (·.1 = p)).map (·.2) =
        if p ∈ l.map (·.1) then readTree t p else none := by
    intro l p
    induction l with
    | nil => rfl
    | cons x l ih =>
      have hm : p ≠ x.1 → (p ∈ (x :: l).map (·.1) ↔ p ∈ l.map (·.1)) := by
        intro e
        rw [List.map_cons, List.mem_cons]
        exact ⟨fun h => h.resolve_left e, .inr⟩
      rw [List.filterMap_cons]
      cases hx : readTree t x.1 with
      | none =>
        simp only [Option.map_none]
        rw [ih]
        by_cases e : p = x.1
        · subst e; simp [hx]
        · simp only [hm e]
      | some c =>
        simp only [Option.map_some]
        rw [find_cons, ih]
        by_cases e : p = x.1
        · subst e; simp [hx]
        · rw [if_neg e]; simp only [hm e]
  refine ⟨⟨t.entries.filterMap fun x => (readTree t x.1).map fun c => (x.1, c), t.dirs⟩, rfl, fun p => ?_⟩
  unfold Log.read
  rw [key]
  split
  · rfl
  · rename_i hno
    have hl : lookup t p = none := by
      unfold lookup
      rw [Option.map_eq_none_iff, List.find?_eq_none]
      intro x hx e
      exact hno (List.mem_map.2 ⟨x, hx, by simpa using e⟩)
    unfold readTree
    rw [fileAt_eq (target_none (by unfold linkAt; rw [hl])), hl]
    rfl

end Pluto.LogLink
