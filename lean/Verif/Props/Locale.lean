import Verif.Proofs.Locale
import Mathlib.Tactic.Set

/-!
# Properties of comparators and functions that use a locale (C104, C105)

`run cfg {} ops` is a program that does `ops`, one after the other; `.used ct` says that a comparator or function has
computed its result with the classification `ct`.
-/

namespace Pluto.Props
open Pluto.Locale

variable {α : Type}

/-- A call with a locale that exists. -/
private theorem call_some {cfg : Config α} {s : State α} (h : Wf cfg s) {l : Nat} {fs : Elem → Option Nat}
    (hl : s.locales[l]? = some (some fs)) (e : Elem) :
    (∀ f, fs e = some f → ∃ ct, s.facets[f]? = some ct ∧ step cfg s (.call e (some l)) = .ok (s, .used ct)) ∧
      (fs e = none → step cfg s (.call e (some l)) = .ok (s, .threw)) := by
  have hu : useFacet s l e = .ok (fs e) := by rw [useFacet_eq, facetsOf_ok.2 hl]; rfl
  constructor
  · intro f hf
    have hb := h.bound l fs e f hl hf
    refine ⟨s.facets[f], List.getElem?_eq_getElem hb, ?_⟩
    simp only [step, argument, hu, hf, ok_bind, through_of hl hf (List.getElem?_eq_getElem hb)]
    rfl
  · intro hf
    simp only [step, argument, hu, hf, ok_bind]
    rfl

/-! ## C104: comparators -/

/-- C104 (partial: as long as the locale exists). A comparator made of a locale computes what the functions of the
library computed with that locale when it was made, whatever the program does, as long as it neither destroys nor
assigns to that locale. -/
theorem C104_kept_partial {cfg : Config α} {ops ops' : List (Op α)} {s s₁ s₂ : State α} {rs rs' : List (Ret α)}
    (h : run cfg {} ops = .ok (s, rs)) (e : Elem) (l c : Nat)
    (hc : step cfg s (.comparator e (some l)) = .ok (s₁, .object c)) (hr : run cfg s₁ ops' = .ok (s₂, rs'))
    (hl : ∀ op ∈ ops', op ≠ .destroy l ∧ ∀ m, op ≠ .assign l m) :
    ∃ ct, step cfg s (.call e (some l)) = .ok (s, .used ct) ∧ step cfg s₂ (.compare c) = .ok (s₂, .used ct) := by
  obtain ⟨w, -, -⟩ := run_spec (wf_init cfg) h
  have w1 := (step_spec w hc).1
  simp only [step, argument] at hc
  obtain ⟨x, hx, h2⟩ := bind_ok hc
  rw [useFacet_eq] at hx
  cases hfs : facetsOf s l with
  | error err => rw [hfs] at hx; cases hx
  | ok fs =>
    rw [hfs] at hx
    cases hx
    rw [facetsOf_ok] at hfs
    have hcall := call_some w hfs e
    cases hf : fs e with
    | none => simp only [hf] at h2; cases h2
    | some f =>
      obtain ⟨ct, hct, hcs⟩ := hcall.1 f hf
      simp only [hf, release, Bool.false_eq_true, if_false] at h2
      cases h2
      refine ⟨ct, hcs, ?_⟩
      obtain ⟨w2, k, -⟩ := run_spec w1 hr
      have hl2 := k.locales l fs (by
        rintro ⟨op, ho, ht⟩
        obtain ⟨a, b⟩ := hl op ho
        cases op <;> simp only [touches] at ht
        · subst ht; exact b _ rfl
        · subst ht; exact a rfl) hfs
      have hf2 := k.facets f ct hct
      have hc2 := k.comparators s.comparators.length f (by simp)
      simp only [step, hc2, through_of hl2 hf hf2, ok_bind]
      rfl

/-- C104 (partial: unless `PLUTO_LOCALE_NO_STATIC`). A comparator made without an argument computes with the default
locale for ever. -/
theorem C104_default_partial {cfg : Config α} (hn : cfg.noStatic = false) {ops ops' : List (Op α)} {s s₁ s₂ : State α}
    {rs rs' : List (Ret α)} (h : run cfg {} ops = .ok (s, rs)) (e : Elem) (c : Nat)
    (hc : step cfg s (.comparator e none) = .ok (s₁, .object c)) (hr : run cfg s₁ ops' = .ok (s₂, rs')) :
    ∃ a b, cfg.named = some (a, b) ∧
      ((e = .char ∧ step cfg s₂ (.compare c) = .ok (s₂, .used a)) ∨
        (e = .wchar ∧ step cfg s₂ (.compare c) = .ok (s₂, .used b))) := by
  obtain ⟨w, -, -⟩ := run_spec (wf_init cfg) h
  have w1 := (step_spec w hc).1
  obtain ⟨hk, hw, hcs, htemp, -, hstat⟩ := argument_spec cfg w none
  simp only [step] at hc
  generalize argument cfg s none = p at *
  obtain ⟨s', arg⟩ := p
  cases arg with
  | none => cases hc
  | some arg =>
    obtain ⟨i, t⟩ := arg
    obtain ⟨ht, hd⟩ := hstat rfl hn i t rfl
    obtain ⟨ca, cb, x, y, hnm, hloc, hfx, hfy⟩ := (htemp i t rfl).2 rfl
    subst ht
    obtain ⟨g, hg, h2⟩ := bind_ok hc
    simp only at hd hloc hfx hfy
    rw [useFacet_eq, facetsOf_ok.2 hloc] at hg
    cases hg
    cases hf : standard x y e with
    | none => simp only [hf] at h2; cases h2
    | some f =>
      simp only [hf, release, Bool.false_eq_true, if_false] at h2
      cases h2
      obtain ⟨w2, k, d⟩ := run_spec w1 hr
      have hl2 := k.locales i (standard x y) (d i hd).2 hloc
      have hc2 := k.comparators s'.comparators.length f (by simp)
      refine ⟨ca, cb, hnm, ?_⟩
      cases e <;> simp [standard] at hf
      · subst hf
        left
        refine ⟨rfl, ?_⟩
        simp only [step, hc2, through_of hl2 (show standard x y .char = some x from rfl) (k.facets _ _ hfx), ok_bind]
        rfl
      · subst hf
        right
        refine ⟨rfl, ?_⟩
        simp only [step, hc2, through_of hl2 (show standard x y .wchar = some y from rfl) (k.facets _ _ hfy), ok_bind]
        rfl

/-- A facet of a locale that has just been made is referred to by no other locale. -/
private theorem dead {cfg : Config α} {s : State α} (h : Wf cfg s) (fs : Elem → Option Nat) (cts : List (Str.Ctype α))
    (f : Nat) (hf : s.facets.length ≤ f) (t : State α) (ht : t.locales = (add s fs cts).locales.set s.locales.length none) :
    through t f = .error .undefined := by
  unfold through
  rw [if_neg]
  rw [alive_iff]
  rintro ⟨l, gs, e, hl, hg⟩
  rw [ht] at hl
  by_cases hll : s.locales.length = l
  · subst hll
    rw [List.getElem?_set] at hl
    simp [add] at hl
  · rw [List.getElem?_set_ne hll] at hl
    have hlt : l < s.locales.length := by
      have := get_some_lt hl
      simp [add] at this
      omega
    simp only [add] at hl
    rw [List.getElem?_append_left hlt] at hl
    have := h.bound l gs e f hl hg
    omega

/-- C104. A copy of a comparator does what the comparator does, at any later point. -/
theorem C104_copy {cfg : Config α} {ops ops' : List (Op α)} {s s₁ s₂ : State α} {rs rs' : List (Ret α)}
    (h : run cfg {} ops = .ok (s, rs)) (c d : Nat) (hc : step cfg s (.copyComparator c) = .ok (s₁, .object d))
    (hr : run cfg s₁ ops' = .ok (s₂, rs')) : step cfg s₂ (.compare d) = step cfg s₂ (.compare c) := by
  obtain ⟨w, -, -⟩ := run_spec (wf_init cfg) h
  obtain ⟨w1, k1, -⟩ := step_spec w hc
  obtain ⟨w2, k, -⟩ := run_spec w1 hr
  simp only [step] at hc
  cases hf : s.comparators[c]? with
  | none => rw [hf] at hc; cases hc
  | some f =>
    have h1 := k.comparators c f (k1.comparators c f hf)
    rw [hf] at hc
    cases hc
    have h2 := k.comparators s.comparators.length f (by simp)
    simp only [step, h1, h2]

/-- C104 fails: at any point of any program, make a locale, make a comparator of it and let the locale go: to call the
comparator is undefined. -/
theorem C104_fails {cfg : Config α} {ops : List (Op α)} {s : State α} {rs : List (Ret α)}
    (h : run cfg {} ops = .ok (s, rs)) (c w : Str.Ctype α) :
    ∃ s', run cfg s [.construct c w, .comparator .char (some s.locales.length), .destroy s.locales.length] =
        .ok (s', [.object s.locales.length, .object s.comparators.length, .object s.locales.length]) ∧
      step cfg s' (.compare s.comparators.length) = .error .undefined := by
  obtain ⟨wf, -, -⟩ := run_spec (wf_init cfg) h
  have hd : s.dflt ≠ some s.locales.length := by
    intro hd
    obtain ⟨_, _, _, _, _, _, h3, _⟩ := wf.dflt _ hd
    exact absurd (get_some_lt h3) (by omega)
  set fs := standard s.facets.length (s.facets.length + 1) with hfs
  have hlast := add_last s fs [c, w]
  have hu : useFacet (add s fs [c, w]) s.locales.length .char = .ok (some s.facets.length) := by
    rw [useFacet_eq, facetsOf_ok.2 hlast]; rfl
  let s1 : State α := { add s fs [c, w] with comparators := s.comparators ++ [s.facets.length] }
  have h1 : step cfg s (.construct c w) = .ok (add s fs [c, w], .object s.locales.length) := rfl
  have h2 : step cfg (add s fs [c, w]) (.comparator .char (some s.locales.length)) =
      .ok (s1, .object s.comparators.length) := by
    simp only [step, argument, hu, ok_bind]
    rfl
  have h3 : step cfg s1 (.destroy s.locales.length) = .ok (destroy s1 s.locales.length, .object s.locales.length) := by
    have : facetsOf s1 s.locales.length = .ok fs := facetsOf_ok.2 hlast
    simp only [step, this, ok_bind]
    rw [if_neg (show s1.dflt ≠ some s.locales.length from hd)]
    rfl
  refine ⟨destroy s1 s.locales.length, ?_, ?_⟩
  · simp only [run, h1, h2, h3, ok_bind]
    rfl
  · have hc : (destroy s1 s.locales.length).comparators[s.comparators.length]? = some s.facets.length := by
      simp [destroy, s1]
    simp only [step, hc]
    rw [dead wf fs [c, w] s.facets.length (Nat.le_refl _) _ rfl]
    rfl

/-- C104 fails with `PLUTO_LOCALE_NO_STATIC` for every comparator made without an argument: to call it is undefined. -/
theorem C104_fails_no_static {cfg : Config α} (hn : cfg.noStatic = true) {c w : Str.Ctype α}
    (hnm : cfg.named = some (c, w)) {ops : List (Op α)} {s : State α} {rs : List (Ret α)}
    (h : run cfg {} ops = .ok (s, rs)) :
    ∃ s', step cfg s (.comparator .char none) = .ok (s', .object s.comparators.length) ∧
      step cfg s' (.compare s.comparators.length) = .error .undefined := by
  obtain ⟨wf, -, -⟩ := run_spec (wf_init cfg) h
  set fs := standard s.facets.length (s.facets.length + 1) with hfs
  have ha : argument cfg s none = (add s fs [c, w], some (s.locales.length, true)) := by
    unfold argument defaultLocale
    simp only [hnm, hn, if_true]
    rfl
  have hu : useFacet (add s fs [c, w]) s.locales.length .char = .ok (some s.facets.length) := by
    rw [useFacet_eq, facetsOf_ok.2 (add_last s fs [c, w])]; rfl
  refine ⟨destroy { add s fs [c, w] with comparators := s.comparators ++ [s.facets.length] } s.locales.length, ?_, ?_⟩
  · simp only [step, ha, hu, ok_bind]
    rfl
  · have hc : (destroy { add s fs [c, w] with comparators := s.comparators ++ [s.facets.length] }
        s.locales.length).comparators[s.comparators.length]? = some s.facets.length := by
      simp [destroy]
    simp only [step, hc]
    rw [dead wf fs [c, w] s.facets.length (Nat.le_refl _) _ rfl]
    rfl

/-! ## C105: functions -/

/-- C105 (partial: for strings of `char` and `wchar_t`). With a locale made by name that still exists the functions
compute with its facets, whatever the program did before and has done since. -/
theorem C105_locale_partial {cfg : Config α} {ops ops' : List (Op α)} {s s₁ s₂ : State α} {rs rs' : List (Ret α)}
    (h : run cfg {} ops = .ok (s, rs)) (c w : Str.Ctype α) (l : Nat)
    (hc : step cfg s (.construct c w) = .ok (s₁, .object l)) (hr : run cfg s₁ ops' = .ok (s₂, rs'))
    (hl : ∀ op ∈ ops', op ≠ .destroy l ∧ ∀ m, op ≠ .assign l m) :
    step cfg s₂ (.call .char (some l)) = .ok (s₂, .used c) ∧
      step cfg s₂ (.call .wchar (some l)) = .ok (s₂, .used w) := by
  obtain ⟨wf, -, -⟩ := run_spec (wf_init cfg) h
  have w1 := (step_spec wf hc).1
  simp only [step, construct_eq] at hc
  cases hc
  obtain ⟨w2, k, -⟩ := run_spec w1 hr
  have hl2 := k.locales s.locales.length _ (by
    rintro ⟨op, ho, ht⟩
    obtain ⟨a, b⟩ := hl op ho
    cases op <;> simp only [touches] at ht
    · subst ht; exact b _ rfl
    · subst ht; exact a rfl) (add_last s _ [c, w])
  have hf0 := k.facets _ _ (add_facets s (standard s.facets.length (s.facets.length + 1)) [c, w] 0)
  have hf1 := k.facets _ _ (add_facets s (standard s.facets.length (s.facets.length + 1)) [c, w] 1)
  obtain ⟨ct, h1, h2⟩ := (call_some w2 hl2 .char).1 s.facets.length rfl
  obtain ⟨ct', h3, h4⟩ := (call_some w2 hl2 .wchar).1 (s.facets.length + 1) rfl
  rw [show s.facets.length = s.facets.length + 0 from rfl, hf0] at h1
  rw [hf1] at h3
  cases h1
  cases h3
  exact ⟨h2, h4⟩

/-- C105 (partial: for strings of `char` and `wchar_t`, and if the default locale is installed). Without a locale the
functions compute with the facets of the default locale, at any point of any program, however the library is
compiled. -/
theorem C105_default_partial {cfg : Config α} {c w : Str.Ctype α} (hnm : cfg.named = some (c, w))
    {ops : List (Op α)} {s : State α} {rs : List (Ret α)} (h : run cfg {} ops = .ok (s, rs)) :
    (∃ s', step cfg s (.call .char none) = .ok (s', .used c)) ∧
      ∃ s', step cfg s (.call .wchar none) = .ok (s', .used w) := by
  obtain ⟨wf, -, -⟩ := run_spec (wf_init cfg) h
  obtain ⟨-, -, -, htemp, hnone, -⟩ := argument_spec cfg wf none
  generalize hA : argument cfg s none = A at *
  obtain ⟨s1, _ | arg⟩ := A
  · have := (hnone rfl).1 rfl; rw [hnm] at this; cases this
  · obtain ⟨c', w', a, b, h1, h2, h3, h4⟩ := (htemp arg.1 arg.2 rfl).2 rfl
    rw [hnm] at h1
    cases h1
    have hu : ∀ e, useFacet s1 arg.1 e = .ok (standard a b e) := by
      intro e; rw [useFacet_eq, facetsOf_ok.2 h2]; rfl
    constructor
    · refine ⟨release s1 arg, ?_⟩
      simp only [step, hA, hu, standard, ok_bind, through_of h2 (show standard a b .char = some a from rfl) h3]
      rfl
    · refine ⟨release s1 arg, ?_⟩
      simp only [step, hA, hu, standard, ok_bind, through_of h2 (show standard a b .wchar = some b from rfl) h4]
      rfl

/-- C105 fails for strings of the other character types: without a locale every call throws, whether or not the default
locale is installed, and so does every call with a locale made by name. -/
theorem C105_fails {cfg : Config α} {ops : List (Op α)} {s : State α} {rs : List (Ret α)}
    (h : run cfg {} ops = .ok (s, rs)) (e : Elem) (he : e = .char8 ∨ e = .char16 ∨ e = .char32) (c w : Str.Ctype α) :
    (∃ s', step cfg s (.call e none) = .ok (s', .threw)) ∧
      ∃ s', run cfg s [.construct c w, .call e (some s.locales.length)] =
        .ok (s', [.object s.locales.length, .threw]) := by
  obtain ⟨wf, -, -⟩ := run_spec (wf_init cfg) h
  have hstd : ∀ a b, standard a b e = none := by
    intro a b; rcases he with rfl | rfl | rfl <;> rfl
  constructor
  · obtain ⟨-, -, -, htemp, -, -⟩ := argument_spec cfg wf none
    generalize hA : argument cfg s none = A at *
    obtain ⟨s1, _ | arg⟩ := A
    · exact ⟨s1, by simp only [step, hA]⟩
    · obtain ⟨c', w', a, b, h1, h2, h3, h4⟩ := (htemp arg.1 arg.2 rfl).2 rfl
      have hu : useFacet s1 arg.1 e = .ok none := by
        rw [useFacet_eq, facetsOf_ok.2 h2]
        show Except.ok (standard a b e) = _
        rw [hstd]
      refine ⟨release s1 arg, ?_⟩
      simp only [step, hA, hu, ok_bind]
      rfl
  · have h1 : step cfg s (.construct c w) =
        .ok (add s (standard s.facets.length (s.facets.length + 1)) [c, w], .object s.locales.length) := rfl
    have w1 := (step_spec wf h1).1
    have h2 := (call_some w1 (add_last s _ [c, w]) e).2 (hstd _ _)
    refine ⟨add s (standard s.facets.length (s.facets.length + 1)) [c, w], ?_⟩
    simp only [run, h1, h2, ok_bind]
    rfl

/-- C105 fails if the default locale is not installed: without a locale every call and the constructor of every
comparator throws. -/
theorem C105_fails_not_installed {cfg : Config α} (hnm : cfg.named = none) (s : State α) (e : Elem) :
    step cfg s (.call e none) = .ok (s, .threw) ∧ step cfg s (.comparator e none) = .ok (s, .threw) := by
  simp [step, argument, defaultLocale, hnm]

/-- C105. A locale to which a facet for another character type has been added can be used for strings of that type; for
the others it is as before. -/
theorem C105_install {cfg : Config α} {ops : List (Op α)} {s : State α} {rs : List (Ret α)}
    (h : run cfg {} ops = .ok (s, rs)) (l n : Nat) (e : Elem) (ct : Str.Ctype α) {s' : State α}
    (hi : step cfg s (.install l e ct) = .ok (s', .object n)) :
    step cfg s' (.call e (some n)) = .ok (s', .used ct) ∧
      ∀ x r, x ≠ e → step cfg s (.call x (some l)) = .ok (s, r) → step cfg s' (.call x (some n)) = .ok (s', r) := by
  obtain ⟨wf, -, -⟩ := run_spec (wf_init cfg) h
  have w1 := (step_spec wf hi).1
  obtain ⟨fs, h1, h2⟩ := bind_ok hi
  rw [facetsOf_ok] at h1
  cases h2
  have hlast := add_last s (withFacet fs e s.facets.length) [ct]
  have hf := add_facets s (withFacet fs e s.facets.length) [ct] 0
  constructor
  · obtain ⟨ct', h3, h4⟩ := (call_some w1 hlast e).1 s.facets.length (by simp [withFacet])
    have hf' : (add s (withFacet fs e s.facets.length) [ct]).facets[s.facets.length]? = some ct := by simpa using hf
    have : ct' = ct := Option.some.inj (h3.symm.trans hf')
    subst this; exact h4
  · intro x r hx hr
    have hw : withFacet fs e s.facets.length x = fs x := by simp [withFacet, hx]
    cases hfx : fs x with
    | none =>
      have a := (call_some wf h1 x).2 hfx
      rw [a] at hr
      cases hr
      exact (call_some w1 hlast x).2 (hw.trans hfx)
    | some f =>
      obtain ⟨ct1, b1, a1⟩ := (call_some wf h1 x).1 f hfx
      obtain ⟨ct2, b2, a2⟩ := (call_some w1 hlast x).1 f (hw.trans hfx)
      rw [a1] at hr
      cases hr
      have hb : (add s (withFacet fs e s.facets.length) [ct]).facets[f]? = some ct1 := get_append b1
      have : ct2 = ct1 := Option.some.inj (b2.symm.trans hb)
      subst this; exact a2

/-- A call depends on the facets of the locale only. -/
private theorem call_facets {cfg : Config α} {s s' : State α} (w : Wf cfg s) (w' : Wf cfg s') {l l' : Nat}
    {fs : Elem → Option Nat} (hl : s.locales[l]? = some (some fs)) (hl' : s'.locales[l']? = some (some fs))
    (hf : s'.facets = s.facets) (e : Elem) :
    ∃ r, step cfg s (.call e (some l)) = .ok (s, r) ∧ step cfg s' (.call e (some l')) = .ok (s', r) := by
  cases hfe : fs e with
  | none => exact ⟨.threw, (call_some w hl e).2 hfe, (call_some w' hl' e).2 hfe⟩
  | some f =>
    obtain ⟨ct, b1, a1⟩ := (call_some w hl e).1 f hfe
    obtain ⟨ct', b2, a2⟩ := (call_some w' hl' e).1 f hfe
    rw [hf] at b2
    have : ct' = ct := Option.some.inj (b2.symm.trans b1)
    subst this
    exact ⟨_, a1, a2⟩

/-- C105. A copy of a locale can be used for what the locale itself could be used for, and so can a locale to which it
has been assigned. -/
theorem C105_copy {cfg : Config α} {ops : List (Op α)} {s : State α} {rs : List (Ret α)}
    (h : run cfg {} ops = .ok (s, rs)) (l m n : Nat) {s' : State α}
    (hc : step cfg s (.copy m) = .ok (s', .object n) ∨ step cfg s (.assign l m) = .ok (s', .object n)) (e : Elem) :
    ∃ r, step cfg s (.call e (some m)) = .ok (s, r) ∧ step cfg s' (.call e (some n)) = .ok (s', r) := by
  obtain ⟨wf, -, -⟩ := run_spec (wf_init cfg) h
  rcases hc with hc | hc
  · have w1 := (step_spec wf hc).1
    obtain ⟨fs, h1, h2⟩ := bind_ok hc
    rw [facetsOf_ok] at h1
    cases h2
    exact call_facets wf w1 h1 (by simp) rfl e
  · have w1 := (step_spec wf hc).1
    obtain ⟨gs, h0, hc⟩ := bind_ok hc
    obtain ⟨fs, h1, h2⟩ := bind_ok hc
    rw [facetsOf_ok] at h0 h1
    split at h2
    · cases h2
    · cases h2
      refine call_facets wf w1 h1 ?_ rfl e
      have := get_some_lt h0
      simp [this]

/-! Examples -/

/-- Two classifications to tell apart. -/
private def ascii : Str.Ctype Char := ⟨(· == ' '), Char.isUpper, Char.isLower, Char.toUpper, Char.toLower⟩
private def none' : Str.Ctype Char := ⟨fun _ => false, fun _ => false, fun _ => false, id, id⟩

/-- A program with a comparator of a locale, of which a copy is destroyed, and one of the default locale. -/
example : ∃ s rs, run ⟨false, some (ascii, ascii)⟩ {}
    [.construct none' ascii, .comparator .char (some 0), .copy 0, .destroy 1, .comparator .wchar none, .compare 0,
      .compare 1] = .ok (s, rs) ∧ rs = [.object 0, .object 0, .object 1, .object 1, .object 1, .used none',
        .used ascii] := ⟨_, _, rfl, rfl⟩

/-- The copy keeps the facet alive: the original may go. -/
example : ∃ s rs, run ⟨false, some (ascii, ascii)⟩ {}
    [.construct none' ascii, .comparator .char (some 0), .copy 0, .destroy 0, .compare 0] = .ok (s, rs) ∧
      rs = [.object 0, .object 0, .object 1, .object 0, .used none'] := ⟨_, _, rfl, rfl⟩

end Pluto.Props
