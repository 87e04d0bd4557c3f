import Verif.Model.Locale

/-!
# Lemmas about locales, facets and comparators
-/

namespace Pluto.Locale

variable {α : Type}

theorem ok_bind {β γ : Type} (a : β) (f : β → Res γ) : ((Except.ok a : Res β) >>= f) = f a := rfl
theorem error_bind {β γ : Type} (e : Err) (f : β → Res γ) : ((Except.error e : Res β) >>= f) = .error e := rfl

theorem alive_of {s : State α} {l f : Nat} {fs : Elem → Option Nat} {e : Elem}
    (hl : s.locales[l]? = some (some fs)) (hf : fs e = some f) : s.alive f = true := by
  unfold State.alive
  rw [List.any_eq_true]
  refine ⟨some fs, List.mem_of_getElem? hl, ?_⟩
  simp only [List.any_eq_true]
  exact ⟨e, by cases e <;> simp, by simp [hf]⟩

theorem alive_iff {s : State α} {f : Nat} : s.alive f = true ↔
    ∃ (l : Nat) (fs : Elem → Option Nat) (e : Elem), s.locales[l]? = some (some fs) ∧ fs e = some f := by
  constructor
  · intro h
    unfold State.alive at h
    rw [List.any_eq_true] at h
    obtain ⟨x, hx, h⟩ := h
    obtain ⟨l, hl⟩ := List.getElem?_of_mem hx
    cases x with
    | none => simp at h
    | some fs =>
      simp only [List.any_eq_true] at h
      obtain ⟨e, _, h⟩ := h
      exact ⟨l, fs, e, hl, by simpa using h⟩
  · rintro ⟨l, fs, e, hl, hf⟩
    exact alive_of hl hf

theorem through_of {s : State α} {l f : Nat} {fs : Elem → Option Nat} {e : Elem} {ct : Str.Ctype α}
    (hl : s.locales[l]? = some (some fs)) (hf : fs e = some f) (hct : s.facets[f]? = some ct) :
    through s f = .ok ct := by
  unfold through
  rw [if_pos (alive_of hl hf), hct]

/-- The facets of locales exist, and the static locale is the one with the default name. -/
structure Wf (cfg : Config α) (s : State α) : Prop where
  bound : ∀ (l : Nat) (fs : Elem → Option Nat) (e : Elem) (f : Nat),
    s.locales[l]? = some (some fs) → fs e = some f → f < s.facets.length
  dflt : ∀ i, s.dflt = some i → cfg.noStatic = false ∧ ∃ c w a b, cfg.named = some (c, w) ∧
    s.locales[i]? = some (some (standard a b)) ∧ s.facets[a]? = some c ∧ s.facets[b]? = some w

/-- Facets and comparators stay as they are, and so do the locales except for `l`. -/
structure Keeps (except : Nat → Prop) (s s' : State α) : Prop where
  locales : ∀ (l : Nat) (fs : Elem → Option Nat), ¬ except l → s.locales[l]? = some (some fs) →
    s'.locales[l]? = some (some fs)
  length : s.locales.length ≤ s'.locales.length
  facets : ∀ (f : Nat) (ct : Str.Ctype α), s.facets[f]? = some ct → s'.facets[f]? = some ct
  comparators : ∀ (c f : Nat), s.comparators[c]? = some f → s'.comparators[c]? = some f

theorem Keeps.refl (P : Nat → Prop) (s : State α) : Keeps P s s :=
  ⟨fun _ _ _ h => h, Nat.le_refl _, fun _ _ h => h, fun _ _ h => h⟩

theorem Keeps.trans {P : Nat → Prop} {s t u : State α} (h1 : Keeps P s t) (h2 : Keeps P t u) : Keeps P s u :=
  ⟨fun l fs hl h => h2.locales l fs hl (h1.locales l fs hl h), Nat.le_trans h1.length h2.length,
    fun f ct h => h2.facets f ct (h1.facets f ct h), fun c f h => h2.comparators c f (h1.comparators c f h)⟩

theorem Keeps.mono {P Q : Nat → Prop} {s t : State α} (h : Keeps P s t) (hPQ : ∀ l, P l → Q l) : Keeps Q s t :=
  ⟨fun l fs hl => h.locales l fs fun hp => hl (hPQ l hp), h.length, h.facets, h.comparators⟩

theorem get_append {β : Type} {xs ys : List β} {i : Nat} {x : β} (h : xs[i]? = some x) : (xs ++ ys)[i]? = some x := by
  have : i < xs.length := (List.getElem?_eq_some_iff.1 h).1
  rw [List.getElem?_append_left this, h]

theorem get_some_lt {β : Type} {xs : List β} {i : Nat} {x : β} (h : xs[i]? = some x) : i < xs.length :=
  (List.getElem?_eq_some_iff.1 h).1

/-- Adding a locale and facets. -/
def add (s : State α) (fs : Elem → Option Nat) (cts : List (Str.Ctype α)) : State α :=
  { s with locales := s.locales ++ [some fs], facets := s.facets ++ cts }

theorem keeps_add (P : Nat → Prop) (s : State α) (fs : Elem → Option Nat) (cts : List (Str.Ctype α)) :
    Keeps P s (add s fs cts) :=
  ⟨fun _ _ _ h => get_append h, by simp [add], fun _ _ h => get_append h, fun _ _ h => h⟩

theorem wf_add {cfg : Config α} {s : State α} (h : Wf cfg s) (fs : Elem → Option Nat) (cts : List (Str.Ctype α))
    (hfs : ∀ e f, fs e = some f → f < s.facets.length + cts.length) : Wf cfg (add s fs cts) := by
  refine ⟨?_, ?_⟩
  · intro l gs e f hl hf
    simp only [add, List.length_append] at hl ⊢
    by_cases hlt : l < s.locales.length
    · rw [List.getElem?_append_left hlt] at hl
      have := h.bound l gs e f hl hf
      omega
    · rw [List.getElem?_append_right (by omega)] at hl
      have hl0 : l - s.locales.length = 0 := by
        have := get_some_lt hl
        simp at this; omega
      rw [hl0] at hl
      simp at hl
      subst hl
      exact hfs e f hf
  · intro i hi
    obtain ⟨h1, c, w, a, b, h2, h3, h4, h5⟩ := h.dflt i hi
    exact ⟨h1, c, w, a, b, h2, get_append h3, get_append h4, get_append h5⟩

theorem construct_eq (s : State α) (c w : Str.Ctype α) :
    construct s c w = (add s (standard s.facets.length (s.facets.length + 1)) [c, w], s.locales.length) := rfl

theorem standard_lt (n : Nat) (e : Elem) (f : Nat) (h : standard n (n + 1) e = some f) : f < n + 2 := by
  cases e <;> simp [standard] at h <;> omega

theorem wf_construct {cfg : Config α} {s : State α} (h : Wf cfg s) (c w : Str.Ctype α) :
    Wf cfg (construct s c w).1 := by
  rw [construct_eq]
  exact wf_add h _ _ (standard_lt _)

theorem add_last (s : State α) (fs : Elem → Option Nat) (cts : List (Str.Ctype α)) :
    (add s fs cts).locales[s.locales.length]? = some (some fs) := by simp [add]

theorem add_facets (s : State α) (fs : Elem → Option Nat) (cts : List (Str.Ctype α)) (i : Nat) :
    (add s fs cts).facets[s.facets.length + i]? = cts[i]? := by
  simp only [add]
  rw [List.getElem?_append_right (by omega)]
  congr 1; omega

/-- The argument of a call. -/
theorem argument_spec (cfg : Config α) {s : State α} (h : Wf cfg s) (l : Option Nat) :
    Keeps (fun _ => False) s (argument cfg s l).1 ∧ Wf cfg (argument cfg s l).1 ∧
    (argument cfg s l).1.comparators = s.comparators ∧
    (∀ i t, (argument cfg s l).2 = some (i, t) →
      (t = true → s.locales.length ≤ i ∧ (argument cfg s l).1.dflt = s.dflt ∧
        (argument cfg s l).1.dflt ≠ some i) ∧
      (l = none → ∃ c w a b, cfg.named = some (c, w) ∧ (argument cfg s l).1.locales[i]? = some (some (standard a b)) ∧
        (argument cfg s l).1.facets[a]? = some c ∧ (argument cfg s l).1.facets[b]? = some w)) ∧
    (l = none → ((argument cfg s l).2 = none ↔ cfg.named = none)) ∧
    (l = none → cfg.noStatic = false → ∀ i t, (argument cfg s l).2 = some (i, t) →
      t = false ∧ (argument cfg s l).1.dflt = some i) := by
  cases l with
  | some l =>
    refine ⟨Keeps.refl _ _, h, rfl, ?_, by simp, by simp⟩
    intro i t heq
    simp [argument] at heq
    refine ⟨fun ht => ?_, by simp⟩
    rw [heq.2] at ht; cases ht
  | none =>
    unfold argument defaultLocale
    cases hn : cfg.named with
    | none => exact ⟨Keeps.refl _ _, h, rfl, by simp, by simp, by simp⟩
    | some cw =>
      obtain ⟨c, w⟩ := cw
      simp only
      have hc : construct s c w =
        (add s (standard s.facets.length (s.facets.length + 1)) [c, w], s.locales.length) := rfl
      have hlast := add_last s (standard s.facets.length (s.facets.length + 1)) [c, w]
      have hf0 := add_facets s (standard s.facets.length (s.facets.length + 1)) [c, w] 0
      have hf1 := add_facets s (standard s.facets.length (s.facets.length + 1)) [c, w] 1
      have hwf := wf_add h _ [c, w] (standard_lt s.facets.length)
      cases hs : cfg.noStatic with
      | true =>
        simp only [if_true, hc]
        refine ⟨keeps_add _ _ _ _, hwf, rfl, ?_, by simp, by simp⟩
        intro i t heq
        simp at heq
        obtain ⟨rfl, rfl⟩ := heq
        refine ⟨fun _ => ⟨Nat.le_refl _, rfl, fun hd => ?_⟩, fun _ => ?_⟩
        · have := (h.dflt _ hd).1
          rw [hs] at this; cases this
        · exact ⟨c, w, _, _, rfl, hlast, hf0, hf1⟩
      | false =>
        simp only [Bool.false_eq_true, if_false]
        cases hd : s.dflt with
        | some i =>
          refine ⟨Keeps.refl _ _, h, rfl, ?_, by simp, ?_⟩
          · intro j t heq
            simp at heq
            obtain ⟨rfl, rfl⟩ := heq
            refine ⟨by simp, fun _ => ?_⟩
            obtain ⟨_, c', w', a, b, h2, h3, h4, h5⟩ := h.dflt i hd
            rw [hn] at h2
            exact ⟨c', w', a, b, h2, h3, h4, h5⟩
          · intro _ _ j t heq
            simp at heq
            obtain ⟨rfl, rfl⟩ := heq
            exact ⟨rfl, hd⟩
        | none =>
          simp only [hc]
          refine ⟨?_, ?_, rfl, ?_, by simp, ?_⟩
          · have := keeps_add (fun _ => False) s (standard s.facets.length (s.facets.length + 1)) [c, w]
            exact ⟨this.locales, this.length, this.facets, this.comparators⟩
          · refine ⟨hwf.bound, ?_⟩
            intro i hi
            simp at hi
            subst hi
            exact ⟨hs, c, w, _, _, hn, hlast, hf0, hf1⟩
          · intro j t heq
            simp at heq
            obtain ⟨rfl, rfl⟩ := heq
            exact ⟨by simp, fun _ => ⟨c, w, _, _, rfl, hlast, hf0, hf1⟩⟩
          · intro _ _ j t heq
            simp at heq
            obtain ⟨rfl, rfl⟩ := heq
            exact ⟨rfl, rfl⟩

theorem keeps_destroy (s : State α) (l : Nat) : Keeps (· = l) s (destroy s l) := by
  refine ⟨fun i fs hi h => ?_, by simp [destroy], fun _ _ h => h, fun _ _ h => h⟩
  simp only [destroy]
  rw [List.getElem?_set_ne (fun h => hi h.symm)]
  exact h

theorem wf_set {cfg : Config α} {s : State α} (h : Wf cfg s) (l : Nat) (x : Option (Elem → Option Nat))
    (hd : s.dflt ≠ some l) (hx : ∀ fs e f, x = some fs → fs e = some f → f < s.facets.length) :
    Wf cfg { s with locales := s.locales.set l x } := by
  refine ⟨?_, ?_⟩
  · intro i fs e f hi hf
    simp only at hi ⊢
    by_cases hil : l = i
    · subst hil
      rw [List.getElem?_set] at hi
      by_cases hlt : l < s.locales.length
      · simp only [if_true, hlt] at hi
        exact hx fs e f (by simpa using hi) hf
      · simp [hlt] at hi
    · rw [List.getElem?_set_ne hil] at hi
      exact h.bound i fs e f hi hf
  · intro i hi
    obtain ⟨h1, c, w, a, b, h2, h3, h4, h5⟩ := h.dflt i hi
    refine ⟨h1, c, w, a, b, h2, ?_, h4, h5⟩
    simp only
    rw [List.getElem?_set_ne (fun hli => hd (by rw [hli]; exact hi))]
    exact h3

theorem wf_release {cfg : Config α} {s : State α} (h : Wf cfg s) (arg : Nat × Bool)
    (hd : arg.2 = true → s.dflt ≠ some arg.1) : Wf cfg (release s arg) := by
  unfold release
  split
  · rename_i ht
    exact wf_set h arg.1 none (hd ht) (by simp)
  · exact h

theorem keeps_release (s t : State α) (arg : Nat × Bool) (P : Nat → Prop) (h : Keeps P s t)
    (ht : arg.2 = true → s.locales.length ≤ arg.1) : Keeps P s (release t arg) := by
  unfold release
  split
  · rename_i hr
    have hd := keeps_destroy t arg.1
    refine ⟨fun i fs hi hs => ?_, Nat.le_trans h.length hd.length, fun f ct hf => hd.facets _ _ (h.facets _ _ hf),
      fun c f hc => hd.comparators _ _ (h.comparators _ _ hc)⟩
    have hlt := get_some_lt hs
    have := ht hr
    exact hd.locales i fs (by omega) (h.locales i fs hi hs)
  · exact h

theorem wf_comparators {cfg : Config α} {s : State α} (h : Wf cfg s) (cs : List Nat) :
    Wf cfg { s with comparators := cs } := ⟨h.bound, h.dflt⟩

/-- The locale that an operation changes, if it is one of the client's. -/
def touches : Op α → Nat → Prop
  | .assign l _, i => i = l
  | .destroy l, i => i = l
  | _, _ => False

theorem facetsOf_ok {s : State α} {l : Nat} {fs : Elem → Option Nat} :
    facetsOf s l = .ok fs ↔ s.locales[l]? = some (some fs) := by
  unfold facetsOf
  split
  · rename_i gs h
    rw [h]
    constructor
    · intro h; cases h; rfl
    · intro h; cases h; rfl
  · rename_i h
    constructor
    · intro h'; cases h'
    · intro h'; exact absurd h' (h fs)

theorem bind_ok {β γ : Type} {x : Res β} {f : β → Res γ} {y : γ} (h : (x >>= f) = .ok y) :
    ∃ a, x = .ok a ∧ f a = .ok y := by
  cases x with
  | error e => cases h
  | ok a => exact ⟨a, rfl, h⟩

theorem useFacet_eq (s : State α) (l : Nat) (e : Elem) : useFacet s l e = (facetsOf s l).map (· e) := by
  unfold useFacet facetsOf
  split <;> rfl

theorem step_spec {cfg : Config α} {s s' : State α} {op : Op α} {r : Ret α} (h : Wf cfg s)
    (hs : step cfg s op = .ok (s', r)) :
    Wf cfg s' ∧ Keeps (touches op) s s' ∧ ∀ i, s.dflt = some i → s'.dflt = some i ∧ ¬ touches op i := by
  cases op with
  | construct c w =>
    simp only [step, Except.ok.injEq, Prod.mk.injEq] at hs
    obtain ⟨rfl, -⟩ := hs
    exact ⟨wf_construct h c w, keeps_add _ _ _ _, fun i hi => ⟨hi, id⟩⟩
  | copy l =>
    obtain ⟨fs, h1, h2⟩ := bind_ok hs
    rw [facetsOf_ok] at h1
    cases h2
    refine ⟨?_, ?_, fun i hi => ⟨hi, id⟩⟩
    · have := wf_add h fs [] (fun e f hf => by simpa using h.bound l fs e f h1 hf)
      simpa [add] using this
    · simpa [add] using keeps_add (touches (.copy l : Op α)) s fs []
  | install l e ct =>
    obtain ⟨fs, h1, h2⟩ := bind_ok hs
    rw [facetsOf_ok] at h1
    cases h2
    refine ⟨?_, keeps_add _ s (withFacet fs e s.facets.length) [ct], fun i hi => ⟨hi, id⟩⟩
    refine wf_add h (withFacet fs e s.facets.length) [ct] ?_
    intro x f hf
    unfold withFacet at hf
    split at hf
    · simp at hf; simp; omega
    · have := h.bound l fs x f h1 hf; simp; omega
  | assign l m =>
    obtain ⟨_, _, h2⟩ := bind_ok hs
    obtain ⟨fs, h3, h4⟩ := bind_ok h2
    rw [facetsOf_ok] at h3
    split at h4
    · cases h4
    · rename_i hd
      cases h4
      refine ⟨wf_set h l (some fs) hd fun gs e f hg hf => ?_, ?_, fun i hi => ⟨hi, ?_⟩⟩
      · cases hg
        exact h.bound m fs e f h3 hf
      · refine ⟨fun i gs hi hg => ?_, by simp, fun _ _ h => h, fun _ _ h => h⟩
        simp only
        rw [List.getElem?_set_ne (fun h => hi h.symm)]
        exact hg
      · rintro rfl
        exact hd hi
  | destroy l =>
    obtain ⟨_, _, h2⟩ := bind_ok hs
    split at h2
    · cases h2
    · rename_i hd
      cases h2
      refine ⟨wf_set h l none hd (by simp), keeps_destroy s l, fun i hi => ⟨hi, ?_⟩⟩
      rintro rfl
      exact hd hi
  | comparator e l =>
    obtain ⟨hk, hw, hcs, htemp, hnone, hstat⟩ := argument_spec cfg h l
    have hdflt : ∀ i, s.dflt = some i → (argument cfg s l).1.dflt = some i := by
      intro i hi
      have hns := (h.dflt i hi).1
      cases l with
      | some l => exact hi
      | none =>
        cases ha : (argument cfg s none).2 with
        | none =>
          unfold argument defaultLocale
          obtain ⟨_, c, w, a, b, h2, _⟩ := h.dflt i hi
          have := (hnone rfl).1 ha
          rw [h2] at this; cases this
        | some a =>
          unfold argument defaultLocale
          obtain ⟨_, c, w, a, b, h2, _⟩ := h.dflt i hi
          simp [h2, hns, hi]
    simp only [step] at hs
    generalize argument cfg s l = p at *
    obtain ⟨s1, arg⟩ := p
    cases arg with
    | none =>
      cases hs
      exact ⟨hw, hk.mono (fun _ h => h.elim), fun i hi => ⟨hdflt i hi, id⟩⟩
    | some arg =>
      obtain ⟨x, hx, h2⟩ := bind_ok hs
      have hrel : ∀ t : State α, t.dflt = s1.dflt → (release t arg).dflt = s1.dflt := by
        intro t ht; unfold release; split <;> exact ht
      cases x with
      | none =>
        cases h2
        refine ⟨wf_release hw arg fun ht => ((htemp arg.1 arg.2 rfl).1 ht).2.2, ?_, fun i hi => ⟨?_, id⟩⟩
        · exact keeps_release s s1 arg _ (hk.mono (fun _ h => h.elim)) fun ht => ((htemp arg.1 arg.2 rfl).1 ht).1
        · rw [hrel s1 rfl]; exact hdflt i hi
      | some f =>
        cases h2
        have hk' : Keeps (touches (.comparator e l : Op α)) s { s1 with comparators := s1.comparators ++ [f] } :=
          (hk.mono (fun _ h => h.elim)).trans ⟨fun _ _ _ h => h, Nat.le_refl _, fun _ _ h => h, fun _ _ h => get_append h⟩
        refine ⟨wf_release (wf_comparators hw _) arg fun ht => ((htemp arg.1 arg.2 rfl).1 ht).2.2, ?_, fun i hi => ⟨?_, id⟩⟩
        · exact keeps_release s _ arg _ hk' fun ht => ((htemp arg.1 arg.2 rfl).1 ht).1
        · rw [hrel { s1 with comparators := s1.comparators ++ [f] } rfl]; exact hdflt i hi
  | copyComparator c =>
    simp only [step] at hs
    split at hs
    · cases hs
      exact ⟨wf_comparators h _, ⟨fun _ _ _ h => h, Nat.le_refl _, fun _ _ h => h, fun _ _ h => get_append h⟩,
        fun i hi => ⟨hi, id⟩⟩
    · cases hs
  | compare c =>
    simp only [step] at hs
    split at hs
    · obtain ⟨ct, _, h2⟩ := bind_ok hs
      cases h2
      exact ⟨h, Keeps.refl _ _, fun i hi => ⟨hi, id⟩⟩
    · cases hs
  | call e l =>
    obtain ⟨hk, hw, hcs, htemp, hnone, hstat⟩ := argument_spec cfg h l
    have hdflt : ∀ i, s.dflt = some i → (argument cfg s l).1.dflt = some i := by
      intro i hi
      have hns := (h.dflt i hi).1
      cases l with
      | some l => exact hi
      | none =>
        unfold argument defaultLocale
        obtain ⟨_, c, w, a, b, h2, _⟩ := h.dflt i hi
        simp [h2, hns, hi]
    simp only [step] at hs
    generalize argument cfg s l = p at *
    obtain ⟨s1, arg⟩ := p
    cases arg with
    | none =>
      cases hs
      exact ⟨hw, hk.mono (fun _ h => h.elim), fun i hi => ⟨hdflt i hi, id⟩⟩
    | some arg =>
      obtain ⟨x, hx, h2⟩ := bind_ok hs
      have hrel : ∀ t : State α, t.dflt = s1.dflt → (release t arg).dflt = s1.dflt := by
        intro t ht; unfold release; split <;> exact ht
      have hfin : Wf cfg (release s1 arg) ∧ Keeps (touches (.call e l : Op α)) s (release s1 arg) ∧
          ∀ i, s.dflt = some i → (release s1 arg).dflt = some i ∧ ¬ touches (.call e l : Op α) i := by
        refine ⟨wf_release hw arg fun ht => ((htemp arg.1 arg.2 rfl).1 ht).2.2, ?_, fun i hi => ⟨?_, id⟩⟩
        · exact keeps_release s s1 arg _ (hk.mono (fun _ h => h.elim)) fun ht => ((htemp arg.1 arg.2 rfl).1 ht).1
        · rw [hrel s1 rfl]; exact hdflt i hi
      cases x with
      | none => cases h2; exact hfin
      | some f =>
        obtain ⟨ct, _, h3⟩ := bind_ok h2
        cases h3
        exact hfin

theorem wf_init (cfg : Config α) : Wf cfg ({} : State α) := ⟨by simp, by simp⟩

theorem run_spec {cfg : Config α} {ops : List (Op α)} {s s' : State α} {rs : List (Ret α)} (h : Wf cfg s)
    (hr : run cfg s ops = .ok (s', rs)) :
    Wf cfg s' ∧ Keeps (fun l => ∃ op ∈ ops, touches op l) s s' ∧
      ∀ i, s.dflt = some i → s'.dflt = some i ∧ ¬ ∃ op ∈ ops, touches op i := by
  induction ops generalizing s rs with
  | nil => cases hr; exact ⟨h, Keeps.refl _ _, fun i hi => ⟨hi, by simp⟩⟩
  | cons op ops ih =>
    obtain ⟨⟨s1, r⟩, h1, h2⟩ := bind_ok hr
    obtain ⟨⟨s2, rs'⟩, h3, h4⟩ := bind_ok h2
    cases h4
    obtain ⟨w1, k1, d1⟩ := step_spec h h1
    obtain ⟨w2, k2, d2⟩ := ih w1 h3
    refine ⟨w2, ?_, ?_⟩
    · exact (k1.mono fun l hl => ⟨op, by simp, hl⟩).trans (k2.mono fun l ⟨o, ho, hl⟩ => ⟨o, by simp [ho], hl⟩)
    · intro i hi
      obtain ⟨a, b⟩ := d1 i hi
      obtain ⟨c, d⟩ := d2 i a
      refine ⟨c, ?_⟩
      rintro ⟨o, ho, ht⟩
      rcases List.mem_cons.1 ho with rfl | ho
      · exact b ht
      · exact d ⟨o, ho, ht⟩

end Pluto.Locale
