import Verif.Spec.LocaleStatic
import Verif.Proofs.Arith

/-!
# Proofs about locales in several threads
-/

namespace Pluto.LocaleStaticProofs
open Pluto.LocaleStatic Pluto.LocaleStaticSpec

theorem run_append {ns : Bool} {cl : V} {s t : State V} {a b : List (Event V)} :
    run ns cl s (a ++ b) = some t ↔ ∃ u, run ns cl s a = some u ∧ run ns cl u b = some t := by
  induction a generalizing s with
  | nil => simp [run]
  | cons e a ih =>
    rw [List.cons_append, run, run]
    split
    · exact ih
    · simp

theorem reachable_run {ns : Bool} {cl : V} {s t : State V} {evs : List (Event V)} (h : Reachable ns cl s)
    (hr : run ns cl s evs = some t) : Reachable ns cl t := by
  obtain ⟨n, env, es, h⟩ := h
  exact ⟨n, env, es ++ evs, run_append.2 ⟨s, h, hr⟩⟩

theorem run_inv {P : State V → Prop} {ns : Bool} {cl : V} (hs : ∀ s e t, P s → step ns cl s e = some t → P t) {s t : State V}
    {evs : List (Event V)} (h : P s) (hr : run ns cl s evs = some t) : P t := by
  induction evs generalizing s with
  | nil => cases hr; exact h
  | cons e evs ih =>
    rw [run] at hr
    split at hr
    · rename_i u hu
      exact ih (hs _ _ _ h hu) hr
    · exact absurd hr (by simp)

/-- The ways a step can go. -/
theorem step_cases {ns : Bool} {cl : V} {s t : State V} {e : Event V} (h : step ns cl s e = some t) :
    (∃ env, e = .change env ∧ t = { s with env := env }) ∨
    (∃ i w, e = .call i w ∧ s.threads[i]? = some .idle ∧ t = { s with threads := s.threads.set i (.called w) }) ∨
    (∃ i w, e = .enter i ∧ s.threads[i]? = some (.called w) ∧ ns = true ∧
      t = { s with threads := s.threads.set i (.constructing w) }) ∨
    (∃ i w, e = .enter i ∧ s.threads[i]? = some (.called w) ∧ ns = false ∧ s.guards w = .fresh ∧
      t = { s with guards := setGuard s.guards w .busy, threads := s.threads.set i (.constructing w) }) ∨
    (∃ i w n, e = .enter i ∧ s.threads[i]? = some (.called w) ∧ ns = false ∧ s.guards w = .ready n ∧
      t = { s with threads := s.threads.set i .idle, log := s.log ++ [(i, w, some n)] }) ∨
    (∃ i w, e = .finish i ∧ s.threads[i]? = some (.constructing w) ∧ named cl s.env w = none ∧
      t = { s with
          guards := if ns then s.guards else setGuard s.guards w .fresh,
          threads := s.threads.set i .idle, log := s.log ++ [(i, w, none)] }) ∨
    ∃ i w v, e = .finish i ∧ s.threads[i]? = some (.constructing w) ∧ named cl s.env w = some v ∧
      t = { s with
          guards := if ns then s.guards else setGuard s.guards w (.ready s.objects.length),
          threads := s.threads.set i .idle, objects := s.objects ++ [v],
          log := s.log ++ [(i, w, some s.objects.length)] } := by
  cases e with
  | change env => cases h; exact .inl ⟨env, rfl, rfl⟩
  | call i w =>
    rw [step] at h
    split at h
    · rename_i hi
      cases h
      exact .inr (.inl ⟨i, w, rfl, hi, rfl⟩)
    · exact absurd h (by simp)
  | enter i =>
    rw [step] at h
    split at h
    · rename_i w hi
      split at h
      · rename_i hns
        cases h
        exact .inr (.inr (.inl ⟨i, w, rfl, hi, hns, rfl⟩))
      · rename_i hns
        have hns : ns = false := by simpa using hns
        split at h
        · rename_i hg
          cases h
          exact .inr (.inr (.inr (.inl ⟨i, w, rfl, hi, hns, hg, rfl⟩)))
        · exact absurd h (by simp)
        · rename_i n hg
          cases h
          exact .inr (.inr (.inr (.inr (.inl ⟨i, w, n, rfl, hi, hns, hg, rfl⟩))))
    · exact absurd h (by simp)
  | finish i =>
    rw [step] at h
    split at h
    · rename_i w hi
      split at h
      · rename_i hn
        cases h
        exact .inr (.inr (.inr (.inr (.inr (.inl ⟨i, w, rfl, hi, hn, rfl⟩)))))
      · rename_i v hn
        cases h
        exact .inr (.inr (.inr (.inr (.inr (.inr ⟨i, w, v, rfl, hi, hn, rfl⟩)))))
    · exact absurd h (by simp)

/-- The local static variables, threads and results fit together. -/
structure Ok (cl : V) (s : State V) : Prop where
  /-- one thread constructs -/
  one : ∀ (i j : Nat) (w : Which), s.threads[i]? = some (.constructing w) → s.threads[j]? = some (.constructing w) → i = j
  /-- while a variable is being initialised -/
  busy : ∀ w, s.guards w = .busy ↔ ∃ i : Nat, s.threads[i]? = some (.constructing w)
  /-- what has been returned is in the variable -/
  log : ∀ i w n, (i, w, some n) ∈ s.log → s.guards w = .ready n
  /-- the variable refers to a locale -/
  ready : ∀ w n, s.guards w = .ready n → n < s.objects.length
  /-- different variables are different objects -/
  inj : ∀ w w' n, s.guards w = .ready n → s.guards w' = .ready n → w = w'
  /-- the classic locale -/
  classic : ∀ n, s.guards .c = .ready n → s.objects[n]? = some cl

theorem ok_init (cl : V) (n : Nat) (env : Env V) : Ok cl (init n env) := by
  have h : ∀ (i : Nat) (x : Status), (init n env).threads[i]? = some x → x = .idle := by
    intro i x hx
    simp only [init, List.getElem?_replicate] at hx
    split at hx
    · cases hx; rfl
    · exact absurd hx (by simp)
  constructor
  · intro i j w hi
    exact absurd (h i _ hi) (by simp)
  · intro w
    constructor
    · intro hb; exact absurd hb (by simp [init])
    · rintro ⟨i, hi⟩; exact absurd (h i _ hi) (by simp)
  all_goals simp [init]

theorem set_get {l : List Status} {i j : Nat} {x y : Status} (h : (l.set i x)[j]? = some y) :
    (i = j ∧ x = y) ∨ (i ≠ j ∧ l[j]? = some y) := by
  rw [List.getElem?_set] at h
  split at h
  · rename_i hij
    split at h
    · cases h; exact .inl ⟨hij, rfl⟩
    · exact absurd h (by simp)
  · rename_i hij
    exact .inr ⟨hij, h⟩

theorem set_get_ne {l : List Status} {i j : Nat} {x y : Status} (h : i ≠ j) (hl : l[j]? = some y) : (l.set i x)[j]? = some y := by
  rw [List.getElem?_set_ne h]
  exact hl

theorem lt_of_get {l : List Status} {i : Nat} {y : Status} (hl : l[i]? = some y) : i < l.length := by
  by_contra hc
  rw [List.getElem?_eq_none (by omega)] at hl
  exact absurd hl (by simp)

theorem set_get_self {l : List Status} {i : Nat} {x y : Status} (hl : l[i]? = some y) : (l.set i x)[i]? = some x := by
  rw [List.getElem?_set_self (lt_of_get hl)]

/-- A change of a thread that does not construct before or after. -/
theorem constr_other {l : List Status} {i : Nat} {x y : Status} (hx : ∀ w, x ≠ .constructing w) (hy : ∀ w, y ≠ .constructing w)
    (hl : l[i]? = some y) (j : Nat) (w : Which) :
    (l.set i x)[j]? = some (.constructing w) ↔ l[j]? = some (.constructing w) := by
  constructor
  · intro h
    rcases set_get h with ⟨_, h⟩ | ⟨_, h⟩
    · exact absurd h (hx w)
    · exact h
  · intro h
    refine set_get_ne ?_ h
    rintro rfl
    rw [hl] at h
    cases h
    exact hy w rfl

theorem ok_step {cl : V} {s t : State V} {e : Event V} (h : Ok cl s) (hs : step false cl s e = some t) : Ok cl t := by
  rcases step_cases hs with ⟨env, rfl, rfl⟩ | ⟨i, w, rfl, hi, rfl⟩ | ⟨i, w, rfl, hi, hn, rfl⟩ | ⟨i, w, rfl, hi, _, hg, rfl⟩ |
    ⟨i, w, n, rfl, hi, _, hg, rfl⟩ | ⟨i, w, rfl, hi, hn, rfl⟩ | ⟨i, w, v, rfl, hi, hn, rfl⟩
  · exact ⟨h.one, h.busy, h.log, h.ready, h.inj, h.classic⟩
  · have hc := constr_other (x := .called w) (by simp) (by simp) hi
    refine ⟨?_, ?_, h.log, h.ready, h.inj, h.classic⟩
    · intro a b v ha hb
      exact h.one a b v ((hc a v).1 ha) ((hc b v).1 hb)
    · intro v
      rw [h.busy v]
      exact ⟨fun ⟨a, ha⟩ => ⟨a, (hc a v).2 ha⟩, fun ⟨a, ha⟩ => ⟨a, (hc a v).1 ha⟩⟩
  · exact absurd hn (by simp)
  · have hno : ∀ j : Nat, s.threads[j]? ≠ some (.constructing w) := by
      intro j hj
      have := (h.busy w).2 ⟨j, hj⟩
      rw [hg] at this
      exact absurd this (by simp)
    refine ⟨?_, ?_, ?_, ?_, ?_, ?_⟩
    · intro a b v ha hb
      rcases set_get ha with ⟨ea, fa⟩ | ⟨_, fa⟩ <;> rcases set_get hb with ⟨eb, fb⟩ | ⟨_, fb⟩
      · omega
      · cases fa; exact absurd fb (hno b)
      · cases fb; exact absurd fa (hno a)
      · exact h.one a b v fa fb
    · intro v
      simp only [setGuard]
      split
      · rename_i hv
        subst hv
        exact ⟨fun _ => ⟨i, set_get_self hi⟩, fun _ => rfl⟩
      · rename_i hv
        rw [h.busy v]
        constructor
        · rintro ⟨a, ha⟩
          refine ⟨a, set_get_ne ?_ ha⟩
          rintro rfl
          rw [hi] at ha
          exact absurd ha (by simp)
        · rintro ⟨a, ha⟩
          rcases set_get ha with ⟨_, fa⟩ | ⟨_, fa⟩
          · cases fa; exact absurd rfl hv
          · exact ⟨a, fa⟩
    · intro j v n hj
      have := h.log j v n hj
      simp only [setGuard]
      split
      · rename_i hv; subst hv; rw [hg] at this; exact absurd this (by simp)
      · exact this
    · intro v n hv
      simp only [setGuard] at hv
      split at hv
      · exact absurd hv (by simp)
      · exact h.ready v n hv
    · intro v v' n hv hv'
      simp only [setGuard] at hv hv'
      split at hv <;> split at hv'
      · simp at hv
      · simp at hv
      · simp at hv'
      · exact h.inj v v' n hv hv'
    · intro n hv
      simp only [setGuard] at hv
      split at hv
      · exact absurd hv (by simp)
      · exact h.classic n hv
  · have hc := constr_other (x := .idle) (by simp) (by simp) hi
    refine ⟨?_, ?_, ?_, h.ready, h.inj, h.classic⟩
    · intro a b v ha hb
      exact h.one a b v ((hc a v).1 ha) ((hc b v).1 hb)
    · intro v
      rw [h.busy v]
      exact ⟨fun ⟨a, ha⟩ => ⟨a, (hc a v).2 ha⟩, fun ⟨a, ha⟩ => ⟨a, (hc a v).1 ha⟩⟩
    · intro j v m hj
      rcases List.mem_append.1 hj with hj | hj
      · exact h.log j v m hj
      · simp only [List.mem_singleton, Prod.mk.injEq, Option.some.injEq] at hj
        obtain ⟨rfl, rfl, rfl⟩ := hj
        exact hg
  all_goals
    have hb : s.guards w = .busy := (h.busy w).2 ⟨i, hi⟩
    have hother : ∀ (j : Nat) v, (s.threads.set i .idle)[j]? = some (.constructing v) ↔
        s.threads[j]? = some (.constructing v) ∧ v ≠ w := by
      intro j v
      constructor
      · intro hj
        rcases set_get hj with ⟨_, hj⟩ | ⟨hne, hj⟩
        · exact absurd hj (by simp)
        · refine ⟨hj, ?_⟩
          rintro rfl
          exact hne (h.one i j v hi hj)
      · rintro ⟨hj, hv⟩
        refine set_get_ne ?_ hj
        rintro rfl
        rw [hi] at hj
        cases hj
        exact hv rfl
  · refine ⟨?_, ?_, ?_, ?_, ?_, ?_⟩
    · intro a b v ha hb
      exact h.one a b v ((hother a v).1 ha).1 ((hother b v).1 hb).1
    · intro v
      simp only [setGuard, Bool.false_eq_true, if_false]
      split
      · rename_i hv
        subst hv
        refine ⟨fun hx => absurd hx (by simp), ?_⟩
        rintro ⟨a, ha⟩
        exact absurd rfl ((hother a v).1 ha).2
      · rename_i hv
        rw [h.busy v]
        exact ⟨fun ⟨a, ha⟩ => ⟨a, (hother a v).2 ⟨ha, hv⟩⟩, fun ⟨a, ha⟩ => ⟨a, ((hother a v).1 ha).1⟩⟩
    · intro j v n hj
      rcases List.mem_append.1 hj with hj | hj
      · have := h.log j v n hj
        simp only [setGuard, Bool.false_eq_true, if_false]
        split
        · rename_i hv; subst hv; rw [hb] at this; exact absurd this (by simp)
        · exact this
      · simp at hj
    · intro v n hv
      simp only [setGuard, Bool.false_eq_true, if_false] at hv
      split at hv
      · exact absurd hv (by simp)
      · exact h.ready v n hv
    · intro v v' n hv hv'
      simp only [setGuard, Bool.false_eq_true, if_false] at hv hv'
      split at hv <;> split at hv'
      · simp at hv
      · simp at hv
      · simp at hv'
      · exact h.inj v v' n hv hv'
    · intro n hv
      simp only [setGuard, Bool.false_eq_true, if_false] at hv
      split at hv
      · exact absurd hv (by simp)
      · exact h.classic n hv
  · refine ⟨?_, ?_, ?_, ?_, ?_, ?_⟩
    · intro a b v ha hb
      exact h.one a b v ((hother a v).1 ha).1 ((hother b v).1 hb).1
    · intro v
      simp only [setGuard, Bool.false_eq_true, if_false]
      split
      · rename_i hv
        subst hv
        refine ⟨fun hx => absurd hx (by simp), ?_⟩
        rintro ⟨a, ha⟩
        exact absurd rfl ((hother a v).1 ha).2
      · rename_i hv
        rw [h.busy v]
        exact ⟨fun ⟨a, ha⟩ => ⟨a, (hother a v).2 ⟨ha, hv⟩⟩, fun ⟨a, ha⟩ => ⟨a, ((hother a v).1 ha).1⟩⟩
    · intro j v' n hj
      rcases List.mem_append.1 hj with hj | hj
      · have := h.log j v' n hj
        simp only [setGuard, Bool.false_eq_true, if_false]
        split
        · rename_i hv; subst hv; rw [hb] at this; exact absurd this (by simp)
        · exact this
      · simp only [List.mem_singleton, Prod.mk.injEq, Option.some.injEq] at hj
        obtain ⟨rfl, rfl, rfl⟩ := hj
        simp [setGuard]
    · intro v' n hv
      simp only [setGuard, Bool.false_eq_true, if_false] at hv
      simp only [List.length_append, List.length_singleton]
      split at hv
      · cases hv; omega
      · have := h.ready v' n hv; omega
    · intro v' v'' n hv hv'
      simp only [setGuard, Bool.false_eq_true, if_false] at hv hv'
      split at hv <;> split at hv'
      · simp_all
      · cases hv; have := h.ready v'' _ hv'; omega
      · cases hv'; have := h.ready v' _ hv; omega
      · exact h.inj v' v'' n hv hv'
    · intro n hv
      simp only [setGuard, Bool.false_eq_true, if_false] at hv
      split at hv
      · rename_i hw
        subst hw
        cases hv
        simp only [named, Option.some.injEq] at hn
        subst hn
        simp
      · have h1 := h.classic n hv
        have h2 := h.ready _ n hv
        rw [List.getElem?_append_left h2]
        exact h1

theorem ok_reachable {cl : V} {s : State V} (h : Reachable false cl s) : Ok cl s := by
  obtain ⟨n, env, evs, hr⟩ := h
  exact run_inv (P := Ok cl) (fun _ _ _ hp hs => ok_step hp hs) (ok_init cl n env) hr

/-- Locales and results stay. -/
theorem step_grows {ns : Bool} {cl : V} {s t : State V} {e : Event V} (hs : step ns cl s e = some t) :
    s.objects <+: t.objects ∧ s.log <+: t.log ∧ s.threads.length = t.threads.length := by
  rcases step_cases hs with ⟨env, rfl, rfl⟩ | ⟨i, w, rfl, hi, rfl⟩ | ⟨i, w, rfl, hi, hn, rfl⟩ | ⟨i, w, rfl, hi, _, hg, rfl⟩ |
    ⟨i, w, n, rfl, hi, _, hg, rfl⟩ | ⟨i, w, rfl, hi, hn, rfl⟩ | ⟨i, w, v, rfl, hi, hn, rfl⟩ <;> simp

theorem run_grows {ns : Bool} {cl : V} {s t : State V} {evs : List (Event V)} (hr : run ns cl s evs = some t) :
    s.objects <+: t.objects ∧ s.log <+: t.log ∧ s.threads.length = t.threads.length :=
  run_inv (P := fun u => s.objects <+: u.objects ∧ s.log <+: u.log ∧ s.threads.length = u.threads.length)
    (fun _ _ _ hp hs => have hg := step_grows hs
      ⟨hp.1.trans hg.1, hp.2.1.trans hg.2.1, hp.2.2.trans hg.2.2⟩) ⟨List.prefix_refl _, List.prefix_refl _, rfl⟩ hr

theorem ready_step {cl : V} {s t : State V} {e : Event V} (hok : Ok cl s) {w : Which} {n : Nat} (hg : s.guards w = .ready n)
    (hs : step false cl s e = some t) : t.guards w = .ready n ∧ ∀ i r, (i, w, r) ∈ returned s t → r = some n := by
  rcases step_cases hs with ⟨env, rfl, rfl⟩ | ⟨i, v, rfl, hi, rfl⟩ | ⟨i, v, rfl, hi, hn, rfl⟩ | ⟨i, v, rfl, hi, _, hg', rfl⟩ |
    ⟨i, v, m, rfl, hi, _, hg', rfl⟩ | ⟨i, v, rfl, hi, hn, rfl⟩ | ⟨i, v, x, rfl, hi, hn, rfl⟩
  · exact ⟨hg, by simp [returned]⟩
  · exact ⟨hg, by simp [returned]⟩
  · exact absurd hn (by simp)
  · have : w ≠ v := by rintro rfl; rw [hg] at hg'; exact absurd hg' (by simp)
    exact ⟨by simp [setGuard, this, hg], by simp [returned]⟩
  · refine ⟨hg, ?_⟩
    intro j r hj
    simp only [returned, List.drop_left, List.mem_singleton, Prod.mk.injEq] at hj
    obtain ⟨rfl, rfl, rfl⟩ := hj
    rw [hg] at hg'
    cases hg'
    rfl
  all_goals
    have : w ≠ v := by rintro rfl; rw [(hok.busy w).2 ⟨i, hi⟩] at hg; exact absurd hg (by simp)
    refine ⟨by simp [setGuard, this, hg], ?_⟩
    intro j r hj
    simp only [returned, List.drop_left, List.mem_singleton, Prod.mk.injEq] at hj
    exact absurd hj.2.1 this

/-- Steps that the calls can still make. -/
def cost : Status → Nat
  | .idle => 0
  | .called _ => 2
  | .constructing _ => 1

def work (s : State V) : Nat := (s.threads.map cost).sum

theorem sum_set {l : List Nat} {i x y : Nat} (h : l[i]? = some y) : (l.set i x).sum + y = l.sum + x := by
  induction l generalizing i with
  | nil => simp at h
  | cons a l ih =>
    cases i with
    | zero =>
      simp only [List.getElem?_cons_zero, Option.some.injEq] at h
      subst h
      simp only [List.set_cons_zero, List.sum_cons]
      omega
    | succ i =>
      simp only [List.getElem?_cons_succ] at h
      have := ih h
      simp only [List.set_cons_succ, List.sum_cons]
      omega

theorem work_set (l : List Status) {i : Nat} {x y : Status} (h : l[i]? = some y) :
    ((l.set i x).map cost).sum + cost y = (l.map cost).sum + cost x := by
  rw [List.map_set]
  exact sum_set (by rw [List.getElem?_map, h]; rfl)

theorem work_step {ns : Bool} {cl : V} {s t : State V} {e : Event V} (he : Inner e = true) (hs : step ns cl s e = some t) :
    work t < work s := by
  rcases step_cases hs with ⟨env, rfl, rfl⟩ | ⟨i, w, rfl, hi, rfl⟩ | ⟨i, w, rfl, hi, hn, rfl⟩ | ⟨i, w, rfl, hi, _, hg, rfl⟩ |
    ⟨i, w, n, rfl, hi, _, hg, rfl⟩ | ⟨i, w, rfl, hi, hn, rfl⟩ | ⟨i, w, v, rfl, hi, hn, rfl⟩
  · simp [Inner] at he
  · simp [Inner] at he
  · have := work_set s.threads (x := .constructing w) hi
    simp only [work, cost] at *; omega
  · have := work_set s.threads (x := .constructing w) hi
    simp only [work, cost] at *; omega
  · have := work_set s.threads (x := .idle) hi
    simp only [work, cost] at *; omega
  · have := work_set s.threads (x := .idle) hi
    simp only [work, cost] at *; omega
  · have := work_set s.threads (x := .idle) hi
    simp only [work, cost] at *; omega

theorem work_run {ns : Bool} {cl : V} {s t : State V} {evs : List (Event V)} (he : ∀ e ∈ evs, Inner e = true)
    (hr : run ns cl s evs = some t) : evs.length + work t ≤ work s := by
  induction evs generalizing s with
  | nil => cases hr; simp
  | cons e evs ih =>
    rw [run] at hr
    split at hr
    · rename_i u hu
      have h1 := work_step (he e (by simp)) hu
      have h2 := ih (fun x hx => he x (by simp [hx])) hr
      simp only [List.length_cons]
      omega
    · exact absurd hr (by simp)

theorem work_le (l : List Status) : (l.map cost).sum ≤ 2 * l.length := by
  induction l with
  | nil => simp
  | cons a l ih => cases a <;> simp [cost] <;> omega

/-- Some call can go on if there is one. -/
theorem progress {ns : Bool} {cl : V} {s : State V} (h : Reachable ns cl s)
    (hrest : ∀ e, Inner e = true → step ns cl s e = none) : ∀ x ∈ s.threads, x = .idle := by
  have hfin : ∀ (i : Nat) w, s.threads[i]? ≠ some (.constructing w) := by
    intro i w hi
    have := hrest (.finish i) rfl
    simp only [step, hi] at this
    split at this <;> exact absurd this (by simp)
  intro x hx
  obtain ⟨i, hi⟩ := List.mem_iff_getElem?.1 hx
  cases x with
  | idle => rfl
  | constructing w => exact absurd hi (hfin i w)
  | called w =>
    have := hrest (.enter i) rfl
    simp only [step, hi] at this
    cases ns with
    | true => exact absurd this (by simp)
    | false =>
      have hok := ok_reachable h
      simp only [Bool.false_eq_true, if_false] at this
      split at this
      · exact absurd this (by simp)
      · rename_i hb
        obtain ⟨j, hj⟩ := (hok.busy w).1 hb
        exact absurd hj (hfin j w)
      · exact absurd this (by simp)

end Pluto.LocaleStaticProofs
