import Verif.Spec.LogWriters
import Mathlib.Data.List.Perm.Basic

namespace Pluto.LogWriters

/-- The copy a call has returned. -/
def copyOf : User → List Nat
  | .hasGot w => [w]
  | _ => []

theorem returned_cons (a : User) (us : List User) : returned (a :: us) = copyOf a ++ returned us := by
  cases a <;> rfl

theorem returned_append (us vs : List User) : returned (us ++ vs) = returned us ++ returned vs := by
  simp [returned, List.filterMap_append]

theorem returned_set (us : List User) (i : Nat) (a b : User) (h : us[i]? = some a) (x : Nat) :
    (returned (us.set i b)).count x + (copyOf a).count x = (returned us).count x + (copyOf b).count x := by
  induction us generalizing i with
  | nil => simp at h
  | cons c us ih =>
    cases i with
    | zero =>
      simp only [List.getElem?_cons_zero, Option.some.injEq] at h
      subst h
      simp only [List.set_cons_zero, returned_cons, List.count_append]
      omega
    | succ i =>
      simp only [List.getElem?_cons_succ] at h
      have := ih i h
      simp only [List.set_cons_succ, returned_cons, List.count_append]
      omega

/-- The copies that exist are those that somebody has. -/
def Inv (s : State) : Prop := ∀ x, s.live.count x = (holders s).count x

theorem holders_count (s : State) (x : Nat) :
    (holders s).count x = s.writer.toList.count x + (ofThread s.thread).count x + (returned s.users).count x := by
  simp only [holders, List.count_append]

theorem inv_set {s : State} {i : Nat} {a b : User} (hi : s.users[i]? = some a) (hs : Inv s)
    (hab : copyOf a = copyOf b) (l : Bool) : Inv { s with locked := l, users := s.users.set i b } := by
  intro x
  have h1 := hs x
  have h2 := returned_set s.users i a b hi x
  rw [holders_count] at h1 ⊢
  rw [hab] at h2
  dsimp only
  omega

theorem count_single (w x : Nat) : List.count x [w] = if w = x then 1 else 0 := by
  by_cases h : w = x
  · subst h; simp
  · rw [if_neg h, List.count_eq_zero]; simpa using fun e => h e.symm

theorem inv_step {u : Uses} {s s' : State} {ev : Event} (hs : Inv s) (h : step u s ev = .state s') : Inv s' := by
  cases ev with
  | thread =>
    simp only [step] at h
    cases hw : s.writer with
    | none => simp [hw] at h
    | some w =>
      simp only [hw, threadStep] at h
      cases ht : s.thread with
      | idle =>
        simp only [ht] at h
        split at h
        · cases h
        · cases h
          intro x; have := hs x
          simpa [holders, ht, hw, ofThread] using this
      | copying =>
        simp only [ht] at h
        split at h
        · cases h
        · cases h
          intro x
          have h1 := hs x
          rw [holders_count] at h1 ⊢
          simp only [ht, hw, ofThread, List.count_append, List.count_nil] at h1 ⊢
          omega
      | copied v =>
        simp only [ht] at h
        cases h
        intro x; have := hs x
        simpa [holders, ht, hw, ofThread] using this
      | calling v =>
        simp only [ht] at h
        cases h
        intro x
        have h1 := hs x
        rw [holders_count] at h1 ⊢
        simp only [ht, ofThread, List.count_erase, count_single, List.count_nil, beq_iff_eq] at h1 ⊢
        split at h1 <;> simp_all
  | callSet v =>
    simp only [step] at h
    cases hw : s.writer with
    | none => simp [hw] at h
    | some w =>
      simp only [hw] at h; cases h
      intro x; have := hs x
      simpa [holders, returned_append, returned_cons, copyOf, hw, returned] using this
  | callGet =>
    simp only [step] at h
    cases hw : s.writer with
    | none => simp [hw] at h
    | some w =>
      simp only [hw] at h; cases h
      intro x; have := hs x
      simpa [holders, returned_append, returned_cons, copyOf, hw, returned] using this
  | user i =>
    simp only [step] at h
    cases hw : s.writer with
    | none => simp [hw] at h
    | some w =>
      simp only [hw, userStep] at h
      cases hi : s.users[i]? with
      | none => simp [hi] at h
      | some a =>
        cases a with
        | wantsSet v =>
          simp only [hi] at h
          split at h
          · cases h
          · cases h; exact hw ▸ inv_set (b := .setting v) hi hs rfl true
        | setting v =>
          simp only [hi] at h
          split at h
          · cases h
          · cases h
            intro x
            have h1 := hs x
            have h2 := returned_set s.users i _ (.hasSet v) hi x
            rw [holders_count] at h1 ⊢
            simp only [hw, copyOf, List.count_erase, List.count_append, count_single, List.count_nil, beq_iff_eq,
              Option.toList] at h1 h2 ⊢
            split at h1 <;> simp_all <;> omega
        | wantsGet =>
          simp only [hi] at h
          split at h
          · cases h
          · cases h; exact hw ▸ inv_set (b := .getting) hi hs rfl true
        | getting =>
          simp only [hi] at h
          split at h
          · cases h
          · cases h
            intro x
            have h1 := hs x
            have h2 := returned_set s.users i _ (.hasGot w) hi x
            rw [holders_count] at h1 ⊢
            simp only [hw, copyOf, List.count_append, List.count_nil] at h1 h2 ⊢
            omega
        | hasSet v => simp [hi] at h
        | hasGot v => simp [hi] at h
        | gone => simp [hi] at h
        | failed => simp [hi] at h
  | throws i =>
    simp only [step] at h
    cases hi : s.users[i]? with
    | none => simp [hi] at h
    | some a =>
      cases a with
      | setting v => simp only [hi] at h; cases h; exact inv_set (b := .failed) hi hs rfl false
      | getting => simp only [hi] at h; cases h; exact inv_set (b := .failed) hi hs rfl false
      | wantsSet v => simp [hi] at h
      | wantsGet => simp [hi] at h
      | hasSet v => simp [hi] at h
      | hasGot v => simp [hi] at h
      | gone => simp [hi] at h
      | failed => simp [hi] at h
  | drop i =>
    simp only [step] at h
    cases hi : s.users[i]? with
    | none => simp [hi] at h
    | some a =>
      cases a with
      | hasGot v =>
        simp only [hi] at h; cases h
        intro x
        have h1 := hs x
        have h2 := returned_set s.users i _ .gone hi x
        rw [holders_count] at h1 ⊢
        simp only [copyOf, List.count_erase, count_single, List.count_nil, beq_iff_eq] at h1 h2 ⊢
        split at h2
        · simp_all; omega
        · simp_all
      | setting v => simp [hi] at h
      | getting => simp [hi] at h
      | wantsSet v => simp [hi] at h
      | wantsGet => simp [hi] at h
      | hasSet v => simp [hi] at h
      | gone => simp [hi] at h
      | failed => simp [hi] at h
  | destroy =>
    simp only [step] at h
    cases hw : s.writer with
    | none => simp [hw] at h
    | some w =>
      simp only [hw] at h
      split at h
      · cases h
      · split at h
        · cases h
        · cases h
          intro x
          have h1 := hs x
          rw [holders_count] at h1 ⊢
          simp only [hw, List.count_erase, count_single, List.count_nil, beq_iff_eq, Option.toList] at h1 ⊢
          split at h1
          · simp_all; omega
          · simp_all

theorem run_state {u : Uses} (P : State → Prop) (hP : ∀ s s' ev, P s → step u s ev = .state s' → P s') {s s' : State}
    {evs : List Event} (hs : P s) (h : run u s evs = .state s') : P s' := by
  induction evs generalizing s with
  | nil => simp only [run] at h; cases h; exact hs
  | cons ev evs ih =>
    rw [run] at h
    cases hst : step u s ev with
    | blocked => simp [hst] at h
    | undefined => simp [hst] at h
    | state t => simp only [hst] at h; exact ih (hP _ _ _ hs hst) h

theorem inv_reaches {u : Uses} {s : State} (h : Reaches u s) : Inv s := by
  obtain ⟨evs, h⟩ := h
  refine run_state Inv (fun _ _ _ => inv_step) ?_ h
  intro x
  simp [init, holders, ofThread, returned]

theorem mem_live {s : State} (hs : Inv s) {w : Nat} (h : w ∈ holders s) : w ∈ s.live := by
  rw [← List.count_pos_iff] at h ⊢
  rw [hs w]; exact h

theorem writer_live {s : State} (hs : Inv s) {w : Nat} (h : s.writer = some w) : w ∈ s.live :=
  mem_live hs (by simp [holders, h])

/-- What a step adds to the copies, the calls and the users. -/
theorem step_adds {u : Uses} {s s' : State} {ev : Event} (hs : Inv s) (h : step u s ev = .state s') :
    (∀ x ∈ s'.live, x ∈ s.live ∨ .setting x ∈ s.users) ∧
      (s'.called = s.called ∨ ∃ v ∈ s.live, s'.called = s.called ++ [v]) ∧
      ∀ x, pending s'.users x → pending s.users x ∨ ev = .callSet x := by
  have hset : ∀ {i : Nat} {a b : User} {x : Nat}, s.users[i]? = some a → (∀ x, b ≠ .wantsSet x) →
      (∀ x, b = .setting x → a = .wantsSet x) → pending (s.users.set i b) x → pending s.users x := by
    intro i a b x hi hb1 hb2 hp
    rcases hp with hp | hp
    · rcases List.mem_or_eq_of_mem_set hp with hp | hp
      · exact .inl hp
      · exact absurd hp.symm (hb1 x)
    · rcases List.mem_or_eq_of_mem_set hp with hp | hp
      · exact .inr hp
      · exact .inl (hb2 x hp.symm ▸ List.mem_of_getElem? hi)
  cases ev with
  | thread =>
    simp only [step] at h
    cases hw : s.writer with
    | none => simp [hw] at h
    | some w =>
      have hl := writer_live hs hw
      simp only [hw, threadStep] at h
      cases ht : s.thread with
      | idle =>
        simp only [ht] at h
        split at h
        · cases h
        · cases h; exact ⟨fun _ => .inl, .inl rfl, fun _ => .inl⟩
      | copying =>
        simp only [ht] at h
        split at h
        · cases h
        · cases h
          refine ⟨fun x hx => .inl ?_, .inl rfl, fun _ => .inl⟩
          rcases List.mem_append.1 hx with hx | hx
          · exact hx
          · rw [List.mem_singleton.1 hx]; exact hl
      | copied v =>
        simp only [ht] at h
        cases h
        exact ⟨fun _ => .inl, .inr ⟨v, mem_live hs (by simp [holders, ht, ofThread]), rfl⟩, fun _ => .inl⟩
      | calling v =>
        simp only [ht] at h
        cases h
        exact ⟨fun x hx => .inl (List.mem_of_mem_erase hx), .inl rfl, fun _ => .inl⟩
  | callSet v =>
    simp only [step] at h
    cases hw : s.writer with
    | none => simp [hw] at h
    | some w =>
      simp only [hw] at h; cases h
      refine ⟨fun _ => .inl, .inl rfl, fun x hp => ?_⟩
      simp only [pending, List.mem_append, List.mem_singleton] at hp ⊢
      rcases hp with (hp | hp) | (hp | hp)
      · exact .inl (.inl hp)
      · cases hp; exact .inr rfl
      · exact .inl (.inr hp)
      · cases hp
  | callGet =>
    simp only [step] at h
    cases hw : s.writer with
    | none => simp [hw] at h
    | some w =>
      simp only [hw] at h; cases h
      refine ⟨fun _ => .inl, .inl rfl, fun x hp => .inl ?_⟩
      simpa [pending, List.mem_append, List.mem_singleton] using hp
  | user i =>
    simp only [step] at h
    cases hw : s.writer with
    | none => simp [hw] at h
    | some w =>
      have hl := writer_live hs hw
      simp only [hw, userStep] at h
      cases hi : s.users[i]? with
      | none => simp [hi] at h
      | some a =>
        cases a with
        | wantsSet v =>
          simp only [hi] at h
          split at h
          · cases h
          · cases h
            exact ⟨fun _ => .inl, .inl rfl, fun x hp => .inl (hset hi (by simp) (by simp) hp)⟩
        | setting v =>
          simp only [hi] at h
          split at h
          · cases h
          · cases h
            refine ⟨fun x hx => ?_, .inl rfl, fun x hp => .inl (hset hi (by simp) (by simp) hp)⟩
            rcases List.mem_append.1 (List.mem_of_mem_erase hx) with hx | hx
            · exact .inl hx
            · rw [List.mem_singleton.1 hx]; exact .inr (List.mem_of_getElem? hi)
        | wantsGet =>
          simp only [hi] at h
          split at h
          · cases h
          · cases h
            exact ⟨fun _ => .inl, .inl rfl, fun x hp => .inl (hset hi (by simp) (by simp) hp)⟩
        | getting =>
          simp only [hi] at h
          split at h
          · cases h
          · cases h
            refine ⟨fun x hx => .inl ?_, .inl rfl, fun x hp => .inl (hset hi (by simp) (by simp) hp)⟩
            rcases List.mem_append.1 hx with hx | hx
            · exact hx
            · rw [List.mem_singleton.1 hx]; exact hl
        | hasSet v => simp [hi] at h
        | hasGot v => simp [hi] at h
        | gone => simp [hi] at h
        | failed => simp [hi] at h
  | throws i =>
    simp only [step] at h
    cases hi : s.users[i]? with
    | none => simp [hi] at h
    | some a =>
      cases a with
      | setting v =>
        simp only [hi] at h; cases h
        exact ⟨fun _ => .inl, .inl rfl, fun x hp => .inl (hset hi (by simp) (by simp) hp)⟩
      | getting =>
        simp only [hi] at h; cases h
        exact ⟨fun _ => .inl, .inl rfl, fun x hp => .inl (hset hi (by simp) (by simp) hp)⟩
      | wantsSet v => simp [hi] at h
      | wantsGet => simp [hi] at h
      | hasSet v => simp [hi] at h
      | hasGot v => simp [hi] at h
      | gone => simp [hi] at h
      | failed => simp [hi] at h
  | drop i =>
    simp only [step] at h
    cases hi : s.users[i]? with
    | none => simp [hi] at h
    | some a =>
      cases a with
      | hasGot v =>
        simp only [hi] at h; cases h
        exact ⟨fun x hx => .inl (List.mem_of_mem_erase hx), .inl rfl,
          fun x hp => .inl (hset hi (by simp) (by simp) hp)⟩
      | setting v => simp [hi] at h
      | getting => simp [hi] at h
      | wantsSet v => simp [hi] at h
      | wantsGet => simp [hi] at h
      | hasSet v => simp [hi] at h
      | gone => simp [hi] at h
      | failed => simp [hi] at h
  | destroy =>
    simp only [step] at h
    cases hw : s.writer with
    | none => simp [hw] at h
    | some w =>
      simp only [hw] at h
      split at h
      · cases h
      · split at h
        · cases h
        · cases h
          exact ⟨fun x hx => .inl (List.mem_of_mem_erase hx), .inl rfl, fun _ => .inl⟩

/-- A step is undefined only because of a writer that exists or is about to. -/
theorem step_undefined {u : Uses} {s : State} {ev : Event} (hs : Inv s) (h : step u s ev = .undefined) :
    ∃ w, (w ∈ s.live ∨ pending s.users w) ∧ ¬ u.Quiet w := by
  have key : ∀ w, s.writer = some w → (u.copy w = true ∨ u.dtor w = true) →
      ∃ w, (w ∈ s.live ∨ pending s.users w) ∧ ¬ u.Quiet w := by
    intro w hw hu
    refine ⟨w, .inl (writer_live hs hw), fun hq => ?_⟩
    rcases hu with hu | hu
    · rw [hq.1] at hu; cases hu
    · rw [hq.2] at hu; cases hu
  cases ev with
  | thread =>
    simp only [step] at h
    cases hw : s.writer with
    | none => simp [hw] at h
    | some w =>
      simp only [hw, threadStep] at h
      cases ht : s.thread with
      | idle => simp only [ht] at h; split at h <;> cases h
      | copying =>
        simp only [ht] at h
        split at h
        · rename_i hc; exact key w hw (.inl hc)
        · cases h
      | copied v => simp [ht] at h
      | calling v => simp [ht] at h
  | callSet v => simp only [step] at h; split at h <;> cases h
  | callGet => simp only [step] at h; split at h <;> cases h
  | user i =>
    simp only [step] at h
    cases hw : s.writer with
    | none => simp [hw] at h
    | some w =>
      simp only [hw, userStep] at h
      cases hi : s.users[i]? with
      | none => simp [hi] at h
      | some a =>
        cases a with
        | wantsSet v => simp only [hi] at h; split at h <;> cases h
        | setting v =>
          simp only [hi] at h
          split at h
          · rename_i hc
            rcases Bool.or_eq_true_iff.1 hc with hc | hc
            · exact ⟨v, .inr (.inr (List.mem_of_getElem? hi)), fun hq => by rw [hq.1] at hc; cases hc⟩
            · exact key w hw (.inr hc)
          · cases h
        | wantsGet => simp only [hi] at h; split at h <;> cases h
        | getting =>
          simp only [hi] at h
          split at h
          · rename_i hc; exact key w hw (.inl hc)
          · cases h
        | hasSet v => simp [hi] at h
        | hasGot v => simp [hi] at h
        | gone => simp [hi] at h
        | failed => simp [hi] at h
  | throws i => simp only [step] at h; split at h <;> cases h
  | drop i => simp only [step] at h; split at h <;> cases h
  | destroy =>
    simp only [step] at h
    cases hw : s.writer with
    | none => simp [hw] at h
    | some w =>
      simp only [hw] at h
      split at h
      · cases h
      · split at h
        · rename_i hc; exact key w hw (.inr hc)
        · cases h

theorem run_defined {u : Uses} {s : State} {evs : List Event} (hs : Inv s)
    (hq : ∀ w, w ∈ s.live ∨ pending s.users w ∨ .callSet w ∈ evs → u.Quiet w) : run u s evs ≠ .undefined := by
  induction evs generalizing s with
  | nil => simp [run]
  | cons ev evs ih =>
    rw [run]
    cases hst : step u s ev with
    | blocked => simp
    | undefined =>
      obtain ⟨w, hw, hn⟩ := step_undefined hs hst
      exact absurd (hq w (hw.imp_right .inl)) hn
    | state t =>
      obtain ⟨h1, _, h3⟩ := step_adds hs hst
      refine ih (inv_step hs hst) fun w hw => hq w ?_
      rcases hw with hw | hw | hw
      · exact (h1 w hw).imp_right fun h => .inl (.inr h)
      · rcases h3 w hw with h | h
        · exact .inr (.inl h)
        · exact .inr (.inr (h ▸ List.mem_cons_self))
      · exact .inr (.inr (List.mem_cons_of_mem _ hw))

theorem run_gone {u : Uses} {s s' : State} {evs : List Event} {w : Nat} (hs : Inv s) (hr : run u s evs = .state s')
    (hl : w ∉ s.live) (hp : ¬ pending s.users w) (hev : .callSet w ∉ evs) :
    w ∉ s'.live ∧ ∃ cs, s'.called = s.called ++ cs ∧ w ∉ cs := by
  induction evs generalizing s with
  | nil => simp only [run] at hr; cases hr; exact ⟨hl, [], by simp⟩
  | cons ev evs ih =>
    rw [run] at hr
    cases hst : step u s ev with
    | blocked => simp [hst] at hr
    | undefined => simp [hst] at hr
    | state t =>
      simp only [hst] at hr
      obtain ⟨h1, h2, h3⟩ := step_adds hs hst
      have a1 : w ∉ t.live := fun h => (h1 w h).elim hl fun h => hp (.inr h)
      have a2 : ¬ pending t.users w := fun h => (h3 w h).elim hp fun h => hev (h ▸ List.mem_cons_self)
      obtain ⟨b1, cs, b2, b3⟩ := ih (inv_step hs hst) hr a1 a2 fun h => hev (List.mem_cons_of_mem _ h)
      refine ⟨b1, ?_⟩
      rcases h2 with h2 | ⟨v, hv, h2⟩
      · exact ⟨cs, by rw [b2, h2], b3⟩
      · refine ⟨v :: cs, by rw [b2, h2]; simp, ?_⟩
        simp only [List.mem_cons, not_or]
        exact ⟨fun e => hl (e ▸ hv), b3⟩

/-- After the destructor nothing is under way. -/
def Ended (s : State) : Prop := s.writer = none → s.thread = .idle ∧ s.users.any User.busy = false

theorem ended_step {u : Uses} {s s' : State} {ev : Event} (hs : Ended s) (h : step u s ev = .state s') : Ended s' := by
  cases hw : s.writer with
  | none =>
    obtain ⟨ht, hu⟩ := hs hw
    cases ev with
    | thread => simp [step, hw] at h
    | callSet v => simp [step, hw] at h
    | callGet => simp [step, hw] at h
    | user i => simp [step, hw] at h
    | destroy => simp [step, hw] at h
    | throws i =>
      cases hi : s.users[i]? with
      | none => simp [step, hi] at h
      | some a =>
        have ha : a.busy = false := by
          have := List.any_eq_false.1 hu a (List.mem_of_getElem? hi)
          simpa using this
        cases a <;> simp_all [step, User.busy]
    | drop i =>
      cases hi : s.users[i]? with
      | none => simp [step, hi] at h
      | some a =>
        cases a with
        | hasGot v =>
          simp only [step, hi] at h
          cases h
          intro _
          refine ⟨ht, ?_⟩
          rw [List.any_eq_false] at hu ⊢
          intro x hx
          rcases List.mem_or_eq_of_mem_set hx with hx | rfl
          · exact hu x hx
          · decide
        | _ => simp [step, hi] at h
  | some w =>
    intro hn
    cases ev with
    | thread =>
      simp only [step, hw, threadStep] at h
      cases ht : s.thread with
      | idle => simp only [ht] at h; split at h <;> cases h; cases hn
      | copying => simp only [ht] at h; split at h <;> cases h; cases hn
      | copied v => simp only [ht] at h; cases h; cases hn
      | calling v => simp only [ht] at h; cases h; cases hn
    | callSet v => simp only [step, hw] at h; cases h; cases hn
    | callGet => simp only [step, hw] at h; cases h; cases hn
    | user i =>
      simp only [step, hw, userStep] at h
      cases hi : s.users[i]? with
      | none => simp [hi] at h
      | some a =>
        cases a with
        | wantsSet v => simp only [hi] at h; split at h <;> cases h; cases hn
        | setting v => simp only [hi] at h; split at h <;> cases h; cases hn
        | wantsGet => simp only [hi] at h; split at h <;> cases h; cases hn
        | getting => simp only [hi] at h; split at h <;> cases h; cases hn
        | _ => simp [hi] at h
    | throws i =>
      cases hi : s.users[i]? with
      | none => simp [step, hi] at h
      | some a =>
        cases a with
        | setting v => simp only [step, hi] at h; cases h; rw [hw] at hn; cases hn
        | getting => simp only [step, hi] at h; cases h; rw [hw] at hn; cases hn
        | _ => simp [step, hi] at h
    | drop i =>
      cases hi : s.users[i]? with
      | none => simp [step, hi] at h
      | some a =>
        cases a with
        | hasGot v => simp only [step, hi] at h; cases h; rw [hw] at hn; cases hn
        | _ => simp [step, hi] at h
    | destroy =>
      simp only [step, hw] at h
      split at h
      · cases h
      · rename_i hb
        split at h
        · cases h
        · cases h
          push Not at hb
          exact ⟨hb.1, by simpa using hb.2⟩

theorem countP_set' (p : User → Bool) {l : List User} {i : Nat} {a : User} (b : User) (h : l[i]? = some a) :
    (l.set i b).countP p + (p a).toNat = l.countP p + (p b).toNat := by
  induction l generalizing i with
  | nil => simp at h
  | cons x l ih =>
    cases i with
    | zero =>
      simp only [List.getElem?_cons_zero, Option.some.injEq] at h
      subst h
      simp only [List.set_cons_zero, List.countP_cons]
      cases p x <;> cases p b <;> simp
    | succ i =>
      simp only [List.getElem?_cons_succ] at h
      have := ih h
      simp only [List.set_cons_succ, List.countP_cons]
      omega

/-- The mutex is owned by as many threads as are inside. -/
def Excl (s : State) : Prop :=
  (decide (s.thread = .copying)).toNat + s.users.countP Inside = s.locked.toNat

theorem excl_step {u : Uses} {s s' : State} {ev : Event} (hs : Excl s) (h : step u s ev = .state s') : Excl s' := by
  unfold Excl at *
  cases ev with
  | thread =>
    cases hw : s.writer with
    | none => simp [step, hw] at h
    | some w =>
      simp only [step, hw, threadStep] at h
      cases ht : s.thread with
      | idle => simp only [ht] at h; split at h <;> cases h; simp_all
      | copying => simp only [ht] at h; split at h <;> cases h; cases hl : s.locked <;> simp_all
      | copied v => simp only [ht] at h; cases h; simp_all
      | calling v => simp only [ht] at h; cases h; simp_all
  | callSet v =>
    cases hw : s.writer with
    | none => simp [step, hw] at h
    | some w => simp only [step, hw] at h; cases h; simpa [Inside] using hs
  | callGet =>
    cases hw : s.writer with
    | none => simp [step, hw] at h
    | some w => simp only [step, hw] at h; cases h; simpa [Inside] using hs
  | user i =>
    cases hw : s.writer with
    | none => simp [step, hw] at h
    | some w =>
      simp only [step, hw, userStep] at h
      cases hi : s.users[i]? with
      | none => simp [hi] at h
      | some a =>
        have hc := fun b => countP_set' Inside b hi
        cases a with
        | wantsSet v =>
          simp only [hi] at h; split at h <;> cases h
          rename_i hl
          have := hc (.setting v)
          simp only [Bool.not_eq_true] at hl
          simp only [Inside, hl, Bool.toNat_true, Bool.toNat_false] at *
          omega
        | setting v =>
          simp only [hi] at h; split at h <;> cases h
          have := hc (.hasSet v)
          have := Bool.toNat_le s.locked
          simp only [Inside, Bool.toNat_true, Bool.toNat_false] at *
          omega
        | wantsGet =>
          simp only [hi] at h; split at h <;> cases h
          rename_i hl
          have := hc .getting
          simp only [Bool.not_eq_true] at hl
          simp only [Inside, hl, Bool.toNat_true, Bool.toNat_false] at *
          omega
        | getting =>
          simp only [hi] at h; split at h <;> cases h
          have := hc (.hasGot w)
          have := Bool.toNat_le s.locked
          simp only [Inside, Bool.toNat_true, Bool.toNat_false] at *
          omega
        | _ => simp [hi] at h
  | throws i =>
    cases hi : s.users[i]? with
    | none => simp [step, hi] at h
    | some a =>
      have hc := countP_set' Inside .failed hi
      have := Bool.toNat_le s.locked
      cases a with
      | setting v => simp only [step, hi] at h; cases h; simp only [Inside, Bool.toNat_true, Bool.toNat_false] at *; omega
      | getting => simp only [step, hi] at h; cases h; simp only [Inside, Bool.toNat_true, Bool.toNat_false] at *; omega
      | _ => simp [step, hi] at h
  | drop i =>
    cases hi : s.users[i]? with
    | none => simp [step, hi] at h
    | some a =>
      have hc := countP_set' Inside .gone hi
      cases a with
      | hasGot v => simp only [step, hi] at h; cases h; simp only [Inside, Bool.toNat_false] at *; omega
      | _ => simp [step, hi] at h
  | destroy =>
    cases hw : s.writer with
    | none => simp [step, hw] at h
    | some w =>
      simp only [step, hw] at h
      split at h
      · cases h
      · split at h
        · cases h
        · cases h; exact hs

theorem countP_two {p : User → Bool} : ∀ {l : List User} {i j : Nat} {a b : User}, l.countP p ≤ 1 → l[i]? = some a →
    l[j]? = some b → p a → p b → i = j
  | [], i, j, a, b, _, hi, _, _, _ => by simp at hi
  | x :: l, 0, 0, a, b, _, _, _, _, _ => rfl
  | x :: l, 0, j + 1, a, b, h, hi, hj, ha, hb => by
    simp only [List.getElem?_cons_zero, Option.some.injEq] at hi
    subst hi
    have : 0 < l.countP p := List.countP_pos_iff.2 ⟨b, List.mem_of_getElem? (by simpa using hj), hb⟩
    rw [List.countP_cons, if_pos ha] at h; omega
  | x :: l, i + 1, 0, a, b, h, hi, hj, ha, hb => by
    simp only [List.getElem?_cons_zero, Option.some.injEq] at hj
    subst hj
    have : 0 < l.countP p := List.countP_pos_iff.2 ⟨a, List.mem_of_getElem? (by simpa using hi), ha⟩
    rw [List.countP_cons, if_pos hb] at h; omega
  | x :: l, i + 1, j + 1, a, b, h, hi, hj, ha, hb => by
    have := countP_two (l := l) (i := i) (j := j) (by rw [List.countP_cons] at h; omega) (by simpa using hi)
      (by simpa using hj) ha hb
    omega

end Pluto.LogWriters
