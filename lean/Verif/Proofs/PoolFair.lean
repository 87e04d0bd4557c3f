import Verif.Proofs.PoolStop

/-! # Lemmas about how tasks overtake each other in a thread pool -/

namespace Pluto.Pool

/-- `x` was put into the queue after `s`. -/
def Later (s : State) (x : Entry) : Prop := s.nextSeq ≤ x.seq

instance (s : State) (x : Entry) : Decidable (Later s x) := inferInstanceAs (Decidable (_ ≤ _))

instance (a b : Entry) : Decidable (Before a b) := inferInstanceAs (Decidable (_ ∨ _))

/-- The entries of a list that were in the queue of `s` before `e`. -/
def old (s : State) (e : Entry) (l : List Entry) : List Entry := l.filter fun x => ¬ Later s x ∧ Before x e

/-- What has happened since `s₀`, while `e` is waiting: `d` was started. -/
structure Since (s₀ : State) (e : Entry) (s : State) (d : List Entry) : Prop where
  started : s.started = s₀.started ++ d
  waits : e ∈ s.queue
  ahead : ∀ x ∈ d, Before x e
  later : ∀ x ∈ d ++ s.queue, ¬ Later s₀ x → x ∈ s₀.queue
  count : (old s₀ e (d ++ s.queue)).length = (old s₀ e s₀.queue).length
  seq : s₀.nextSeq ≤ s.nextSeq

theorem filter_insertEntry {p : Entry → Bool} {x : Entry} (h : p x = false) (q : List Entry) :
    (insertEntry x q).filter p = q.filter p := by
  induction q with
  | nil => simp [insertEntry, h]
  | cons y q ih =>
    unfold insertEntry
    split
    · rw [List.filter_cons_of_neg (by simp [h])]
    · by_cases hy : p y
      · rw [List.filter_cons_of_pos hy, List.filter_cons_of_pos hy, ih]
      · rw [List.filter_cons_of_neg hy, List.filter_cons_of_neg hy, ih]

theorem Since.insert {s₀ s s' : State} {e : Entry} {d : List Entry} (h : Since s₀ e s d) (x : Entry)
    (hx : x.seq = s.nextSeq) (hq : s'.queue = insertEntry x s.queue) (hst : s'.started = s.started)
    (hk : s'.nextSeq = s.nextSeq + 1) : Since s₀ e s' d := by
  have hl : Later s₀ x := by unfold Later; rw [hx]; exact h.seq
  refine ⟨by rw [hst, h.started], by rw [hq, mem_insertEntry]; exact .inr h.waits, h.ahead, ?_, ?_, by
    have := h.seq; omega⟩
  · intro y hy hn
    rw [hq, List.mem_append, mem_insertEntry] at hy
    rcases hy with hy | rfl | hy
    · exact h.later y (List.mem_append_left _ hy) hn
    · exact absurd hl hn
    · exact h.later y (List.mem_append_right _ hy) hn
  · have := h.count
    unfold old at this ⊢
    rw [hq, List.filter_append, filter_insertEntry (by simp [hl]), ← List.filter_append]
    exact this

theorem Since.step {s₀ s s' : State} {e : Entry} {d : List Entry} {ev : Event} (ho : Ordered s) (h : Since s₀ e s d)
    (hs : step s ev = some s') : (∃ d', Since s₀ e s' d') ∨ e ∈ s'.started := by
  cases flow_step hs with
  | same hq hs hr hst hc hm hn hk =>
    exact .inl ⟨d, by rw [hst, h.started], by rw [hq]; exact h.waits, h.ahead, by rw [hq]; exact h.later,
      by rw [hq]; exact h.count, by rw [hk]; exact h.seq⟩
  | submit prio fromTask hq hs hr hst hc hm hn hk => exact .inl ⟨d, h.insert _ rfl hq hst hk⟩
  | schedule time prio hq hs hr hst hc hm hn hk =>
    exact .inl ⟨d, by rw [hst, h.started], by rw [hq]; exact h.waits, h.ahead, by rw [hq]; exact h.later,
      by rw [hq]; exact h.count, by rw [hk]; exact h.seq⟩
  | move e' he' hq hs hr hst hc hm hn hk => exact .inl ⟨d, h.insert _ rfl hq hst hk⟩
  | complete t₀ hq hs hr hst hc hm hn hk =>
    exact .inl ⟨d, by rw [hst, h.started], by rw [hq]; exact h.waits, h.ahead, by rw [hq]; exact h.later,
      by rw [hq]; exact h.count, by rw [hk]; exact h.seq⟩
  | start x hq hs hr hst hc hm hn hk hsize hstop =>
    by_cases hx : e = x
    · right
      rw [hst, hx]
      simp
    · left
      have hw := h.waits
      rw [hq] at hw
      have hw : e ∈ s'.queue := (List.mem_cons.1 hw).resolve_left hx
      have hb : Before x e := by
        have := ho.sorted
        rw [hq, List.pairwise_cons] at this
        exact this.1 e hw
      refine ⟨d ++ [x], by rw [hst, h.started, List.append_assoc], hw, ?_, ?_, ?_, by rw [hk]; exact h.seq⟩
      · intro y hy
        rcases List.mem_append.1 hy with hy | hy
        · exact h.ahead y hy
        · rw [List.mem_singleton.1 hy]
          exact hb
      · intro y hy
        refine h.later y ?_
        rw [hq]
        simpa using hy
      · have := h.count
        rw [hq] at this
        simpa using this

theorem Since.init {s : State} {e : Entry} (he : e ∈ s.queue) : Since s e s [] :=
  ⟨by simp, he, by simp, fun _ hx _ => hx, by simp, Nat.le_refl _⟩

theorem not_both {n : Nat} {s : State} (h : Reachable n s) {e : Entry} (h1 : e ∈ s.queue) (h2 : e ∈ s.started) :
    False := by
  have := (conserved h).seqs e.seq
  have a : 0 < (s.queue.map (·.seq)).count e.seq := List.count_pos_iff.2 (List.mem_map_of_mem h1)
  have b : 0 < (s.started.map (·.seq)).count e.seq := List.count_pos_iff.2 (List.mem_map_of_mem h2)
  split at this <;> omega

theorem since {n : Nat} {s₀ s s' : State} {e : Entry} {d : List Entry} {evs : List Event} (hr : Reachable n s)
    (h : Since s₀ e s d) (hs : run s evs = some s') (he : e ∈ s'.queue) : ∃ d', Since s₀ e s' d' := by
  induction evs generalizing s d with
  | nil => simp only [run, Option.some.injEq] at hs; subst hs; exact ⟨d, h⟩
  | cons ev evs ih =>
    simp only [run] at hs
    cases hst : Pool.step s ev with
    | none => rw [hst] at hs; cases hs
    | some s1 =>
      rw [hst] at hs
      have hr1 : Reachable n s1 := .step ev hr hst
      rcases h.step (ordered hr) hst with ⟨d', h'⟩ | h'
      · exact ih hr1 h' hs
      · have hr' := reachable_run hr1 hs
        have : e ∈ s'.started := by
          have mono : ∀ {s s' : State} {evs : List Event}, run s evs = some s' → e ∈ s.started → e ∈ s'.started := by
            intro s s' evs hs he
            induction evs generalizing s with
            | nil => simp only [run, Option.some.injEq] at hs; subst hs; exact he
            | cons ev evs ih =>
              simp only [run] at hs
              cases hst : Pool.step s ev with
              | none => rw [hst] at hs; cases hs
              | some s1 =>
                rw [hst] at hs
                refine ih hs ?_
                cases flow_step hst <;> simp_all
          exact mono hs h'
        exact (not_both hr' he this).elim

end Pluto.Pool
