import Verif.Spec.LogArgs

/-! # Lemmas about how long the logger uses what it is given -/

namespace Pluto.LogArgs
open LogArgsSpec

/-- What a source says. -/
def resolve (m : Mem) (s : Source) (message : List Char) : Line :=
  ⟨(m s.file).getD [], s.line, (m s.function).getD [], message⟩

/-- The strings of a source are in the part of the memory that is not changed, and exist. -/
def Good (lit : Addr → Prop) (m : Mem) (s : Source) : Prop :=
  lit s.file ∧ lit s.function ∧ (m s.file).isSome ∧ (m s.function).isSome

/-- The logger and what is expected of it. -/
structure Rel (lit : Addr → Prop) (c : State) (i : Expected) : Prop where
  mem : c.mem = i.mem
  streams : i.streams = c.streamers.map fun r => ⟨r.active, r.name, resolve c.mem r.source r.text⟩
  logged : ∀ n, i.logged n = c.out n ++ (c.buffers n).map fun e => resolve c.mem e.source e.message
  goodStreams : ∀ r ∈ c.streamers, Good lit c.mem r.source
  goodEntries : ∀ n, ∀ e ∈ c.buffers n, Good lit c.mem e.source

theorem load_some {m : Mem} {a : Addr} {t : List Char} (h : m a = some t) : load m a = .ok t := by
  unfold load; rw [h]

theorem load_isSome {m : Mem} {a : Addr} (h : (m a).isSome) : load m a = .ok ((m a).getD []) := by
  cases hm : m a with
  | none => rw [hm] at h; cases h
  | some t => exact load_some hm

theorem rel_add {lit : Addr → Prop} {c : State} {i : Expected} (h : Rel lit c i) (name : List Char) (source : Source)
    (message : List Char) (hg : Good lit c.mem source) :
    Rel lit (add c name source message) (log i name (resolve c.mem source message)) := by
  refine ⟨h.mem, h.streams, ?_, h.goodStreams, ?_⟩
  · intro n
    simp only [add, log, set]
    split
    · rename_i hn
      subst hn
      rw [h.logged, List.map_append, ← List.append_assoc]
      rfl
    · exact h.logged n
  · intro n e he
    simp only [add, set] at he
    split at he
    · rename_i hn
      subst hn
      rcases List.mem_append.1 he with he | he
      · exact h.goodEntries _ e he
      · rw [List.mem_singleton.1 he]
        exact hg
    · exact h.goodEntries n e he

theorem rel_step {lit : Addr → Prop} {c : State} {i i' : Expected} {ev : Event} (h : Rel lit c i) (hs : Static lit ev)
    (hi : LogArgsSpec.step i ev = some i') : ∃ c', step c ev = .ok c' ∧ Rel lit c' i' := by
  cases ev with
  | write name message source =>
    simp only [LogArgsSpec.step] at hi
    split at hi
    · rename_i n t f g hn ht hf hg
      rw [← h.mem] at hn ht hf hg
      cases hi
      refine ⟨_, by simp only [step, load_some hn, load_some ht]; rfl, ?_⟩
      have := rel_add h n source t ⟨hs.1, hs.2, by rw [hf]; rfl, by rw [hg]; rfl⟩
      simpa only [resolve, hf, hg, Option.getD_some] using this
    · cases hi
  | stream name source =>
    simp only [LogArgsSpec.step] at hi
    split at hi
    · rename_i n f g hn hf hg
      rw [← h.mem] at hn hf hg
      cases hi
      refine ⟨{ c with streamers := c.streamers ++ [⟨true, n, source, []⟩] }, by simp only [step, load_some hn]; rfl,
        h.mem, ?_, h.logged, ?_, h.goodEntries⟩
      · simp [h.streams, resolve, hf, hg]
      · intro r hr
        rcases List.mem_append.1 hr with hr | hr
        · exact h.goodStreams r hr
        · rw [List.mem_singleton.1 hr]
          exact ⟨hs.1, hs.2, by rw [hf]; rfl, by rw [hg]; rfl⟩
    · cases hi
  | insert k text =>
    simp only [LogArgsSpec.step] at hi
    have hk : i.streams[k]? = (c.streamers[k]?).map fun r => ⟨r.active, r.name, resolve c.mem r.source r.text⟩ := by
      rw [h.streams, List.getElem?_map]
    rw [hk] at hi
    cases hr : c.streamers[k]? with
    | none =>
      rw [hr] at hi
      split at hi
      · rename_i hn; cases hn
      · rename_i t ht _
        cases hi
        rw [← h.mem] at ht
        exact ⟨c, by simp only [step, load_some ht, hr]; rfl, h⟩
      · cases hi
    | some r =>
      rw [hr] at hi
      split at hi
      · rename_i t r' ht hr'
        cases hi
        simp only [Option.map_some, Option.some.injEq] at hr'
        subst hr'
        rw [← h.mem] at ht
        refine ⟨{ c with streamers := c.streamers.set k { r with text := r.text ++ t } },
          by simp only [step, load_some ht, hr]; rfl, h.mem, ?_, h.logged, ?_, h.goodEntries⟩
        · simp only [h.streams, List.map_set]
          rfl
        · intro x hx
          rcases List.mem_or_eq_of_mem_set hx with hx | rfl
          · exact h.goodStreams x hx
          · exact h.goodStreams r (List.mem_of_getElem? hr)
      · rename_i hn; cases hn
      · cases hi
  | finish k =>
    simp only [LogArgsSpec.step] at hi
    have hk : i.streams[k]? = (c.streamers[k]?).map fun r => ⟨r.active, r.name, resolve c.mem r.source r.text⟩ := by
      rw [h.streams, List.getElem?_map]
    rw [hk] at hi
    cases hr : c.streamers[k]? with
    | none =>
      rw [hr] at hi
      cases hi
      exact ⟨c, by simp only [step, hr], h⟩
    | some r =>
      rw [hr] at hi
      simp only [Option.map_some] at hi
      have hg := h.goodStreams r (List.mem_of_getElem? hr)
      split at hi
      · rename_i ha
        cases hi
        refine ⟨_, by simp only [step, hr]; rw [if_pos ha], ?_⟩
        refine rel_add (c := { c with streamers := c.streamers.set k { r with active := false } })
          (i := { i with
            streams := i.streams.set k ⟨false, r.name, resolve c.mem r.source r.text⟩ })
          ⟨h.mem, ?_, h.logged, ?_, h.goodEntries⟩ r.name r.source r.text hg
        · simp only [h.streams, List.map_set]
        · intro x hx
          rcases List.mem_or_eq_of_mem_set hx with hx | rfl
          · exact h.goodStreams x hx
          · exact hg
      · rename_i ha
        cases hi
        exact ⟨c, by simp only [step, hr]; rw [if_neg ha], h⟩
  | put a t =>
    simp only [LogArgsSpec.step, Option.some.injEq] at hi
    subst hi
    have hne : ∀ b, lit b → (if b = a then t else c.mem b) = c.mem b := by
      intro b hb
      rw [if_neg]
      rintro rfl
      exact hs hb
    have hres : ∀ s m, Good lit c.mem s → resolve (fun b => if b = a then t else c.mem b) s m = resolve c.mem s m := by
      intro s m hg
      unfold resolve
      simp only [hne _ hg.1, hne _ hg.2.1]
    have hgood : ∀ s, Good lit c.mem s → Good lit (fun b => if b = a then t else c.mem b) s := by
      intro s hg
      refine ⟨hg.1, hg.2.1, ?_, ?_⟩
      · simp only [hne _ hg.1]; exact hg.2.2.1
      · simp only [hne _ hg.2.1]; exact hg.2.2.2
    refine ⟨{ c with mem := fun b => if b = a then t else c.mem b }, rfl, by simp only [h.mem], ?_, ?_, fun r hr => hgood _ (h.goodStreams r hr),
      fun n e he => hgood _ (h.goodEntries n e he)⟩
    · simp only [h.streams]
      exact List.map_congr_left fun r hr => by rw [hres _ _ (h.goodStreams r hr)]
    · intro n
      simp only [h.logged n]
      exact congrArg _ (List.map_congr_left fun e he => by rw [hres _ _ (h.goodEntries n e he)])
  | output name =>
    cases hi
    cases hb : c.buffers name with
    | nil => exact ⟨c, by simp only [step, hb], h⟩
    | cons e rest =>
      have hg := h.goodEntries name e (by rw [hb]; exact List.mem_cons_self ..)
      refine ⟨{ c with
          buffers := set c.buffers name rest
          out := set c.out name (c.out name ++ [resolve c.mem e.source e.message]) },
        by simp only [step, hb, load_isSome hg.2.2.1, load_isSome hg.2.2.2]; rfl, h.mem, h.streams, ?_,
        h.goodStreams, ?_⟩
      · intro n
        simp only [set]
        split
        · rename_i hn
          subst hn
          rw [h.logged, hb, List.map_cons, List.append_assoc]
          rfl
        · exact h.logged n
      · intro n x hx
        simp only [set] at hx
        split at hx
        · rename_i hn
          subst hn
          exact h.goodEntries _ x (by rw [hb]; exact List.mem_cons_of_mem _ hx)
        · exact h.goodEntries n x hx

theorem rel_run {lit : Addr → Prop} {c : State} {i i' : Expected} {evs : List Event} (h : Rel lit c i)
    (hs : ∀ ev ∈ evs, Static lit ev) (hi : LogArgsSpec.run i evs = some i') : ∃ c', run c evs = .ok c' ∧ Rel lit c' i' := by
  induction evs generalizing c i with
  | nil => cases hi; exact ⟨c, rfl, h⟩
  | cons ev evs ih =>
    simp only [LogArgsSpec.run] at hi
    split at hi
    · rename_i i₁ h₁
      obtain ⟨c₁, e₁, r₁⟩ := rel_step h (hs ev (List.mem_cons_self ..)) h₁
      obtain ⟨c', e', r'⟩ := ih r₁ (fun ev hev => hs ev (List.mem_cons_of_mem _ hev)) hi
      refine ⟨c', ?_, r'⟩
      simp only [run, e₁]
      exact e'
    · cases hi

end Pluto.LogArgs
