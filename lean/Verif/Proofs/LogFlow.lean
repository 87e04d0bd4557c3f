import Verif.Proofs.Log
import Mathlib.Data.List.Nodup

/-! # The logger: calls, accepted and discarded entries -/

namespace Pluto.Log
open Pluto.Spec.Log

theorem reachable_of_by {paths : Nat → Path} {ok : State → Event → Prop} {σ : Settings} {fs : Fs}
    {s : State} (h : ReachableBy paths ok σ fs s) : Reachable paths σ fs s := by
  induction h with
  | init => exact .init
  | step ev _ _ hs ih => exact .step ev ih hs

/-- What becomes of the calls of the interface in a step. -/
inductive Flow (s s' : State) : Prop where
  | same (hc : s'.calls = s.calls) (ha : s'.accepted = s.accepted) (hd : s'.dropped = s.dropped)
      (hn : s'.nextId = s.nextId) (hk : s'.discarded = s.discarded) (hr : s'.resetAt = s.resetAt)
  | reset (hc : s'.calls = s.calls) (ha : s'.accepted = s.accepted) (hd : s'.dropped = s.dropped)
      (hn : s'.nextId = s.nextId) (hk : s'.discarded = 0) (hr : s'.resetAt = s.dropped.length)
  | call (tid name : Nat) (time level : Int) (message : List Char)
      (hfree : tid ∉ s.calls.map (·.entry.tid))
      (hlog : shouldLog s.isLogging s.settings.level level = true)
      (hc : s'.calls = s.calls ++ [⟨name, ⟨time, tid, level, message, s.nextId⟩⟩])
      (ha : s'.accepted = s.accepted) (hd : s'.dropped = s.dropped)
      (hn : s'.nextId = s.nextId + 1) (hk : s'.discarded = s.discarded) (hr : s'.resetAt = s.resetAt)
  | accept (i : Nat) (r : Request) (hi : s.calls[i]? = some r) (hc : s'.calls = s.calls.eraseIdx i)
      (ha : s'.accepted = s.accepted ++ [(r.name, r.entry)]) (hd : s'.dropped = s.dropped)
      (hn : s'.nextId = s.nextId) (hk : s'.discarded = s.discarded) (hr : s'.resetAt = s.resetAt)
  | drop (i : Nat) (r : Request) (hi : s.calls[i]? = some r) (hc : s'.calls = s.calls.eraseIdx i)
      (ha : s'.accepted = s.accepted) (hd : s'.dropped = s.dropped ++ [(r.name, r.entry)])
      (hn : s'.nextId = s.nextId) (hk : s'.discarded = s.discarded + 1) (hr : s'.resetAt = s.resetAt)

/-- The fields that `flushFile` does not change. -/
theorem flushFile_same (paths : Nat → Path) (s : State) (io : Io) (ios : List Io) (name : Nat) (f : LogFile) :
    (flushFile paths s io ios name f).calls = s.calls ∧
    (flushFile paths s io ios name f).accepted = s.accepted ∧
    (flushFile paths s io ios name f).dropped = s.dropped ∧
    (flushFile paths s io ios name f).nextId = s.nextId ∧
    (flushFile paths s io ios name f).discarded = s.discarded ∧
    (flushFile paths s io ios name f).resetAt = s.resetAt ∧
    (flushFile paths s io ios name f).settings = s.settings ∧
    (flushFile paths s io ios name f).isLogging = s.isLogging ∧
    (flushFile paths s io ios name f).thread = s.thread ∧
    (flushFile paths s io ios name f).owner = s.owner ∧
    (flushFile paths s io ios name f).notifying = s.notifying ∧
    (flushFile paths s io ios name f).setters = s.setters := by
  unfold flushFile
  split
  · split
    · split <;> exact ⟨rfl, rfl, rfl, rfl, rfl, rfl, rfl, rfl, rfl, rfl, rfl, rfl⟩
    · exact ⟨rfl, rfl, rfl, rfl, rfl, rfl, rfl, rfl, rfl, rfl, rfl, rfl⟩
  · exact ⟨rfl, rfl, rfl, rfl, rfl, rfl, rfl, rfl, rfl, rfl, rfl, rfl⟩

theorem flow_step {paths : Nat → Path} {s s' : State} {ev : Event} (h : step paths s ev = some s') :
    Flow s s' := by
  obtain ⟨-, h⟩ := step_cases h
  cases h with
  | call tid name time level message hs hc hn ho hl =>
    exact .call tid name time level message hc hl rfl rfl rfl rfl rfl rfl
  | enter i r hi ho =>
    rcases addLog_cases s r with ⟨h, -⟩ | ⟨h, -⟩
    · exact .accept i r hi rfl (by rw [h]) (by rw [h]) (by rw [h]) (by rw [h]) (by rw [h])
    · exact .drop i r hi rfl (by rw [h]) (by rw [h]) (by rw [h]) (by rw [h]) (by rw [h])
  | reset hs => exact .reset rfl rfl rfl rfl rfl rfl
  | flush io ios last name f hs hn =>
    obtain ⟨h1, h2, h3, h4, h5, h6, -⟩ := flushFile_same paths s io ios name f
    exact .same h1 h2 h3 h4 h5 h6
  | _ => exact .same rfl rfl rfl rfl rfl rfl

/-- The settings after an event. -/
def settingsAfter (σ : Settings) : Event → Settings
  | .set x => σ.set x
  | _ => σ

/-- Only setters change the settings. -/
theorem settings_step {paths : Nat → Path} {s s' : State} {ev : Event} (h : step paths s ev = some s') :
    s'.settings = settingsAfter s.settings ev := by
  obtain ⟨-, h⟩ := step_cases h
  cases h with
  | enter i r hi ho => rcases addLog_cases s r with ⟨h, -⟩ | ⟨h, -⟩ <;> rw [h] <;> rfl
  | flush io ios last name f hs hn => exact (flushFile_same paths s io ios name f).2.2.2.2.2.2.1
  | _ => rfl

theorem within_settings {paths : Nat → Path} {okσ : Settings → Prop} {okIo : Io → Prop} {σ : Settings}
    {fs : Fs} {s : State} (hσ : okσ σ) (h : ReachableBy paths (Within okσ okIo) σ fs s) :
    okσ s.settings := by
  induction h with
  | init => exact hσ
  | step ev _ hok hs ih =>
    rw [settings_step hs]
    cases ev with
    | set x => exact hok
    | _ => exact ih

/-! ## The identities of the calls -/

theorem eraseIdx_perm {α : Type} {l : List α} {i : Nat} {a : α} (h : l[i]? = some a) :
    (a :: l.eraseIdx i).Perm l := by
  obtain ⟨hi, rfl⟩ := List.getElem?_eq_some_iff.1 h
  have := List.eraseIdx_eq_take_drop_succ l i
  rw [this]
  have h2 : l = l.take i ++ l[i] :: l.drop (i + 1) := by
    rw [List.getElem_cons_drop hi, List.take_append_drop]
  conv_rhs => rw [h2]
  exact List.perm_middle.symm

/-- The requests change only by a new call. -/
theorem requests_step {paths : Nat → Path} {s s' : State} {ev : Event} (h : step paths s ev = some s') :
    (s'.nextId = s.nextId ∧ (requests s').Perm (requests s)) ∨
    ∃ name e, e.id = s.nextId ∧ s'.nextId = s.nextId + 1 ∧
      (requests s').Perm (requests s ++ [(name, e)]) := by
  unfold requests
  cases flow_step h with
  | same hc ha hd hn hk hr => rw [hc, ha, hd]; exact .inl ⟨hn, List.Perm.refl _⟩
  | reset hc ha hd hn hk hr => rw [hc, ha, hd]; exact .inl ⟨hn, List.Perm.refl _⟩
  | call tid name time level message hfree hlog hc ha hd hn hk hr =>
    refine .inr ⟨name, ⟨time, tid, level, message, s.nextId⟩, rfl, hn, ?_⟩
    rw [hc, ha, hd, List.map_append, ← List.append_assoc]
    exact List.Perm.refl _
  | accept i r hi hc ha hd hn hk hr =>
    refine .inl ⟨hn, ?_⟩
    rw [hc, ha, hd]
    have := (eraseIdx_perm hi).map fun r => (r.name, r.entry)
    rw [List.map_cons] at this
    rw [List.append_assoc, List.append_assoc, List.append_assoc]
    refine List.Perm.append_left _ ?_
    refine List.Perm.trans ?_ (List.Perm.append_left _ this)
    rw [List.singleton_append]
    exact List.perm_middle.symm
  | drop i r hi hc ha hd hn hk hr =>
    refine .inl ⟨hn, ?_⟩
    rw [hc, ha, hd]
    have := (eraseIdx_perm hi).map fun r => (r.name, r.entry)
    rw [List.map_cons] at this
    rw [List.append_assoc, List.append_assoc, List.append_assoc]
    refine List.Perm.append_left _ ?_
    refine List.Perm.append_left _ ?_
    simpa using this

/-- The calls are numbered. -/
theorem requests_ids {paths : Nat → Path} {σ : Settings} {fs : Fs} {s : State}
    (h : Reachable paths σ fs s) : ((requests s).map (·.2.id)).Perm (List.range s.nextId) := by
  induction h with
  | init => exact List.Perm.refl _
  | step ev _ hs ih =>
    rcases requests_step hs with ⟨hn, hp⟩ | ⟨name, e, he, hn, hp⟩
    · rw [hn]; exact (hp.map _).trans ih
    · rw [hn, List.range_succ]
      refine (hp.map _).trans ?_
      rw [List.map_append]
      simp only [List.map_cons, List.map_nil, he]
      exact ih.append_right _

/-- A thread has at most one call in progress, and it is the last of the thread. -/
structure Threads (s : State) : Prop where
  single : (s.calls.map (·.entry.tid)).Nodup
  bound : ∀ x ∈ requests s, x.2.id < s.nextId
  latest : ∀ r ∈ s.calls, ∀ x ∈ s.accepted, x.2.tid = r.entry.tid → x.2.id < r.entry.id
  order : s.accepted.Pairwise fun x y => x.2.tid = y.2.tid → x.2.id < y.2.id

theorem mem_of_eraseIdx {α : Type} {l : List α} {i : Nat} {a : α} (h : a ∈ l.eraseIdx i) : a ∈ l :=
  (List.eraseIdx_sublist l i).subset h

theorem threads {paths : Nat → Path} {σ : Settings} {fs : Fs} {s : State}
    (h : Reachable paths σ fs s) : Threads s := by
  have hb : ∀ s, Reachable paths σ fs s → ∀ x ∈ requests s, x.2.id < s.nextId := by
    intro s h x hx
    have := (requests_ids h).subset (List.mem_map.2 ⟨x, hx, rfl⟩)
    exact List.mem_range.1 this
  induction h with
  | init => exact ⟨List.nodup_nil, by simp [requests, init], by simp [init], by simp [init]⟩
  | @step s s' ev hr hs ih =>
    have hb' := hb _ (.step ev hr hs)
    cases flow_step hs with
    | same hc ha hd hn hk hre => exact ⟨by rw [hc]; exact ih.single, hb', by rw [hc, ha]; exact ih.latest, by rw [ha]; exact ih.order⟩
    | reset hc ha hd hn hk hre => exact ⟨by rw [hc]; exact ih.single, hb', by rw [hc, ha]; exact ih.latest, by rw [ha]; exact ih.order⟩
    | call tid name time level message hfree hlog hc ha hd hn hk hre =>
      refine ⟨?_, hb', ?_, by rw [ha]; exact ih.order⟩
      · rw [hc, List.map_append]
        refine List.nodup_append.2 ⟨ih.single, by simp, ?_⟩
        intro a ha b hb hab
        simp only [List.map_cons, List.map_nil, List.mem_singleton] at hb
        subst hb; subst hab
        exact hfree ha
      · rw [hc, ha]
        intro r hr x hx ht
        rcases List.mem_append.1 hr with hr | hr
        · exact ih.latest r hr x hx ht
        · simp only [List.mem_singleton] at hr
          subst hr
          exact ih.bound x (by unfold requests; simp [hx])
    | accept i r hi hc ha hd hn hk hre =>
      have hmem : r ∈ s.calls := List.mem_of_getElem? hi
      have hp := (eraseIdx_perm hi).map (fun r => r.entry.tid)
      have hnd := (hp.nodup_iff).2 ih.single
      rw [List.map_cons, List.nodup_cons] at hnd
      refine ⟨by rw [hc]; exact hnd.2, hb', ?_, ?_⟩
      · rw [hc, ha]
        intro r' hr' x hx ht
        rcases List.mem_append.1 hx with hx | hx
        · exact ih.latest r' (mem_of_eraseIdx hr') x hx ht
        · simp only [List.mem_singleton] at hx
          subst hx
          simp only at ht
          exact absurd (List.mem_map.2 ⟨r', hr', ht.symm⟩) hnd.1
      · rw [ha]
        refine List.pairwise_append.2 ⟨ih.order, by simp, ?_⟩
        intro x hx y hy ht
        simp only [List.mem_singleton] at hy
        subst hy
        exact ih.latest r hmem x hx ht
    | drop i r hi hc ha hd hn hk hre =>
      have hp := (eraseIdx_perm hi).map (fun r => r.entry.tid)
      have hnd := (hp.nodup_iff).2 ih.single
      rw [List.map_cons, List.nodup_cons] at hnd
      refine ⟨by rw [hc]; exact hnd.2, hb', ?_, by rw [ha]; exact ih.order⟩
      rw [hc, ha]
      intro r' hr' x hx ht
      exact ih.latest r' (mem_of_eraseIdx hr') x hx ht

/-- With a steady clock later calls have later times. -/
theorem steady {paths : Nat → Path} {σ : Settings} {fs : Fs} {s : State}
    (h : ReachableBy paths SteadyClock σ fs s) :
    ∀ x ∈ requests s, ∀ y ∈ requests s, x.2.id < y.2.id → x.2.time ≤ y.2.time := by
  induction h with
  | init => simp [requests, init]
  | @step s s' ev hr hok hs ih =>
    rcases requests_step hs with ⟨hn, hp⟩ | ⟨name, e, he, hn, hp⟩
    · intro x hx y hy
      exact ih x (hp.subset hx) y (hp.subset hy)
    · -- the new call
      have hnew : ∀ x ∈ requests s, x.2.time ≤ e.time := by
        obtain ⟨-, h⟩ := step_cases hs
        have key : ∀ {tid name' time level message}, ev = .call tid name' time level message →
            s'.calls = s.calls ++ [⟨name', ⟨time, tid, level, message, s.nextId⟩⟩] →
            s'.accepted = s.accepted → s'.dropped = s.dropped →
            ∀ x ∈ requests s, x.2.time ≤ e.time := by
          intro tid name' time level message hev hc ha hd x hx
          subst hev
          have hmem : (name, e) ∈ requests s' := hp.symm.subset (by simp)
          have hb := (threads (reachable_of_by hr)).bound
          unfold requests at hmem
          rw [hc, ha, hd, List.map_append, ← List.append_assoc] at hmem
          rcases List.mem_append.1 hmem with hm | hm
          · have := hb _ hm
            simp only at this
            omega
          · simp only [List.map_cons, List.map_nil, List.mem_singleton, Prod.mk.injEq] at hm
            rw [hm.2]
            exact hok x hx
        have hno : s'.nextId = s.nextId → ∀ x ∈ requests s, x.2.time ≤ e.time := by
          intro h; omega
        cases h with
        | call tid name' time level message hs' hc hn' ho hl => exact key rfl rfl rfl rfl
        | enter i r hi ho =>
          rcases addLog_cases s r with ⟨h, -⟩ | ⟨h, -⟩ <;> exact hno (by rw [h])
        | flush io ios last name f hs' hn' =>
          exact hno (flushFile_same paths s io ios name f).2.2.2.1
        | _ => exact hno rfl
      have hbd := (threads (reachable_of_by hr)).bound
      intro x hx y hy hlt
      rcases List.mem_append.1 (hp.subset hx) with hx | hx
      · rcases List.mem_append.1 (hp.subset hy) with hy | hy
        · exact ih x hx y hy hlt
        · simp only [List.mem_singleton] at hy
          subst hy
          exact hnew x hx
      · simp only [List.mem_singleton] at hx
        subst hx
        simp only at hlt ⊢
        rcases List.mem_append.1 (hp.subset hy) with hy | hy
        · have := hbd y hy; omega
        · simp only [List.mem_singleton] at hy
          subst hy
          exact Int.le_refl _

/-! ## The buffer bound and the counter -/

theorem counter {paths : Nat → Path} {σ : Settings} {fs : Fs} {s : State}
    (h : Reachable paths σ fs s) : s.discarded + s.resetAt = s.dropped.length := by
  induction h with
  | init => rfl
  | step ev _ hs ih =>
    cases flow_step hs with
    | same hc ha hd hn hk hr => rw [hk, hr, hd]; exact ih
    | reset hc ha hd hn hk hr => rw [hk, hr, hd, Nat.zero_add]
    | call tid name time level message hfree hlog hc ha hd hn hk hr => rw [hk, hr, hd]; exact ih
    | accept i r hi hc ha hd hn hk hr => rw [hk, hr, hd]; exact ih
    | drop i r hi hc ha hd hn hk hr => rw [hk, hr, hd, List.length_append]; simp; omega

/-- What an update of a log file does to the buffers. -/
theorem buffered_update {s s' : State} {name : Nat} {g : LogFile → LogFile}
    (h : s'.files = update s.files name g) (n : Nat) :
    buffered s' n = if n = name ∧ (find s.files n).isSome then
      (g ((find s.files n).getD {})).buffer.reverse else buffered s n := by
  unfold buffered
  rw [h, find_update]
  by_cases hn : n = name
  · rw [if_pos hn]
    cases find s.files n with
    | none => simp
    | some f => simp [hn]
  · simp [hn]

/-- A step removes the oldest entries of a buffer, or adds one if there is room. -/
theorem buffered_step {paths : Nat → Path} {s s' : State} {ev : Event} (hb : Base s)
    (h : step paths s ev = some s') (n : Nat) :
    (∃ k, buffered s' n = (buffered s n).drop k) ∨
    ∃ e, buffered s' n = buffered s n ++ [e] ∧
      (s.settings.bufferMaxSize = 0 ∨ (buffered s n).length < s.settings.bufferMaxSize) := by
  have same : ∀ {s' : State}, s'.files = s.files →
      (∃ k, buffered s' n = (buffered s n).drop k) ∨
      ∃ e, buffered s' n = buffered s n ++ [e] ∧
        (s.settings.bufferMaxSize = 0 ∨ (buffered s n).length < s.settings.bufferMaxSize) := by
    intro s' h
    exact .inl ⟨0, by unfold buffered; rw [h]; rfl⟩
  obtain ⟨-, h⟩ := step_cases h
  cases h with
  | enter i r hi ho =>
    rcases addLog_cases s r with ⟨h, hroom⟩ | ⟨h, -⟩
    · by_cases hn : n = r.name
      · refine .inr ⟨r.entry, ?_, hn ▸ hroom⟩
        rw [h]
        unfold buffered
        simp only
        rw [find_update, addLog_files, if_pos hn, if_pos hn, hn]
        simp
      · refine .inl ⟨0, ?_⟩
        rw [h]
        unfold buffered
        simp only
        rw [find_update, addLog_files, if_neg hn, if_neg hn]
        rfl
    · refine .inl ⟨0, ?_⟩
      rw [h]
      unfold buffered
      simp only
      rw [addLog_files]
      split
      · rename_i hn; subst hn; rfl
      · rfl
  | openOk io name todo f fs l ht hp =>
    refine .inl ⟨0, ?_⟩
    rw [buffered_update (s := s) (name := name) (by dsimp only) n]
    split <;> rfl
  | openFail io name todo f fs ht hp =>
    refine .inl ⟨0, ?_⟩
    rw [buffered_update (s := s) (name := name) (by dsimp only) n]
    split <;> rfl
  | erase io name done ht ho =>
    rw [buffered_update (s := s) (name := name) (by dsimp only) n]
    split
    · refine .inl ⟨done, ?_⟩
      unfold buffered
      rw [List.drop_reverse]
    · exact .inl ⟨0, rfl⟩
  | flush io ios last name f hs hn =>
    have hf := (next_some hb.sorted hn).1
    unfold flushFile
    split
    · rcases hp : prepare s.settings io (paths name) f s.fs with ⟨f', fs, l⟩
      have hfb := prepare_buffer hp
      cases l with
      | none =>
        simp only
        rw [buffered_update (s := s) (name := name) (by dsimp only) n]
        split
        · rename_i h
          refine .inl ⟨0, ?_⟩
          unfold buffered
          rw [h.1, hf, hfb]
          rfl
        · exact .inl ⟨0, rfl⟩
      | some l =>
        simp only
        rcases hw : writeLoop s.settings (f'.filePath.getD (paths name)) name l f'.buffer.reverse ios fs
          with _ | ⟨fs₂, ps⟩
        · exact same rfl
        · simp only
          rw [buffered_update (s := s) (name := name) (by dsimp only) n]
          split
          · rename_i h
            refine .inl ⟨ps.length, ?_⟩
            unfold buffered
            rw [h.1, hf, hfb, List.drop_reverse]
            rfl
          · exact .inl ⟨0, rfl⟩
    · exact same rfl
  | _ => exact same rfl

/-- With a fixed maximal size the buffers do not become larger. -/
theorem buffer_bound {paths : Nat → Path} {k : Nat} {okIo : Io → Prop} {fs : Fs} {s : State}
    (h : Reaches paths (·.bufferMaxSize = k) okIo fs s) (hk : 0 < k) (n : Nat) :
    (buffered s n).length ≤ k := by
  obtain ⟨σ, hσ, h⟩ := h
  induction h with
  | init => exact Nat.zero_le _
  | @step s s' ev hr hok hs ih =>
    have hset := within_settings (okσ := (·.bufferMaxSize = k)) hσ hr
    rcases buffered_step (base (reachable_of_by hr)) hs n with ⟨j, hj⟩ | ⟨e, he, hroom⟩
    · rw [hj, List.length_drop]; omega
    · rw [he, List.length_append]
      simp only [List.length_cons, List.length_nil]
      rw [show s.settings.bufferMaxSize = k from hset] at hroom
      omega

end Pluto.Log
