import Verif.Proofs.LogStepsRun

/-! # The functions of a logger statement by statement: executions are simulated (C142) -/

namespace Pluto.LogSteps
open Pluto.Log Pluto.Spec.Log Pluto.Spec.LogSteps

/-- What is shown for every step. -/
def Goal (paths : Nat → Path) (σ : Settings) (ms : List Move) (m : Move) (f' : State) (c : Log.State) : Prop :=
  ∃ more c', Log.run paths c more = some c' ∧ Extra σ ms m more ∧ Rel paths σ (ms ++ [m]) f' c'

/-- The settings have not been changed. -/
theorem kept_mono {σ : Settings} {ms : List Move} {s s' : Log.State} (m : Move) (h : s'.settings = s.settings)
    (hk : ∀ y, s.settings.set y = s.settings → Given σ ms y) :
    ∀ y, s'.settings.set y = s'.settings → Given σ (ms ++ [m]) y := by
  rw [h]; exact fun y hy => given_mono m (hk y hy)

/-! ## A call that adds an entry -/

theorem sim_lock {paths : Nat → Path} {σ : Settings} {ms : List Move} {f : State} {c : Log.State} {i : Nat}
    (h : Alive paths σ ms f c) (hm : mutexFree f = true) (hi : i < f.base.calls.length) :
    Goal paths σ ms (.lock i) { f with producer := .adding i .find } c := by
  obtain ⟨h1, h2, h3⟩ := mutexFree_iff hm
  have hl := h.lag
  unfold Lag at hl
  rw [h2] at hl
  simp only at hl
  refine ⟨[], c, rfl, extra_nil rfl, .inr (.inl ⟨h.live, h.stage, ?_, ?_, kept_mono _ rfl h.kept,
    fun hu => h.same (unset_left hu)⟩)⟩
  · exact ⟨f.base.calls[i], f.base.files, List.getElem?_eq_getElem hi, h1, hl, rfl⟩
  · exact inner_congr _ h.inner rfl (.inr rfl) rfl (fun _ _ _ => ⟨rfl, rfl⟩) fun he => absurd he h3

/-- The enqueued entry, as in `Logger.lean`. -/
theorem enter_step {paths : Nat → Path} {s : Log.State} {i : Nat} {r : Request} (hc : s.crashed = false)
    (hr : s.calls[i]? = some r) (ho : s.owner = .free) :
    Log.step paths s (.enter i) = some { addLog s r with calls := s.calls.eraseIdx i } := by
  have hcs : ¬ s.crashed = true := by simp [hc]
  simp only [Log.step, if_neg hcs, hr, ho, if_true]

theorem sim_produce {paths : Nat → Path} {σ : Settings} {ms : List Move} {f f' : State} {c : Log.State}
    (h : Alive paths σ ms f c) (hs : produceStep f = some f') : Goal paths σ ms .produce f' c := by
  obtain ⟨e1, e2, e3, e4, e5⟩ := lag_same h.lag
  have hl := h.lag
  unfold produceStep at hs
  split at hs
  · rename_i i pc hp
    unfold Lag at hl
    simp only [hp] at hl
    obtain ⟨r, files, h1, h2, rfl, h4⟩ := hl
    rw [h1] at hs
    simp only [Option.some.injEq] at hs
    have hne : f.inside ≠ .erasing := by
      intro he
      have := h.inner
      unfold Inner at this
      rw [he] at this
      simp only [hp] at this
      cases this.2.2
    -- steps after which the state of `Logger.lean` is the same
    have stay : ∀ (pc' : Add) (fl : List (Nat × LogFile)),
        f' = { f with base := { f.base with files := fl }, producer := .adding i pc' } →
        AddRel σ ms { f.base with files := fl } files r pc' → Goal paths σ ms .produce f' { f.base with files := files } := by
      rintro pc' fl rfl hrel
      refine ⟨[], _, rfl, extra_nil rfl, .inr (.inl ⟨h.live, h.stage, ?_, ?_, kept_mono _ rfl h.kept,
        fun hu => h.same (unset_left hu)⟩)⟩
      · exact ⟨r, files, h1, h2, rfl, addRel_mono _ hrel⟩
      · exact inner_congr _ h.inner rfl (.inr rfl) rfl (fun _ _ _ => ⟨rfl, rfl⟩) fun he => absurd he hne
    cases pc with
    | find =>
      refine stay (if (Log.find f.base.files r.name).isNone then .insert else .readMax) f.base.files hs.symm ?_
      have h5 : f.base.files = files := h4
      split
      · rename_i h6
        exact ⟨h5, by rw [← h5]; exact h6⟩
      · rename_i h6
        show _ = ensured files r.name
        unfold ensured
        rw [h5] at h6
        rw [if_neg h6]
        exact h5
    | insert =>
      refine stay .readMax (emplace r.name {} f.base.files) hs.symm ?_
      show _ = ensured files r.name
      unfold ensured
      rw [if_pos h4.2, h4.1]
    | readMax =>
      exact stay (.test f.base.settings.bufferMaxSize) f.base.files hs.symm ⟨h4, h.kept _ rfl⟩
    | test m =>
      refine stay (if m = 0 ∨ ((Log.find f.base.files r.name).getD {}).buffer.length < m then .push m else .count m)
        f.base.files hs.symm ?_
      split
      · rename_i h6; exact ⟨h4.1, h4.2, h6⟩
      · rename_i h6; exact ⟨h4.1, h4.2, h6⟩
    | push m =>
      obtain ⟨h5, h6, h7⟩ := h4
      have hbuf : ((Log.find (ensured files r.name) r.name).getD {}).buffer.length =
          ((Log.find f.base.files r.name).getD {}).buffer.length := by rw [h5]
      have hadd : addLog { f.base with files := files, settings := f.base.settings.set (.bufferMaxSize m) } r =
          { f.base with
            settings := f.base.settings.set (.bufferMaxSize m)
            files := update f.base.files r.name fun f => { f with buffer := r.entry :: f.buffer }
            owner := .producer r.entry.tid r.name
            accepted := f.base.accepted ++ [(r.name, r.entry)] } := by
        rw [h5]
        exact if_pos (by rw [← hbuf] at h7; exact h7)
      obtain ⟨more, c'', hrun, hex, hc'', -⟩ := with_settings (paths := paths) (σ := σ) (ms := ms) (m := .produce)
        (c := { f.base with files := files }) (ev := .enter i) (xs := [.bufferMaxSize m]) rfl h.live h.stage
        (by intro y hy; rw [List.mem_singleton] at hy; subst hy; exact ⟨h6, fun n => by simp⟩) h.kept h.same rfl
        (fun y => by simp) trivial (enter_step (r := r) h.live h1 h2)
        (by rw [show sets _ [.bufferMaxSize m] = f.base.settings.set (.bufferMaxSize m) from rfl, hadd]; exact h.stage)
        (by rw [show sets _ [.bufferMaxSize m] = f.base.settings.set (.bufferMaxSize m) from rfl, hadd])
      have hcr : (addLog { f.base with files := files, settings := f.base.settings.set (.bufferMaxSize m) } r).crashed =
          false := by rw [hadd]; exact h.live
      have hc1 := hc'' hcr
      rw [show sets ({ f.base with files := files } : Log.State).settings [.bufferMaxSize m] =
        f.base.settings.set (.bufferMaxSize m) from rfl, hadd] at hc1
      have hc2 : c'' = f'.base := by rw [hc1, ← hs]; rfl
      refine ⟨more, c'', hrun, hex, .inr (.inl ?_)⟩
      subst hs
      refine ⟨h.live, h.stage, hc2, ?_, kept_mono _ rfl h.kept, fun hu => h.same (unset_left hu)⟩
      refine inner_congr _ h.inner rfl (.inr (by rw [hc2]; rfl)) (by rw [hc2]; rfl) (fun n _ _ => ?_)
        fun he => absurd he hne
      rw [hc2]
      show ((Log.find (update f.base.files r.name fun f => { f with buffer := r.entry :: f.buffer }) n).getD
          {}).filePath = ((Log.find files n).getD {}).filePath ∧
        ((Log.find (update f.base.files r.name fun f => { f with buffer := r.entry :: f.buffer }) n).getD
          {}).dirsCreated = ((Log.find files n).getD {}).dirsCreated
      rw [← find_ensured files r.name n, ← h5, find_update]
      split
      · cases Log.find f.base.files n <;> exact ⟨rfl, rfl⟩
      · exact ⟨rfl, rfl⟩
    | count m =>
      obtain ⟨h5, h6, h7⟩ := h4
      have hbuf : ((Log.find (ensured files r.name) r.name).getD {}).buffer.length =
          ((Log.find f.base.files r.name).getD {}).buffer.length := by rw [h5]
      have hadd : addLog { f.base with files := files, settings := f.base.settings.set (.bufferMaxSize m) } r =
          { f.base with
            settings := f.base.settings.set (.bufferMaxSize m)
            discarded := f.base.discarded + 1
            dropped := f.base.dropped ++ [(r.name, r.entry)] } := by
        have : ({ f.base with
            settings := f.base.settings.set (.bufferMaxSize m)
            discarded := f.base.discarded + 1
            dropped := f.base.dropped ++ [(r.name, r.entry)] } : Log.State) = { f.base with
            settings := f.base.settings.set (.bufferMaxSize m)
            files := ensured files r.name
            discarded := f.base.discarded + 1
            dropped := f.base.dropped ++ [(r.name, r.entry)] } := by rw [← h5]
        rw [this]
        exact if_neg (by rw [← hbuf] at h7; exact h7)
      obtain ⟨more, c'', hrun, hex, hc'', -⟩ := with_settings (paths := paths) (σ := σ) (ms := ms) (m := .produce)
        (c := { f.base with files := files }) (ev := .enter i) (xs := [.bufferMaxSize m]) rfl h.live h.stage
        (by intro y hy; rw [List.mem_singleton] at hy; subst hy; exact ⟨h6, fun n => by simp⟩) h.kept h.same rfl
        (fun y => by simp) trivial (enter_step (r := r) h.live h1 h2)
        (by rw [show sets _ [.bufferMaxSize m] = f.base.settings.set (.bufferMaxSize m) from rfl, hadd]; exact h.stage)
        (by rw [show sets _ [.bufferMaxSize m] = f.base.settings.set (.bufferMaxSize m) from rfl, hadd])
      have hcr : (addLog { f.base with files := files, settings := f.base.settings.set (.bufferMaxSize m) } r).crashed =
          false := by rw [hadd]; exact h.live
      have hc1 := hc'' hcr
      rw [show sets ({ f.base with files := files } : Log.State).settings [.bufferMaxSize m] =
        f.base.settings.set (.bufferMaxSize m) from rfl, hadd] at hc1
      have hc2 : c'' = f'.base := by rw [hc1, ← hs]; rfl
      refine ⟨more, c'', hrun, hex, .inr (.inl ?_)⟩
      subst hs
      refine ⟨h.live, h.stage, hc2, ?_, kept_mono _ rfl h.kept, fun hu => h.same (unset_left hu)⟩
      refine inner_congr _ h.inner rfl (.inr (by rw [hc2]; rfl)) (by rw [hc2]; rfl) (fun n _ _ => ?_)
        fun he => absurd he hne
      rw [hc2]
      show ((Log.find f.base.files n).getD {}).filePath = ((Log.find files n).getD {}).filePath ∧
        ((Log.find f.base.files n).getD {}).dirsCreated = ((Log.find files n).getD {}).dirsCreated
      rw [← find_ensured files r.name n, ← h5]
      exact ⟨rfl, rfl⟩
  · rename_i hp
    unfold Lag at hl
    simp only [hp] at hl
    subst hl
    split at hs
    · rename_i tid name ho
      cases hs
      have hcs : ¬ f.base.crashed = true := by rw [h.live]; simp
      have hne : f.inside ≠ .erasing := by
        intro he
        have := h.inner
        unfold Inner at this
        rw [he] at this
        rw [this.2.1] at ho
        cases ho
      refine ⟨[.leave], released (decide (f.base.settings.bufferFlushSize ≤
        ((Log.find f.base.files name).getD {}).buffer.length)) tid f.base, run_one ?_, ⟨rfl, ?_, ?_, ?_⟩,
        .inr (.inl ⟨h.live, h.stage, ?_, ?_, kept_mono _ rfl h.kept, fun hu => h.same (unset_left hu)⟩)⟩
      · simp only [Log.step, if_neg hcs, ho, released]
        split
        · rename_i h6; simp [h6]
        · rename_i h6; simp [h6]
      · intro x hx; simp at hx
      · intro _ x hx; simp at hx
      · intro ev hx; rw [List.mem_singleton] at hx; subst hx; trivial
      · exact ⟨tid, name, ho, rfl⟩
      · exact inner_congr _ h.inner rfl (.inr rfl) rfl (fun _ _ _ => ⟨rfl, rfl⟩) fun he => absurd he hne
    · cases hs
  · rename_i b hp
    unfold Lag at hl
    simp only [hp] at hl
    obtain ⟨tid, name, ho, rfl⟩ := hl
    rw [ho] at hs
    cases hs
    have hne : f.inside ≠ .erasing := by
      intro he
      have := h.inner
      unfold Inner at this
      rw [he] at this
      rw [this.2.1] at ho
      cases ho
    refine ⟨[], _, rfl, extra_nil rfl, .inr (.inl ⟨h.live, h.stage, rfl, ?_, kept_mono _ rfl h.kept,
      fun hu => h.same (unset_left hu)⟩)⟩
    exact inner_congr _ h.inner rfl (.inr rfl) rfl (fun _ _ _ => ⟨rfl, rfl⟩) fun he => absurd he hne

/-! ## The logging thread -/

theorem mem_last (ms : List Move) (m : Move) : m ∈ ms ++ [m] := List.mem_append_right _ (List.mem_singleton.2 rfl)

theorem sim_begin {paths : Nat → Path} {σ : Settings} {ms : List Move} {f f' : State} {c : Log.State} {io : Io}
    (h : Alive paths σ ms f c) (hs : step paths f (.begin io) = some f') : Goal paths σ ms (.begin io) f' c := by
  obtain ⟨e1, e2, e3, e4, e5⟩ := lag_same h.lag
  have hcs : ¬ f.base.crashed = true := by rw [h.live]; simp
  simp only [step, if_neg hcs] at hs
  split at hs
  · rename_i name todo hi ht
    cases hs
    refine ⟨[], c, rfl, extra_nil rfl, .inr (.inl ⟨h.live, h.stage, lag_mono _ h.lag, ?_, kept_mono _ rfl h.kept,
      fun hu => h.same (unset_left hu)⟩)⟩
    refine ⟨name, todo, [], e2.trans ht, by simp, .inr (.inl (mem_last _ _)), fun τ => ?_⟩
    rw [prepare_begin, lag_files h.lag, e3]
    rfl
  · rename_i name p l e todo done hi ht
    cases hs
    refine ⟨[], c, rfl, extra_nil rfl, .inr (.inl ⟨h.live, h.stage, lag_mono _ h.lag, ?_, kept_mono _ rfl h.kept,
      fun hu => h.same (unset_left hu)⟩)⟩
    refine ⟨name, p, l, e, todo, done, [], e2.trans ht, by simp, .inr (.inl (mem_last _ _)), fun τ => ?_⟩
    rw [turn_begin, e3]
    rfl
  · cases hs

theorem sim_relock {paths : Nat → Path} {σ : Settings} {ms : List Move} {f f' : State} {c : Log.State}
    (h : Alive paths σ ms f c) (hs : step paths f .relock = some f') : Goal paths σ ms .relock f' c := by
  obtain ⟨e1, e2, e3, e4, e5⟩ := lag_same h.lag
  have hcs : ¬ f.base.crashed = true := by rw [h.live]; simp
  simp only [step, if_neg hcs] at hs
  split at hs
  · rename_i name done ht
    split at hs
    · rename_i hm
      cases hs
      obtain ⟨h1, h2, -⟩ := mutexFree_iff hm
      refine ⟨[], c, rfl, extra_nil rfl, .inr (.inl ⟨h.live, h.stage, lag_mono _ h.lag, ?_, kept_mono _ rfl h.kept,
        fun hu => h.same (unset_left hu)⟩)⟩
      exact ⟨⟨name, done, e2.trans ht⟩, h1, h2⟩
    · cases hs
  · cases hs

/-- What the logging thread is in the middle of can be completed in one step, if the settings are not changed any more. -/
theorem complete {paths : Nat → Path} {σ : Settings} {ms : List Move} {f : State} {c : Log.State} {m : Move}
    (hm : calls [m] = []) (hb : Base c) (h : Alive paths σ ms f c) :
    match f.inside with
    | .preparing x => ∃ name todo more, c.thread = .opening name todo ∧ f.base.thread = .opening name todo ∧
        (Log.find c.files name).isSome = true ∧ Extra σ ms m more ∧
        Log.run paths c more = some (finishPrepare paths c name todo (prepareRest c.settings (paths name) x))
    | .turning x => ∃ name p l e todo done more c', c.thread = .writing name p l (e :: todo) done ∧
        f.base.thread = .writing name p l (e :: todo) done ∧ Extra σ ms m more ∧ Log.run paths c more = some c' ∧
        (turnRest c.settings p name e x = .crash ∧ c'.crashed = true ∨
          turnRest c.settings p name e x ≠ .crash ∧
            c' = finishTurn c name p e todo done (turnRest c.settings p name e x))
    | _ => True := by
  obtain ⟨e1, e2, e3, e4, e5⟩ := lag_same h.lag
  have hin := h.inner
  unfold Inner at hin
  split
  · rename_i x hx
    simp only [hx] at hin
    obtain ⟨name, todo, xs, h1, h2, h3, h4⟩ := hin
    have hstep := thread_prepare (paths := paths) (s := { c with settings := sets c.settings xs }) (io := x.io)
      (name := name) (todo := todo) (e5.trans h.live) h1
    rw [show outcome (prepare (sets c.settings xs) x.io (paths name) ((Log.find c.files name).getD {}) c.fs) =
      prepareRest c.settings (paths name) x from h4 c.settings] at hstep
    obtain ⟨q1, q2, q3, -⟩ := finishPrepare_same paths { c with settings := sets c.settings xs } name todo
      (prepareRest c.settings (paths name) x)
    obtain ⟨more, c'', hrun, hex, hc'', -⟩ := with_settings (m := m) hm (e5.trans h.live) (e4.trans h.stage)
      (fun y hy => ⟨(h2 y hy).1, fun n => ((h2 y hy).2 n).1⟩) (by rw [e1]; exact h.kept) (by rw [e1]; exact h.same) rfl
      (fun y => by simp) h3 hstep (q1.trans (e4.trans h.stage)) q2
    have hr := hb.range
    rw [h1] at hr
    refine ⟨name, todo, more, h1, e2.symm.trans h1, hr.1, hex, ?_⟩
    rw [hrun, hc'' (q3.trans (e5.trans h.live))]
    generalize prepareRest c.settings (paths name) x = q
    rcases q with ⟨a, b, d, l⟩
    cases l <;> rfl
  · rename_i x hx
    simp only [hx] at hin
    obtain ⟨name, p, l, e, todo, done, xs, h1, h2, h3, h4⟩ := hin
    have hstep := thread_turn (paths := paths) (s := { c with settings := sets c.settings xs }) (io := x.io)
      (name := name) (todo := todo) (e5.trans h.live) h1
    rw [show turn (sets c.settings xs) x.io p l name e c.fs = turnRest c.settings p name e x from h4 c.settings] at hstep
    obtain ⟨q1, q2, q3, -⟩ := finishTurn_same { c with settings := sets c.settings xs } name p e todo done
      (turnRest c.settings p name e x)
    obtain ⟨more, c'', hrun, hex, hc'', hcr⟩ := with_settings (m := m) hm (e5.trans h.live) (e4.trans h.stage)
      (fun y hy => ⟨(h2 y hy).1, fun n => ((h2 y hy).2 n).1⟩) (by rw [e1]; exact h.kept) (by rw [e1]; exact h.same) rfl
      (fun y => by simp) h3 hstep (q1.trans (e4.trans h.stage)) q2
    refine ⟨name, p, l, e, todo, done, more, c'', h1, e2.symm.trans h1, hex, hrun, ?_⟩
    by_cases ht : turnRest c.settings p name e x = .crash
    · exact .inl ⟨ht, hcr (q3.2 (.inl ht))⟩
    · refine .inr ⟨ht, ?_⟩
      rw [hc'' ?_]
      · generalize turnRest c.settings p name e x = t
        cases t <;> rfl
      · cases hcc : (finishTurn { c with settings := sets c.settings xs } name p e todo done
            (turnRest c.settings p name e x)).crashed with
        | false => rfl
        | true =>
          rcases q3.1 hcc with h' | h'
          · exact absurd h' ht
          · rw [show c.crashed = false from e5.trans h.live] at h'
            cases h'
  · trivial

theorem sim_inner {paths : Nat → Path} {σ : Settings} {ms : List Move} {f f' : State} {c : Log.State} (hb : Base c)
    (h : Alive paths σ ms f c) (hs : innerStep paths f = some f') : Goal paths σ ms .inner f' c := by
  obtain ⟨e1, e2, e3, e4, e5⟩ := lag_same h.lag
  have hcomp := complete (m := .inner) rfl hb h
  have hin := h.inner
  unfold innerStep at hs
  split at hs
  · cases hs
  · rename_i x hx
    unfold Inner at hin
    simp only [hx] at hin hcomp
    obtain ⟨name, todo, more, h1, h1', hsome, hex, hrun⟩ := hcomp
    rw [h1'] at hs
    simp only at hs
    split at hs
    · rename_i x' hx'
      cases hs
      obtain ⟨name2, todo2, xs, h5, h6, h7, h8⟩ := hin
      rw [h1] at h5
      cases h5
      obtain ⟨hio, ys, hys, hrest⟩ := prepare_inl hx'
      refine ⟨[], c, rfl, extra_nil rfl, .inr (.inl ⟨h.live, h.stage, lag_mono _ h.lag, ?_, kept_mono _ rfl h.kept,
        fun hu => h.same (unset_left hu)⟩)⟩
      refine ⟨name, todo, ys ++ xs, h1, ?_, by rw [hio]; exact fails_mono _ h7, fun τ => ?_⟩
      · intro y hy
        rcases List.mem_append.1 hy with hy | hy
        · exact ⟨given_mono _ (h.kept y (hys y hy).1), (hys y hy).2⟩
        · exact ⟨given_mono _ (h6 y hy).1, (h6 y hy).2⟩
      · rw [sets_append, hio, h8, hrest]
    · rename_i res hres
      cases hs
      rw [prepare_inr hres] at hrun
      obtain ⟨q1, q2, q3, -⟩ := finishPrepare_same paths f.base name todo res
      refine ⟨more, _, hrun, hex, .inr (.inl ⟨q3.trans h.live, q1.trans h.stage, lag_mono _ (lag_prepare h.lag hsome),
        trivial, kept_mono _ q2 h.kept, fun hu => q2.trans (h.same (unset_left hu))⟩)⟩
  · rename_i x hx
    unfold Inner at hin
    simp only [hx] at hin hcomp
    obtain ⟨name, p, l, e, todo, done, more, c', h1, h1', hex, hrun, hc'⟩ := hcomp
    rw [h1'] at hs
    simp only at hs
    split at hs
    · rename_i x' hx'
      cases hs
      obtain ⟨name2, p2, l2, e', todo2, done2, xs, h5, h6, h7, h8⟩ := hin
      rw [h1] at h5
      cases h5
      obtain ⟨hio, ys, hys, hrest⟩ := turn_inl hx'
      refine ⟨[], c, rfl, extra_nil rfl, .inr (.inl ⟨h.live, h.stage, lag_mono _ h.lag, ?_, kept_mono _ rfl h.kept,
        fun hu => h.same (unset_left hu)⟩)⟩
      refine ⟨name, p, l, e, todo, done, ys ++ xs, h1, ?_, by rw [hio]; exact fails_mono _ h7, fun τ => ?_⟩
      · intro y hy
        rcases List.mem_append.1 hy with hy | hy
        · exact ⟨given_mono _ (h.kept y (hys y hy).1), (hys y hy).2⟩
        · exact ⟨given_mono _ (h6 y hy).1, (h6 y hy).2⟩
      · rw [sets_append, hio, h8, hrest]
    · rename_i t ht
      cases hs
      rw [turn_inr ht] at hc'
      obtain ⟨q1, q2, q3, -⟩ := finishTurn_same f.base name p e todo done t
      rcases hc' with ⟨h9, h10⟩ | ⟨h9, rfl⟩
      · exact ⟨more, c', hrun, hex, .inl ⟨q3.2 (.inl h9), h10⟩⟩
      · have hlive : (finishTurn f.base name p e todo done t).crashed = false := by
          cases hcc : (finishTurn f.base name p e todo done t).crashed with
          | false => rfl
          | true =>
            rcases q3.1 hcc with h' | h'
            · exact absurd h' h9
            · rw [h.live] at h'; cases h'
        exact ⟨more, _, hrun, hex, .inr (.inl ⟨hlive, q1.trans h.stage, lag_mono _ (lag_turn h.lag), trivial,
          kept_mono _ q2 h.kept, fun hu => q2.trans (h.same (unset_left hu))⟩)⟩
  · rename_i hx
    unfold Inner at hin
    simp only [hx] at hin
    obtain ⟨⟨name, done, h1⟩, h2, h3⟩ := hin
    have hl := h.lag
    unfold Lag at hl
    simp only [h3] at hl
    subst hl
    rw [h1] at hs
    cases hs
    have hcs : ¬ f.base.crashed = true := by rw [h.live]; simp
    refine ⟨[.thread {}], _, run_one (s' := _) (by simp only [Log.step, if_neg hcs, threadStep, h1, h2, if_true]; rfl),
      ⟨rfl, ?_, ?_, ?_⟩, .inr (.inl ⟨h.live, h.stage, ?_, trivial, kept_mono _ rfl h.kept,
        fun hu => h.same (unset_left hu)⟩)⟩
    · intro x hx; simp at hx
    · intro _ x hx; simp at hx
    · intro ev hx; rw [List.mem_singleton] at hx; subst hx; exact .inl rfl
    · simp only [Lag, h3]

/-! ## Everything else before the destructor is called -/

theorem stop_step {paths : Nat → Path} {s s' : Log.State} (hc : s.crashed = false)
    (h : Log.step paths s .stop = some s') :
    (s.stage = .alive ∧ s.calls = [] ∧ s.notifying = [] ∧ s.setters = 0 ∧ (s.owner = .free ∨ s.owner = .logging)) ∧
      s' = { s with isLogging := false, stage := .flagged } := by
  have hcs : ¬ s.crashed = true := by simp [hc]
  simp only [Log.step, if_neg hcs] at h
  split at h
  · rename_i h1; cases h; exact ⟨h1, rfl⟩
  · cases h

theorem step_stop {paths : Nat → Path} {s : Log.State} (hc : s.crashed = false)
    (h : s.stage = .alive ∧ s.calls = [] ∧ s.notifying = [] ∧ s.setters = 0 ∧
      (s.owner = .free ∨ s.owner = .logging)) :
    Log.step paths s .stop = some { s with isLogging := false, stage := .flagged } := by
  have hcs : ¬ s.crashed = true := by simp [hc]
  simp only [Log.step, if_neg hcs]
  rw [if_pos h]

theorem extra_append {σ : Settings} {ms : List Move} {m : Move} {as bs : List Event} (ha : Extra σ ms m as)
    (hb : bs.filter isCall = []) (hs : ∀ x, .set x ∉ bs) (hf : ∀ ev ∈ bs, Fails (ms ++ [m]) ev) :
    Extra σ ms m (as ++ bs) where
  calls := by rw [List.filter_append, ha.calls, hb, List.append_nil]
  given x hx := (List.mem_append.1 hx).elim (ha.given x) fun h => absurd h (hs x)
  unset hu x hx := (List.mem_append.1 hx).elim (ha.unset hu x) (hs x)
  fails ev hx := (List.mem_append.1 hx).elim (ha.fails ev) (hf ev)

theorem sim_stop {paths : Nat → Path} {σ : Settings} {ms : List Move} {f : State} {c s : Log.State} (hb : Base c)
    (h : Alive paths σ ms f c) (hs : Log.step paths f.base .stop = some s) :
    Goal paths σ ms (.other .stop) { f with base := s } c := by
  obtain ⟨hcond, rfl⟩ := stop_step h.live hs
  obtain ⟨c1, c2, c3, c4, c5⟩ := hcond
  have hidle : f.producer = .idle := by
    have hl := h.lag
    unfold Lag at hl
    split at hl
    · assumption
    · obtain ⟨r, files, h1, -⟩ := hl
      rw [c2] at h1
      simp at h1
    · obtain ⟨tid, name, h1, -⟩ := hl
      rw [h1] at c5
      rcases c5 with c5 | c5 <;> cases c5
  have hcb : c = f.base := by
    have hl := h.lag
    unfold Lag at hl
    simp only [hidle] at hl
    exact hl
  subst hcb
  have hcomp := complete (m := .other .stop) rfl hb h
  have hin := h.inner
  unfold Inner at hin
  cases hx : f.inside with
  | out =>
    exact ⟨[.stop], _, run_one hs, extra_other .., .inr (.inr ⟨h.live, by simp, hidle, c5, c2, ⟨c3, c4⟩, .inl rfl,
      rfl⟩)⟩
  | erasing =>
    simp only [hx] at hin
    exact ⟨[.stop], _, run_one hs, extra_other .., .inr (.inr ⟨h.live, by simp, hidle, c5, c2, ⟨c3, c4⟩, .inr (.inl rfl),
      rfl, hin.1, hin.2.1⟩)⟩
  | preparing x =>
    simp only [hx] at hcomp
    obtain ⟨name, todo, more, h1, -, -, hex, hrun⟩ := hcomp
    generalize hres : prepareRest f.base.settings (paths name) x = res at hrun
    obtain ⟨q1, q2, q3, q4, q5, q6, q7⟩ := finishPrepare_same paths f.base name todo res
    refine ⟨more ++ [.stop], _, run_trans hrun (run_one (step_stop (q3.trans h.live)
      ⟨q1.trans c1, q5.trans c2, q6.trans c3, q7.trans c4, by rw [q4]; exact c5⟩)),
      extra_append hex rfl (by simp) (by intro ev hev; rw [List.mem_singleton] at hev; subst hev; trivial),
      .inr (.inr ⟨h.live, by simp, hidle, c5, c2, ⟨c3, c4⟩, .inr (.inl rfl), ?_⟩)⟩
    simp only [Ahead]
    refine ⟨name, todo, h1, ?_⟩
    rw [hres]
    rcases res with ⟨a, b, d, l⟩
    cases l <;> rfl
  | turning x =>
    simp only [hx] at hcomp
    obtain ⟨name, p, l, e, todo, done, more, c', h1, -, hex, hrun, hc'⟩ := hcomp
    generalize hres : turnRest f.base.settings p name e x = t at hc'
    rcases hc' with ⟨h9, h10⟩ | ⟨h9, rfl⟩
    · refine ⟨more, c', hrun, hex, .inr (.inr ⟨h.live, by simp, hidle, c5, c2, ⟨c3, c4⟩, .inr (.inl rfl), ?_⟩)⟩
      simp only [Ahead]
      exact ⟨name, p, l, e, todo, done, h1, .inl ⟨hres.trans h9, h10⟩⟩
    · obtain ⟨q1, q2, q3, q4, q5, q6, q7, -⟩ := finishTurn_same f.base name p e todo done t
      have hlive : (finishTurn f.base name p e todo done t).crashed = false := by
        cases hcc : (finishTurn f.base name p e todo done t).crashed with
        | false => rfl
        | true =>
          rcases q3.1 hcc with h' | h'
          · exact absurd h' h9
          · rw [h.live] at h'; cases h'
      refine ⟨more ++ [.stop], _, run_trans hrun (run_one (step_stop hlive
        ⟨q1.trans c1, q5.trans c2, q6.trans c3, q7.trans c4, by rw [q4]; exact c5⟩)),
        extra_append hex rfl (by simp) (by intro ev hev; rw [List.mem_singleton] at hev; subst hev; trivial),
        .inr (.inr ⟨h.live, by simp, hidle, c5, c2, ⟨c3, c4⟩, .inr (.inl rfl), ?_⟩)⟩
      simp only [Ahead]
      refine ⟨name, p, l, e, todo, done, h1, .inr ⟨by rw [hres]; exact h9, ?_⟩⟩
      rw [hres]
      cases t <;> rfl

/-- The settings after a step of another thread. -/
theorem foreign_settings {paths : Nat → Path} {s s' : Log.State} {ev : Event} (hev : foreign ev = true)
    (h : Log.step paths s ev = some s') :
    s'.settings = s.settings ∨ ∃ x, ev = .set x ∧ s'.settings = s.settings.set x := by
  have hc : s.crashed = false := by
    cases hcr : s.crashed with
    | false => rfl
    | true => simp [Log.step, hcr] at h
  have hcs : ¬ s.crashed = true := by simp [hc]
  cases ev with
  | call tid name time level message =>
    simp only [Log.step, if_neg hcs] at h
    split at h
    · split at h <;> cases h <;> exact .inl rfl
    · cases h
  | set x =>
    simp only [Log.step, if_neg hcs] at h
    split at h
    · split at h <;> cases h <;> exact .inr ⟨_, rfl, rfl⟩
    · cases h
  | notify i =>
    simp only [Log.step, if_neg hcs] at h
    split at h <;> cases h
    exact .inl rfl
  | setNotify =>
    simp only [Log.step, if_neg hcs] at h
    split at h <;> cases h
    exact .inl rfl
  | reset =>
    simp only [Log.step, if_neg hcs] at h
    split at h <;> cases h
    exact .inl rfl
  | spurious =>
    simp only [Log.step, if_neg hcs] at h
    split at h <;> cases h
    exact .inl rfl
  | _ => cases hev

theorem sim_foreign {paths : Nat → Path} {σ : Settings} {ms : List Move} {f : State} {c s : Log.State} {ev : Event}
    (hev : foreign ev = true) (h : Alive paths σ ms f c) (hs : Log.step paths f.base ev = some s) :
    Goal paths σ ms (.other ev) { f with base := s } c := by
  obtain ⟨c', hc', hl'⟩ := lag_foreign hev h.lag hs
  obtain ⟨-, -, k3, k4, k5, -, -⟩ := foreign_frame hev hs
  obtain ⟨j1, j2, -, -, -, -, j7⟩ := foreign_frame hev hc'
  refine ⟨[ev], c', run_one hc', extra_other .., .inr (.inl ⟨k5.trans h.live, k4.trans h.stage, lag_mono _ hl', ?_, ?_, ?_⟩)⟩
  · refine inner_congr _ h.inner rfl j7 j2 (fun n _ _ => by rw [j1]; exact ⟨rfl, rfl⟩) fun he => ?_
    have := h.inner
    unfold Inner at this
    rw [he] at this
    exact ⟨k3.trans this.2.1, this.2.2⟩
  · intro y hy
    rcases foreign_settings hev hs with hset | ⟨x, rfl, hset⟩
    · exact given_mono _ (h.kept y (by rw [← hset]; exact hy))
    · simp only [hset] at hy
      rcases set_now hy with rfl | hy
      · exact .inr (mem_last _ _)
      · exact given_mono _ (h.kept y hy)
  · intro hu
    rcases foreign_settings hev hs with hset | ⟨x, rfl, hset⟩
    · exact hset.trans (h.same (unset_left hu))
    · exact absurd (mem_last _ _) (hu x)

theorem sim_other {paths : Nat → Path} {σ : Settings} {ms : List Move} {f : State} {c s : Log.State} {ev : Event}
    (hb : Base c) (h : Alive paths σ ms f c) (ha : allowed f ev = true) (hs : Log.step paths f.base ev = some s) :
    Goal paths σ ms (.other ev) { f with base := s } c := by
  have hcs : ¬ f.base.crashed = true := by rw [h.live]; simp
  cases ev with
  | enter i => cases ha
  | leave => cases ha
  | stop => exact sim_stop hb h hs
  | thread io =>
    obtain ⟨⟨c', hc', hl'⟩, k1, k2, k3⟩ := lag_thread hb h.lag ha hs
    refine ⟨[.thread io], c', run_one hc', extra_other .., .inr (.inl ⟨k2, k1.trans h.stage, lag_mono _ hl', ?_,
      kept_mono _ k3 h.kept, fun hu => k3.trans (h.same (unset_left hu))⟩)⟩
    simp only [allowed, Bool.and_eq_true] at ha
    have hout := ha.1.1
    unfold Inner
    split at hout
    · rename_i hx; simp only [hx]
    · cases hout
  | stopNotify =>
    simp only [Log.step, if_neg hcs, h.stage] at hs
    cases hs
  | join =>
    simp only [Log.step, if_neg hcs, h.stage] at hs
    simp at hs
  | flush io ios =>
    simp only [Log.step, if_neg hcs, h.stage] at hs
    cases hs
  | finish =>
    simp only [Log.step, if_neg hcs, h.stage] at hs
    cases hs
  | call tid name time level message => exact sim_foreign rfl h hs
  | notify i => exact sim_foreign rfl h hs
  | set x => exact sim_foreign rfl h hs
  | setNotify => exact sim_foreign rfl h hs
  | reset => exact sim_foreign rfl h hs
  | spurious => exact sim_foreign rfl h hs

/-! ## After the destructor has been called -/

theorem extra_thread (σ : Settings) (ms : List Move) {m : Move} {io : Io} (hm : calls [m] = [])
    (hio : Fails (ms ++ [m]) (.thread io)) : Extra σ ms m [.thread io] where
  calls := hm.symm
  given x hx := by simp at hx
  unset _ x hx := by simp at hx
  fails ev hx := by rw [List.mem_singleton] at hx; subst hx; exact hio

/-- Line 384 while the logging thread is in the middle of something. -/
theorem sim_stopNotify {paths : Nat → Path} {σ : Settings} {ms : List Move} {f : State} {c : Log.State}
    (h : Ending paths f c) (hst : f.base.stage = .flagged) (hne : f.inside ≠ .out) :
    Goal paths σ ms (.other .stopNotify) { f with base := { f.base with stage := .joining } } c := by
  have hah := h.ahead
  have hgo : ∀ c' : Log.State, c'.crashed = false → c'.stage = .flagged → wake c'.thread = c'.thread →
      Log.run paths c' [.stopNotify] = some { c' with stage := .joining } := by
    intro c' h1 h2 h3
    have hcs : ¬ c'.crashed = true := by simp [h1]
    refine run_one ?_
    simp only [Log.step, if_neg hcs, h2, h3, if_true]
  cases hx : f.inside with
  | out => exact absurd hx hne
  | preparing x =>
    simp only [Ahead, hx] at hah
    obtain ⟨name, todo, ht, rfl⟩ := hah
    generalize hres : prepareRest f.base.settings (paths name) x = res
    obtain ⟨q1, q2, q3, -⟩ := finishPrepare_same paths f.base name todo res
    refine ⟨[.stopNotify], _, hgo _ (q3.trans h.live) (q1.trans hst) ?_, extra_other .., .inr (.inr ⟨h.live, by simp,
      h.idle, h.free, h.calls, h.quiet, .inr (.inr rfl), ?_⟩)⟩
    · rcases res with ⟨a, b, d, l⟩
      cases l <;> rfl
    · simp only [Ahead]
      refine ⟨name, todo, ht, ?_⟩
      rw [hres]
      rcases res with ⟨a, b, d, l⟩
      cases l <;> rfl
  | turning x =>
    simp only [Ahead, hx] at hah
    obtain ⟨name, p, l, e, todo, done, ht, hc⟩ := hah
    generalize hres : turnRest f.base.settings p name e x = t at hc
    rcases hc with ⟨h9, h10⟩ | ⟨h9, rfl⟩
    · refine ⟨[], c, rfl, extra_nil rfl, .inr (.inr ⟨h.live, by simp, h.idle, h.free, h.calls, h.quiet, .inr (.inr rfl),
        ?_⟩)⟩
      simp only [Ahead]
      exact ⟨name, p, l, e, todo, done, ht, .inl ⟨hres.trans h9, h10⟩⟩
    · obtain ⟨q1, q2, q3, -⟩ := finishTurn_same f.base name p e todo done t
      have hlive : (finishTurn f.base name p e todo done t).crashed = false := by
        cases hcc : (finishTurn f.base name p e todo done t).crashed with
        | false => rfl
        | true =>
          rcases q3.1 hcc with h' | h'
          · exact absurd h' h9
          · rw [h.live] at h'; cases h'
      refine ⟨[.stopNotify], _, hgo _ hlive (q1.trans hst) ?_, extra_other .., .inr (.inr ⟨h.live, by simp,
        h.idle, h.free, h.calls, h.quiet, .inr (.inr rfl), ?_⟩)⟩
      · cases t with
        | crash => exact absurd rfl h9
        | _ => rfl
      · simp only [Ahead]
        refine ⟨name, p, l, e, todo, done, ht, .inr ⟨by rw [hres]; exact h9, ?_⟩⟩
        rw [hres]
        cases t <;> rfl
  | erasing =>
    simp only [Ahead, hx] at hah
    obtain ⟨rfl, ⟨name, done, ht⟩, ho⟩ := hah
    refine ⟨[.stopNotify], _, hgo _ h.live hst (by rw [ht]; rfl), extra_other .., .inr (.inr ⟨h.live, by simp,
      h.idle, h.free, h.calls, h.quiet, .inr (.inr rfl), rfl, ⟨name, done, ht⟩, ho⟩)⟩

theorem sim_ending {paths : Nat → Path} {σ : Settings} {ms : List Move} {f f' : State} {c : Log.State} {m : Move}
    (hb : Base c) (h : Ending paths f c) (hs : step paths f m = some f') : Goal paths σ ms m f' c := by
  have hcs : ¬ f.base.crashed = true := by rw [h.live]; simp
  have hah := h.ahead
  cases m with
  | lock i =>
    simp only [step, if_neg hcs, h.calls] at hs
    simp at hs
  | produce =>
    simp only [step, if_neg hcs, produceStep, h.idle] at hs
    split at hs
    · rename_i tid name ho
      rcases h.free with h1 | h1 <;> rw [h1] at ho <;> cases ho
    · cases hs
  | begin io =>
    simp only [step, if_neg hcs] at hs
    split at hs
    · rename_i name todo hi ht
      cases hs
      simp only [Ahead, hi] at hah
      subst hah
      refine ⟨[.thread io], _, run_one (thread_prepare h.live ht), extra_thread _ _ rfl (.inr (.inl (mem_last _ _))),
        .inr (.inr ⟨h.live, h.stage, h.idle, h.free, h.calls, h.quiet, .inr ?_, ?_⟩)⟩
      · have he := hb.ended
        have hst := h.stage
        simp only [ht] at he
        cases hst' : f.base.stage <;> simp_all
      · simp only [Ahead]
        exact ⟨name, todo, ht, by rw [prepare_begin]⟩
    · rename_i name p l e todo done hi ht
      cases hs
      simp only [Ahead, hi] at hah
      subst hah
      have hearly : f.base.stage = .flagged ∨ f.base.stage = .joining := by
        have he := hb.ended
        have hst := h.stage
        simp only [ht] at he
        cases hst' : f.base.stage <;> simp_all
      refine ⟨[.thread io], _, run_one (thread_turn h.live ht), extra_thread _ _ rfl (.inr (.inl (mem_last _ _))),
        .inr (.inr ⟨h.live, h.stage, h.idle, h.free, h.calls, h.quiet, .inr hearly, ?_⟩)⟩
      simp only [Ahead]
      refine ⟨name, p, l, e, todo, done, ht, ?_⟩
      rw [turn_begin]
      obtain ⟨-, -, q3, -⟩ := finishTurn_same f.base name p e todo done
        (turnRest f.base.settings p name e { io := io, l := l, fs := f.base.fs })
      by_cases hcr : turnRest f.base.settings p name e { io := io, l := l, fs := f.base.fs } = .crash
      · exact .inl ⟨hcr, q3.2 (.inl hcr)⟩
      · exact .inr ⟨hcr, rfl⟩
    · cases hs
  | relock =>
    simp only [step, if_neg hcs] at hs
    split at hs
    · rename_i name done ht
      split at hs
      · rename_i hm
        cases hs
        obtain ⟨h1, h2, h3⟩ := mutexFree_iff hm
        have hcb : c = f.base := by
          cases hx : f.inside with
          | out => simp only [Ahead, hx] at hah; exact hah
          | erasing => exact absurd hx h3
          | preparing x =>
            simp only [Ahead, hx] at hah
            obtain ⟨n, todo, h4, -⟩ := hah
            rw [ht] at h4; cases h4
          | turning x =>
            simp only [Ahead, hx] at hah
            obtain ⟨n, p, l, e, todo, d, h4, -⟩ := hah
            rw [ht] at h4; cases h4
        subst hcb
        refine ⟨[], _, rfl, extra_nil rfl, .inr (.inr ⟨h.live, h.stage, h.idle, h.free, h.calls, h.quiet, .inr ?_,
          rfl, ⟨name, done, ht⟩, h1⟩)⟩
        have he := hb.ended
        have hst := h.stage
        simp only [ht] at he
        cases hst' : f.base.stage <;> simp_all
      · cases hs
    · cases hs
  | inner =>
    simp only [step, if_neg hcs, innerStep] at hs
    split at hs
    · cases hs
    · rename_i x hx
      simp only [Ahead, hx] at hah
      obtain ⟨name, todo, ht, rfl⟩ := hah
      rw [ht] at hs
      simp only at hs
      split at hs
      · rename_i x' hx'
        cases hs
        obtain ⟨-, ys, hys, hrest⟩ := prepare_inl hx'
        refine ⟨[], _, rfl, extra_nil rfl, .inr (.inr ⟨h.live, h.stage, h.idle, h.free, h.calls, h.quiet,
          .inr (h.early.resolve_left (by rw [hx]; simp)), ?_⟩)⟩
        simp only [Ahead]
        refine ⟨name, todo, ht, ?_⟩
        rw [hrest, sets_noop fun y hy => (hys y hy).1]
      · rename_i res hres
        cases hs
        rw [prepare_inr hres]
        obtain ⟨q1, q2, q3, q4, q5, q6, q7⟩ := finishPrepare_same paths f.base name todo res
        exact ⟨[], _, rfl, extra_nil rfl, .inr (.inr ⟨q3.trans h.live, by rw [q1]; exact h.stage, h.idle,
          by rw [q4]; exact h.free, q5.trans h.calls, ⟨q6.trans h.quiet.1, q7.trans h.quiet.2⟩, .inl rfl, rfl⟩)⟩
    · rename_i x hx
      simp only [Ahead, hx] at hah
      obtain ⟨name, p, l, e, todo, done, ht, hc⟩ := hah
      rw [ht] at hs
      simp only at hs
      split at hs
      · rename_i x' hx'
        cases hs
        obtain ⟨-, ys, hys, hrest⟩ := turn_inl hx'
        refine ⟨[], _, rfl, extra_nil rfl, .inr (.inr ⟨h.live, h.stage, h.idle, h.free, h.calls, h.quiet,
          .inr (h.early.resolve_left (by rw [hx]; simp)), ?_⟩)⟩
        simp only [Ahead]
        refine ⟨name, p, l, e, todo, done, ht, ?_⟩
        rw [hrest, sets_noop fun y hy => (hys y hy).1]
        exact hc
      · rename_i t htt
        cases hs
        rw [turn_inr htt] at hc
        obtain ⟨q1, q2, q3, q4, q5, q6, q7, -⟩ := finishTurn_same f.base name p e todo done t
        rcases hc with ⟨h9, h10⟩ | ⟨h9, rfl⟩
        · exact ⟨[], c, rfl, extra_nil rfl, .inl ⟨q3.2 (.inl h9), h10⟩⟩
        · have hlive : (finishTurn f.base name p e todo done t).crashed = false := by
            cases hcc : (finishTurn f.base name p e todo done t).crashed with
            | false => rfl
            | true =>
              rcases q3.1 hcc with h' | h'
              · exact absurd h' h9
              · rw [h.live] at h'; cases h'
          exact ⟨[], _, rfl, extra_nil rfl, .inr (.inr ⟨hlive, by rw [q1]; exact h.stage, h.idle,
            by rw [q4]; exact h.free, q5.trans h.calls, ⟨q6.trans h.quiet.1, q7.trans h.quiet.2⟩, .inl rfl, rfl⟩)⟩
    · rename_i hx
      simp only [Ahead, hx] at hah
      obtain ⟨rfl, ⟨name, done, ht⟩, ho⟩ := hah
      rw [ht] at hs
      cases hs
      refine ⟨[.thread {}], _, run_one (s' := _)
        (by simp only [Log.step, if_neg hcs, threadStep, ht, ho, if_true]),
        extra_thread _ _ rfl (.inl rfl), .inr (.inr ⟨h.live, h.stage, h.idle, .inr rfl, h.calls, h.quiet, .inl rfl, rfl⟩)⟩
  | other ev =>
    simp only [step, if_neg hcs] at hs
    split at hs
    · rename_i ha
      split at hs
      · rename_i s hs'
        cases hs
        cases hx : f.inside with
        | out =>
          simp only [Ahead, hx] at hah
          subst hah
          refine ⟨[ev], s, run_one hs', extra_other .., ?_⟩
          by_cases hcr : s.crashed = true
          · exact .inl ⟨hcr, hcr⟩
          · refine .inr (.inr ?_)
            have hk : s.stage ≠ .alive ∧ (s.owner = .free ∨ s.owner = .logging) ∧ s.calls = [] ∧ s.notifying = [] ∧
                s.setters = 0 := by
              obtain ⟨k1, k2⟩ := h.quiet
              have k3 := h.calls
              have k4 := h.free
              have k5 := h.stage
              simp only [Log.step, if_neg hcs] at hs'
              cases ev with
              | call => simp only [k5, false_and, if_false] at hs'; cases hs'
              | enter i => cases ha
              | leave => cases ha
              | notify i => simp only [k1] at hs'; simp at hs'
              | set x => simp only [k5, if_false] at hs'; cases hs'
              | setNotify => simp only [k2] at hs'; simp at hs'
              | reset => simp only [k5, if_false] at hs'; cases hs'
              | spurious => simp only at hs'; split at hs' <;> cases hs'; exact ⟨k5, k4, k3, k1, k2⟩
              | stop => simp only [k5, false_and, if_false] at hs'; cases hs'
              | stopNotify =>
                simp only at hs'; split at hs' <;> cases hs'
                exact ⟨by simp, k4, k3, k1, k2⟩
              | join =>
                simp only at hs'; split at hs' <;> cases hs'
                exact ⟨by simp, k4, k3, k1, k2⟩
              | finish =>
                simp only at hs'
                split at hs'
                · split at hs' <;> cases hs'
                  exact ⟨by simp, k4, k3, k1, k2⟩
                · cases hs'
              | flush io ios =>
                simp only at hs'
                split at hs'
                · split at hs'
                  · cases hs'
                    unfold flushFile
                    split
                    · split
                      · split
                        · exact ⟨by simp, k4, k3, k1, k2⟩
                        · exact ⟨k5, k4, k3, k1, k2⟩
                      · exact ⟨by simp, k4, k3, k1, k2⟩
                    · exact ⟨by simp, k4, k3, k1, k2⟩
                  · cases hs'
                · cases hs'
              | thread io =>
                simp only [threadStep] at hs'
                simp only [allowed, Bool.and_eq_true] at ha
                have ha1 := ha.1.2
                split at hs'
                · split at hs' <;> cases hs'; exact ⟨k5, .inr rfl, k3, k1, k2⟩
                · split at hs'
                  · split at hs' <;> cases hs' <;> exact ⟨k5, k4, k3, k1, k2⟩
                  · cases hs'; exact ⟨k5, .inl rfl, k3, k1, k2⟩
                · cases hs'; exact ⟨k5, .inl rfl, k3, k1, k2⟩
                · cases hs'
                · split at hs' <;> cases hs'; exact ⟨k5, .inr rfl, k3, k1, k2⟩
                · split at hs'
                  · cases hs'; exact ⟨k5, k4, k3, k1, k2⟩
                  · split at hs' <;> cases hs'
                    · exact ⟨k5, .inl rfl, k3, k1, k2⟩
                    · exact ⟨k5, k4, k3, k1, k2⟩
                · rename_i ht'; rw [ht'] at ha1; cases ha1
                · rename_i ht'
                  split at hs'
                  · cases hs'; exact ⟨k5, k4, k3, k1, k2⟩
                  · rw [ht'] at ha1; cases ha1
                · rename_i ht'; rw [ht'] at ha1; cases ha1
                · cases hs'
            exact ⟨by simpa using hcr, hk.1, h.idle, hk.2.1, hk.2.2.1, hk.2.2.2, .inl rfl, rfl⟩
        | _ =>
          -- only line 384 is possible
          have hearly := h.early.resolve_left (by rw [hx]; simp)
          obtain ⟨k1, k2⟩ := h.quiet
          have hth : f.base.thread ≠ .asleep ∧ f.base.thread ≠ .exited ∧ wake f.base.thread = f.base.thread := by
            simp only [Ahead, hx] at hah
            first
              | (obtain ⟨name, todo, ht, -⟩ := hah; rw [ht]; exact ⟨by simp, by simp, rfl⟩)
              | (obtain ⟨name, p, l, e, todo, d, ht, -⟩ := hah; rw [ht]; exact ⟨by simp, by simp, rfl⟩)
              | (obtain ⟨-, ⟨name, d, ht⟩, -⟩ := hah; rw [ht]; exact ⟨by simp, by simp, rfl⟩)
          have hev : ev = .stopNotify ∧ f.base.stage = .flagged ∧
              s = { f.base with stage := .joining } := by
            simp only [Log.step, if_neg hcs] at hs'
            cases ev with
            | call => simp only [h.stage, false_and, if_false] at hs'; cases hs'
            | enter i => cases ha
            | leave => cases ha
            | notify i => simp only [k1] at hs'; simp at hs'
            | set x => simp only [h.stage, if_false] at hs'; cases hs'
            | setNotify => simp only [k2] at hs'; simp at hs'
            | reset => simp only [h.stage, if_false] at hs'; cases hs'
            | spurious => simp only [hth.1, if_false] at hs'; cases hs'
            | stop => simp only [h.stage, false_and, if_false] at hs'; cases hs'
            | stopNotify =>
              simp only [hth.2.2] at hs'
              split at hs' <;> cases hs'
              exact ⟨rfl, by assumption, rfl⟩
            | join => simp only [hth.2.1, and_false, if_false] at hs'; cases hs'
            | finish => rcases hearly with h1 | h1 <;> simp only [h1] at hs' <;> cases hs'
            | flush io ios => rcases hearly with h1 | h1 <;> simp only [h1] at hs' <;> cases hs'
            | thread io =>
              simp only [allowed, hx] at ha
              simp at ha
          obtain ⟨rfl, hst, rfl⟩ := hev
          rw [← hx]
          exact sim_stopNotify h hst (by rw [hx]; simp)
      · cases hs
    · cases hs

/-! ## Executions -/

theorem sim_step {paths : Nat → Path} {σ : Settings} {ms : List Move} {f f' : State} {c : Log.State} {m : Move}
    (hb : Base c) (h : Rel paths σ ms f c) (hs : step paths f m = some f') : Goal paths σ ms m f' c := by
  rcases h with ⟨h1, -⟩ | h | h
  · simp [step, h1] at hs
  · have hcs : ¬ f.base.crashed = true := by rw [h.live]; simp
    cases m with
    | lock i =>
      simp only [step, if_neg hcs] at hs
      split at hs
      · rename_i h1; cases hs; exact sim_lock h h1.1 h1.2
      · cases hs
    | produce =>
      simp only [step, if_neg hcs] at hs
      exact sim_produce h hs
    | begin io => exact sim_begin h hs
    | relock => exact sim_relock h hs
    | inner =>
      simp only [step, if_neg hcs] at hs
      exact sim_inner hb h hs
    | other ev =>
      simp only [step, if_neg hcs] at hs
      split at hs
      · rename_i ha
        split at hs
        · rename_i s hs'
          cases hs
          exact sim_other hb h ha hs'
        · cases hs
      · cases hs
  · exact sim_ending hb h hs

theorem base_init (σ : Settings) (fs : Fs) : Base (Log.init σ fs) := by
  refine ⟨?_, ?_, trivial, fun n => ⟨[], ?_, ?_⟩, .inl ⟨?_, ?_⟩⟩ <;> simp [Log.init, Sorted, holds, accepted, buffered,
    passed, finished, Log.find]

theorem sim_from {paths : Nat → Path} {σ : Settings} {fs : Fs} {ms : List Move} :
    ∀ {ms0 : List Move} {f f' : State} {evs : List Event} {c : Log.State},
      Log.run paths (Log.init σ fs) evs = some c → AtOnce σ ms0 evs → Rel paths σ ms0 f c → run paths f ms = some f' →
      ∃ evs c, Log.run paths (Log.init σ fs) evs = some c ∧ AtOnce σ (ms0 ++ ms) evs ∧ Rel paths σ (ms0 ++ ms) f' c := by
  induction ms with
  | nil =>
    intro ms0 f f' evs c h1 h2 h3 h
    cases h
    rw [List.append_nil]
    exact ⟨evs, c, h1, h2, h3⟩
  | cons m ms ih =>
    intro ms0 f f' evs c h1 h2 h3 h
    simp only [run] at h
    split at h
    · rename_i f1 hf1
      obtain ⟨more, c', h5, h6, h7⟩ := sim_step (base_run (base_init σ fs) h1) h3 hf1
      have := ih (run_trans h1 h5) (atOnce_append h2 h6) h7 h
      rwa [List.append_assoc] at this
    · cases h

theorem sim_run {paths : Nat → Path} {σ : Settings} {fs : Fs} {ms : List Move} {f : State}
    (h : run paths (init σ fs) ms = some f) :
    ∃ evs c, Log.run paths (Log.init σ fs) evs = some c ∧ AtOnce σ ms evs ∧ Rel paths σ ms f c :=
  sim_from (ms0 := []) (evs := []) (f := init σ fs) rfl
    ⟨rfl, (fun _ hx => by simp at hx), (fun _ _ hx => by simp at hx), (fun _ hx => by simp at hx)⟩
    (.inr (.inl ⟨rfl, rfl, rfl, trivial, fun y hy => .inl hy, fun _ => rfl⟩)) h

/-! ## Conversely -/

theorem run_append' {paths : Nat → Path} {f f1 f2 : State} {as bs : List Move} (h1 : run paths f as = some f1)
    (h2 : run paths f1 bs = some f2) : run paths f (as ++ bs) = some f2 := by
  induction as generalizing f with
  | nil => cases h1; exact h2
  | cons a as ih =>
    simp only [List.cons_append, run] at h1 ⊢
    split at h1
    · exact ih h1
    · cases h1

/-- Preparing a file, statement by statement. -/
theorem run_prepare {paths : Nat → Path} {s : Log.State} {name : Nat} {todo : List Entry} (hc : s.crashed = false)
    (ht : s.thread = .opening name todo) (x : Preparing) :
    ∃ n, run paths { base := s, inside := .preparing x } (List.replicate n .inner) =
      some { base := finishPrepare paths s name todo (prepareRest s.settings (paths name) x) } := by
  have hcs : ¬ s.crashed = true := by simp [hc]
  have go : ∀ (k : Nat) (x : Preparing), (match x.pc with
      | .path => 6 | .readDirs => 5 | .create => 4 | .readHeader => 3 | .readSize _ => 2 | .openFile _ _ => 1) ≤ k →
      ∃ n, run paths { base := s, inside := .preparing x } (List.replicate n .inner) =
        some { base := finishPrepare paths s name todo (prepareRest s.settings (paths name) x) } := by
    intro k
    induction k with
    | zero => intro x hx; exfalso; rcases x with ⟨io, pc, a, b, d⟩; cases pc <;> simp at hx
    | succ k ih =>
      intro x hx
      cases hstep : prepareStep s.settings (paths name) x with
      | inl x' =>
        obtain ⟨-, ys, hys, hrest⟩ := prepare_inl hstep
        have hle : (match x'.pc with
            | .path => 6 | .readDirs => 5 | .create => 4 | .readHeader => 3 | .readSize _ => 2
            | .openFile _ _ => 1) ≤ k := by
          rcases x with ⟨io, pc, a, b, d⟩
          cases pc <;> simp only [prepareStep] at hstep <;> (repeat' split at hstep) <;> cases hstep <;>
            simp only at hx ⊢ <;> omega
        obtain ⟨n, hn⟩ := ih x' hle
        refine ⟨n + 1, ?_⟩
        rw [List.replicate_succ, run, step]
        simp only [if_neg hcs, innerStep, ht, hstep]
        rw [hn, hrest, sets_noop fun y hy => (hys y hy).1]
      | inr res =>
        refine ⟨1, ?_⟩
        rw [List.replicate_succ, run, step]
        simp only [if_neg hcs, innerStep, ht, hstep]
        rw [prepare_inr hstep]
        rfl
  exact go _ x (Nat.le_refl _)

/-- Writing an entry, statement by statement. -/
theorem run_turn {paths : Nat → Path} {s : Log.State} {name : Nat} {p : Path} {l : Locals} {e : Entry}
    {todo : List Entry} {done : Nat} (hc : s.crashed = false) (ht : s.thread = .writing name p l (e :: todo) done)
    (x : Turning) :
    ∃ n, run paths { base := s, inside := .turning x } (List.replicate n .inner) =
      some { base := finishTurn s name p e todo done (turnRest s.settings p name e x) } := by
  have hcs : ¬ s.crashed = true := by simp [hc]
  have go : ∀ (k : Nat) (x : Turning), (match x.pc with
      | .tell => 8 | .readLimit => 7 | .rotate _ => 6 | .reopen => 5 | .readHeaderWriter _ => 4 | .header _ => 3
      | .readLogWriter => 2 | .entry _ => 1) ≤ k →
      ∃ n, run paths { base := s, inside := .turning x } (List.replicate n .inner) =
        some { base := finishTurn s name p e todo done (turnRest s.settings p name e x) } := by
    intro k
    induction k with
    | zero => intro x hx; exfalso; rcases x with ⟨io, pc, a, b⟩; cases pc <;> simp at hx
    | succ k ih =>
      intro x hx
      cases hstep : turnStep s.settings p name e x with
      | inl x' =>
        obtain ⟨-, ys, hys, hrest⟩ := turn_inl hstep
        have hle : (match x'.pc with
            | .tell => 8 | .readLimit => 7 | .rotate _ => 6 | .reopen => 5 | .readHeaderWriter _ => 4 | .header _ => 3
            | .readLogWriter => 2 | .entry _ => 1) ≤ k := by
          rcases x with ⟨io, pc, a, b⟩
          cases pc <;> simp only [turnStep] at hstep <;> (repeat' split at hstep) <;> cases hstep <;>
            simp only at hx ⊢ <;> omega
        obtain ⟨n, hn⟩ := ih x' hle
        refine ⟨n + 1, ?_⟩
        rw [List.replicate_succ, run, step]
        simp only [if_neg hcs, innerStep, ht, hstep]
        rw [hn, hrest, sets_noop fun y hy => (hys y hy).1]
      | inr t =>
        refine ⟨1, ?_⟩
        rw [List.replicate_succ, run, step]
        simp only [if_neg hcs, innerStep, ht, hstep]
        rw [turn_inr hstep]
        rfl
  exact go _ x (Nat.le_refl _)

/-- The moves that correspond to an event; `n` is the number of statements of the logging thread. -/
def moves (s : Log.State) (n : Nat) : Event → List Move
  | .enter i =>
    [.lock i, .produce] ++
      (if (Log.find s.files ((s.calls[i]?.map (·.name)).getD 0)).isNone then [.produce] else []) ++
      [.produce, .produce, .produce]
  | .leave => [.produce, .produce]
  | .thread io =>
    match s.thread with
    | .opening .. => .begin io :: List.replicate n .inner
    | .writing _ _ _ (_ :: _) _ => .begin io :: List.replicate n .inner
    | .returning .. => [.relock, .inner]
    | _ => [.other (.thread io)]
  | ev => [.other ev]

theorem run_other {paths : Nat → Path} {s s' : Log.State} {ev : Event} (ha : allowed { base := s } ev = true)
    (h : Log.step paths s ev = some s') : run paths { base := s } [.other ev] = some { base := s' } := by
  have hcs : ¬ s.crashed = true := by
    intro hcr
    simp [Log.step, hcr] at h
  simp only [run, step, if_neg hcs, ha, if_true, h]

theorem run_moves {paths : Nat → Path} {s s' : Log.State} {ev : Event} (h : Log.step paths s ev = some s') :
    ∃ n, run paths { base := s } (moves s n ev) = some { base := s' } := by
  have hc : s.crashed = false := by
    cases hcr : s.crashed with
    | false => rfl
    | true => simp [Log.step, hcr] at h
  have hcs : ¬ s.crashed = true := by simp [hc]
  cases ev with
  | enter i =>
    refine ⟨0, ?_⟩
    simp only [Log.step, if_neg hcs] at h
    split at h
    · rename_i r hr
      split at h
      · rename_i ho
        cases h
        have hi : i < s.calls.length := (List.getElem?_eq_some_iff.1 hr).1
        have hmf : mutexFree { base := s } = true := by simp [mutexFree, ho]
        simp only [moves, hr, Option.map_some, Option.getD_some]
        by_cases hn : (Log.find s.files r.name).isNone = true
        · simp only [hn, if_true, List.cons_append, List.nil_append, run, step, if_neg hcs, hmf, hi, and_self,
            produceStep, hr, addStep]
          by_cases hm : s.settings.bufferMaxSize = 0 ∨
              ((Log.find (emplace r.name {} s.files) r.name).getD {}).buffer.length < s.settings.bufferMaxSize
          · simp only [if_pos hm, addLog, hn, if_true]
          · simp only [if_neg hm, addLog, hn, if_true]
        · simp only [hn, if_false, List.cons_append, List.nil_append, run, step, if_neg hcs, hmf, hi, and_self, if_true,
            produceStep, hr, addStep, Bool.false_eq_true]
          by_cases hm : s.settings.bufferMaxSize = 0 ∨
              ((Log.find s.files r.name).getD {}).buffer.length < s.settings.bufferMaxSize
          · simp only [if_pos hm, addLog, hn, Bool.false_eq_true, if_false]
          · simp only [if_neg hm, addLog, hn, Bool.false_eq_true, if_false]
      · cases h
    · cases h
  | leave =>
    refine ⟨0, ?_⟩
    simp only [Log.step, if_neg hcs] at h
    split at h
    · rename_i tid name ho
      simp only [moves, run, step, if_neg hcs, produceStep, ho]
      split at h
      · rename_i h1; cases h; simp [h1]
      · rename_i h1; cases h; simp [h1]
    · cases h
  | thread io =>
    cases hth : s.thread with
    | opening name todo =>
      rw [thread_prepare hc hth] at h
      cases h
      obtain ⟨n, hn⟩ := run_prepare (paths := paths) hc hth
        { io := io, filePath := ((Log.find s.files name).getD {}).filePath
          dirsCreated := ((Log.find s.files name).getD {}).dirsCreated, fs := s.fs }
      refine ⟨n, ?_⟩
      simp only [moves, hth, run, step, if_neg hcs]
      rw [hn, prepare_begin]
    | writing name p l todo done =>
      cases todo with
      | nil => exact ⟨0, by simp only [moves, hth]; exact run_other (by simp [allowed, hth, oneStep, locks]) h⟩
      | cons e todo =>
        rw [thread_turn hc hth] at h
        cases h
        obtain ⟨n, hn⟩ := run_turn (paths := paths) hc hth { io := io, l := l, fs := s.fs }
        refine ⟨n, ?_⟩
        simp only [moves, hth, run, step, if_neg hcs]
        rw [hn, turn_begin]
    | returning name done =>
      refine ⟨0, ?_⟩
      simp only [Log.step, if_neg hcs, threadStep, hth] at h
      split at h
      · rename_i ho
        cases h
        have hmf : mutexFree { base := s } = true := by simp [mutexFree, ho]
        simp only [moves, hth, run, step, if_neg hcs, hmf, if_true, innerStep]
      · cases h
    | starting =>
      have ha : allowed { base := s } (.thread io) = true := by
        simp only [Log.step, if_neg hcs, threadStep, hth] at h
        split at h
        · rename_i ho; simp [allowed, hth, oneStep, mutexFree, ho]
        · cases h
      exact ⟨0, by simp only [moves, hth]; exact run_other ha h⟩
    | woken =>
      have ha : allowed { base := s } (.thread io) = true := by
        simp only [Log.step, if_neg hcs, threadStep, hth] at h
        split at h
        · rename_i ho; simp [allowed, hth, oneStep, mutexFree, ho]
        · cases h
      exact ⟨0, by simp only [moves, hth]; exact run_other ha h⟩
    | checking b => exact ⟨0, by simp only [moves, hth]; exact run_other (by simp [allowed, hth, oneStep, locks]) h⟩
    | drowsy => exact ⟨0, by simp only [moves, hth]; exact run_other (by simp [allowed, hth, oneStep, locks]) h⟩
    | asleep => exact ⟨0, by simp only [moves, hth]; exact run_other (by simp [allowed, hth, oneStep, locks]) h⟩
    | scanning a b => exact ⟨0, by simp only [moves, hth]; exact run_other (by simp [allowed, hth, oneStep, locks]) h⟩
    | exited => exact ⟨0, by simp only [moves, hth]; exact run_other (by simp [allowed, hth, oneStep, locks]) h⟩
  | call => exact ⟨0, run_other rfl h⟩
  | notify => exact ⟨0, run_other rfl h⟩
  | set => exact ⟨0, run_other rfl h⟩
  | setNotify => exact ⟨0, run_other rfl h⟩
  | reset => exact ⟨0, run_other rfl h⟩
  | spurious => exact ⟨0, run_other rfl h⟩
  | stop => exact ⟨0, run_other rfl h⟩
  | stopNotify => exact ⟨0, run_other rfl h⟩
  | join => exact ⟨0, run_other rfl h⟩
  | flush => exact ⟨0, run_other rfl h⟩
  | finish => exact ⟨0, run_other rfl h⟩

/-- The setters that are called. -/
theorem moves_events (s : Log.State) (n : Nat) (ev : Event) :
    calls (moves s n ev) = [ev].filter isCall ∧ (∀ x, .other (.set x) ∈ moves s n ev ↔ ev = .set x) := by
  have hrep : ∀ n, calls (List.replicate n .inner) = [] := by
    intro n
    simp [calls]
  have hmem : ∀ n x, Move.other (.set x) ∉ List.replicate n Move.inner := by
    intro n x hx
    cases List.eq_of_mem_replicate hx
  cases ev with
  | enter i =>
    simp only [moves]
    split <;> simp [calls, isCall]
  | leave => simp [moves, calls, isCall]
  | thread io =>
    simp only [moves]
    split
    · exact ⟨hrep n, fun x => by simp [hmem]⟩
    · exact ⟨hrep n, fun x => by simp [hmem]⟩
    · simp [calls, isCall]
    · simp [calls, isCall]
  | _ => exact ⟨rfl, fun x => by simp [moves, eq_comm]⟩

theorem run_converse {paths : Nat → Path} {evs : List Event} : ∀ {s s' : Log.State}, Log.run paths s evs = some s' →
    ∃ ms, run paths { base := s } ms = some { base := s' } ∧ calls ms = evs.filter isCall ∧
      ∀ x, .other (.set x) ∈ ms ↔ .set x ∈ evs := by
  induction evs with
  | nil =>
    intro s s' h
    cases h
    exact ⟨[], rfl, rfl, by simp⟩
  | cons ev evs ih =>
    intro s s' h
    simp only [Log.run] at h
    split at h
    · rename_i s1 h1
      obtain ⟨n, hn⟩ := run_moves h1
      obtain ⟨ms, h2, h3, h4⟩ := ih h
      obtain ⟨h5, h6⟩ := moves_events s n ev
      refine ⟨moves s n ev ++ ms, run_append' hn h2, ?_, fun x => ?_⟩
      · rw [show ev :: evs = [ev] ++ evs from rfl, List.filter_append, ← h5, ← h3]
        simp [calls, List.filterMap_append]
      · rw [List.mem_append, h6, h4, List.mem_cons, eq_comm]
    · cases h

end Pluto.LogSteps
