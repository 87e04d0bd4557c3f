import Verif.Spec.LogOutside

/-! # Proofs about a logger whose files and directory are changed by others -/

namespace Pluto.LogOutside
open Pluto.LogShare (Config Pc Stream set tell)

/-- What a step does to the contents of files, to the stream and to what has been put into it. -/
inductive Change (cfg : Config) (ev : Event) (s s' : State) : Prop where
  | nothing (hd : s'.fs.data = s.fs.data) (hf : s'.fs.fresh = s.fs.fresh) (hs : s'.stream = s.stream) (hp : s'.put = s.put)
  | created (hd : s'.fs.data = set s.fs.data s.fs.fresh []) (hf : s'.fs.fresh = s.fs.fresh + 1) (hs : s'.stream = s.stream)
      (hp : s'.put = s.put)
  | opened (d : Nat) (n : Name) (hn : s.fs.entry n = some d) (hd : s'.fs.data = s.fs.data) (hf : s'.fs.fresh = s.fs.fresh)
      (h : s.stream = none) (hs : s'.stream = some ⟨d, (s.fs.data d).length, []⟩) (hp : s'.put = s.put)
  | openedNew (hd : s'.fs.data = set s.fs.data s.fs.fresh []) (hf : s'.fs.fresh = s.fs.fresh + 1)
      (h : s.stream = none) (hs : s'.stream = some ⟨s.fs.fresh, 0, []⟩) (hp : s'.put = s.put)
  | flushed (st : Stream) (n : Nat) (h : s.stream = some st) (hd : s'.fs.data = (flush s.fs n st).1.data)
      (hf : s'.fs.fresh = s.fs.fresh)
      (hs : s'.stream = some (flush s.fs n st).2 ∨ (s'.stream = none ∧ n = st.pend.length)) (hp : s'.put = s.put)
  | line (st : Stream) (l : List Char) (h : s.stream = some st) (hh : cfg.header = none ∨ tell st ≠ 0)
      (hd : s'.fs.data = s.fs.data) (hf : s'.fs.fresh = s.fs.fresh) (hs : s'.stream = some { st with pend := st.pend ++ l })
      (hp : s'.put = s.put ++ [(st.file, false, l)])
  | header (st : Stream) (t l : List Char) (h : s.stream = some st) (hh : cfg.header = some t ∧ tell st = 0)
      (hd : s'.fs.data = s.fs.data) (hf : s'.fs.fresh = s.fs.fresh) (hs : s'.stream = some { st with pend := st.pend ++ t ++ l })
      (hp : s'.put = s.put ++ [(st.file, true, t), (st.file, false, l)])
  | theirs (d : Nat) (n : Name) (text : List Char) (he : ev = .append n text) (hn : s.fs.entry n = some d) (hd : s'.fs.data = (append s.fs false d text).data)
      (hf : s'.fs.fresh = s.fs.fresh) (hs : s'.stream = s.stream) (hp : s'.put = s.put)

section
variable {cfg : Config} {s s' : State}

theorem putLine_change {ev : Event} {st : Stream} (h : s.stream = some st) (line : List Char) (rest : List (List Char)) :
    Change cfg ev s (putLine cfg s st line rest) := by
  unfold putLine
  split
  · rename_i t ht
    split
    · rename_i h0
      exact .header st t line h ⟨ht, h0⟩ rfl rfl rfl rfl
    · rename_i h0
      exact .line st line h (.inr h0) rfl rfl rfl rfl
  · rename_i ht
    exact .line st line h (.inl ht) rfl rfl rfl rfl

theorem openFile_cases {fs fs' : Fs} {st : Stream} (h : openFile fs = some (fs', st)) :
    (∃ d, fs.entry (.own 0) = some d ∧ fs' = fs ∧ st = ⟨d, (fs.data d).length, []⟩) ∨
      (fs.entry (.own 0) = none ∧ fs.there = true ∧ fs' = create fs (.own 0) ∧ st = ⟨fs.fresh, 0, []⟩) := by
  unfold openFile at h
  split at h
  · rename_i d hd
    cases h
    exact .inl ⟨d, hd, rfl, rfl⟩
  · rename_i hd
    split at h
    · rename_i ht
      cases h
      exact .inr ⟨hd, ht, rfl, rfl⟩
    · cases h

theorem makeDirs_same (s : State) : (makeDirs s).fs.entry = s.fs.entry ∧ (makeDirs s).fs.data = s.fs.data ∧
    (makeDirs s).fs.fresh = s.fs.fresh ∧ (makeDirs s).stream = s.stream ∧ (makeDirs s).put = s.put ∧
    (makeDirs s).queue = s.queue ∧ (makeDirs s).logged = s.logged ∧ (makeDirs s).pc = s.pc ∧ (makeDirs s).left = s.left := by
  unfold makeDirs
  split <;> simp

theorem go_change {ev : Event} (h : go cfg s = some s') : Change cfg ev s s' := by
  obtain ⟨m1, m2, m3, m4, m5, -⟩ := makeDirs_same s
  unfold go at h
  split at h
  · rename_i hpc hst hq
    split at h
    · rename_i fs st ho
      cases h
      rcases openFile_cases ho with ⟨d, h1, rfl, rfl⟩ | ⟨h1, h2, rfl, rfl⟩
      · rw [m1] at h1
        exact .opened d _ h1 m2 m3 hst (by simp [m2]) m5
      · refine .openedNew ?_ ?_ hst (by simp [m3]) m5
        · simp [create, m2, m3]
        · simp [create, link, m3]
    · cases h
      exact .nothing m2 m3 m4 m5
  · rename_i hst _
    cases h
    exact .flushed _ _ hst rfl rfl (.inr ⟨rfl, rfl⟩) rfl
  · rename_i st _ line rest _ hst _ _
    split at h
    · cases h
      exact .flushed st _ hst rfl rfl (.inr ⟨rfl, rfl⟩) rfl
    · cases h
      exact putLine_change hst _ _
  · split at h
    · cases h; exact .nothing rfl rfl rfl rfl
    · split at h
      · cases h; exact .nothing rfl rfl rfl rfl
      · cases h; exact .nothing rfl rfl rfl rfl
  · cases h; exact .nothing rfl rfl rfl rfl
  · split at h
    · cases h; exact .nothing rfl rfl rfl rfl
    · cases h; exact .nothing rfl rfl rfl rfl
  · rename_i hst
    split at h
    · rename_i fs st ho
      cases h
      rcases openFile_cases ho with ⟨d, h1, rfl, rfl⟩ | ⟨h1, h2, rfl, rfl⟩
      · exact .opened d _ h1 rfl rfl hst rfl rfl
      · exact .openedNew rfl rfl hst rfl rfl
    · cases h; exact .nothing rfl rfl rfl rfl
  · rename_i st line rest _ hst _
    cases h
    exact putLine_change hst _ _
  · cases h

theorem step_change {ev : Event} (h : step cfg s ev = some s') : Change cfg ev s s' := by
  cases ev with
  | log line => cases h; exact .nothing rfl rfl rfl rfl
  | createDirs x => cases h; exact .nothing rfl rfl rfl rfl
  | go => exact go_change h
  | flush n =>
    simp only [step] at h
    split at h
    · rename_i st hst
      cases h
      exact .flushed st n hst rfl rfl (.inl rfl) rfl
    · cases h
  | move old new =>
    simp only [step] at h
    split at h
    · split at h
      · cases h; exact .nothing rfl rfl rfl rfl
      · cases h
    · cases h
  | remove n =>
    simp only [step] at h
    split at h
    · cases h; exact .nothing rfl rfl rfl rfl
    · cases h
  | create n =>
    simp only [step] at h
    split at h
    · cases h; exact .created rfl rfl rfl rfl
    · cases h
  | append n text =>
    simp only [step] at h
    split at h
    · rename_i d hd
      cases h
      exact .theirs d n text rfl hd rfl rfl rfl rfl
    · cases h
  | removeDir => cases h; exact .nothing rfl rfl rfl rfl
  | makeDir => cases h; exact .nothing rfl rfl rfl rfl

/-! ## The lines -/

theorem putLine_lines (st : Stream) (line : List Char) (rest : List (List Char)) :
    lines (putLine cfg s st line rest) ++ (putLine cfg s st line rest).queue = lines s ++ line :: rest ∧
      (putLine cfg s st line rest).logged = s.logged := by
  unfold putLine
  split
  · split <;> simp [lines]
  · simp [lines]

theorem go_lines (h : go cfg s = some s') : lines s' ++ s'.queue = lines s ++ s.queue ∧ s'.logged = s.logged := by
  obtain ⟨-, -, -, -, m5, m6, m7, -⟩ := makeDirs_same s
  have hm : lines (makeDirs s) = lines s := by unfold lines; rw [m5]
  unfold go at h
  split at h
  · split at h
    · cases h
      exact ⟨by simp only [m6]; exact congrArg (· ++ s.queue) hm, m7⟩
    · cases h
      rw [hm, m6, m7]
      exact ⟨rfl, rfl⟩
  · cases h; exact ⟨rfl, rfl⟩
  · rename_i hq
    split at h
    · cases h; exact ⟨rfl, rfl⟩
    · cases h
      rw [hq]
      exact putLine_lines _ _ _
  · split at h
    · cases h; exact ⟨rfl, rfl⟩
    · split at h <;> cases h <;> exact ⟨rfl, rfl⟩
  · cases h; exact ⟨rfl, rfl⟩
  · split at h <;> cases h <;> exact ⟨rfl, rfl⟩
  · split at h <;> cases h <;> exact ⟨rfl, rfl⟩
  · rename_i hq
    cases h
    rw [hq]
    exact putLine_lines _ _ _
  · cases h

theorem step_lines {ev : Event} (h : step cfg s ev = some s') (hi : lines s ++ s.queue = s.logged) :
    lines s' ++ s'.queue = s'.logged := by
  cases ev with
  | log line =>
    cases h
    show lines s ++ (s.queue ++ [line]) = s.logged ++ [line]
    rw [← List.append_assoc, hi]
  | go =>
    obtain ⟨h1, h2⟩ := go_lines h
    rw [h1, h2, hi]
  | createDirs x => cases h; exact hi
  | flush n =>
    simp only [step] at h
    split at h <;> cases h
    exact hi
  | move old new =>
    simp only [step] at h
    split at h
    · split at h <;> cases h
      exact hi
    · cases h
  | remove n =>
    simp only [step] at h
    split at h <;> cases h
    exact hi
  | create n =>
    simp only [step] at h
    split at h <;> cases h
    exact hi
  | append n text =>
    simp only [step] at h
    split at h <;> cases h
    exact hi
  | removeDir => cases h; exact hi
  | makeDir => cases h; exact hi

/-! ## Names -/

/-- Directory entries refer to files that have been created, and those in the directory exist only if it does. -/
structure Names (s : State) : Prop where
  below : ∀ n d, s.fs.entry n = some d → d < s.fs.fresh
  dir : ∀ k, s.fs.entry (.own k) ≠ none → s.fs.there = true
  finite : ∃ n, ∀ k, n ≤ k → s.fs.entry (.own k) = none

theorem link_entry (fs : Fs) (n m : Name) (d : Option Nat) : (link fs n d).entry m = if m = n then d else fs.entry m := rfl

theorem names_congr (I : Names s) (h1 : s'.fs.entry = s.fs.entry) (h2 : s.fs.fresh ≤ s'.fs.fresh)
    (h3 : s.fs.there = true → s'.fs.there = true) : Names s' := by
  refine ⟨fun n d h => ?_, fun k h => ?_, ?_⟩
  · rw [h1] at h; exact Nat.lt_of_lt_of_le (I.below n d h) h2
  · rw [h1] at h; exact h3 (I.dir k h)
  · rw [h1]; exact I.finite

/-- An entry is changed: to nothing, to a file there is, or to a new one. -/
theorem names_link {fs : Fs} (I : Names s) {n : Name} {o : Option Nat} (h1 : fs.entry = (link s.fs n o).entry)
    (h2 : s.fs.fresh ≤ fs.fresh) (h3 : fs.there = s.fs.there) (ho : ∀ d, o = some d → d < fs.fresh)
    (hd : o ≠ none → possible s.fs n = true) : ∀ {t : State}, t.fs = fs → Names t := by
  intro t ht
  obtain ⟨K, hK⟩ := I.finite
  refine ⟨fun m d h => ?_, fun k h => ?_, ?_⟩
  · rw [ht] at h ⊢
    rw [h1, link_entry] at h
    split at h
    · exact ho d h
    · exact Nat.lt_of_lt_of_le (I.below m d h) h2
  · rw [ht] at h ⊢
    rw [h1, link_entry] at h
    rw [h3]
    split at h
    · rename_i he
      subst he
      exact hd h
    · exact I.dir k h
  · rw [ht]
    cases n with
    | other j =>
      refine ⟨K, fun k hk => ?_⟩
      rw [h1, link_entry, if_neg (by intro h; cases h)]
      exact hK k hk
    | own j =>
      refine ⟨max K (j + 1), fun k hk => ?_⟩
      rw [h1, link_entry, if_neg (by intro h; cases h; omega)]
      exact hK k (by omega)

theorem putLine_fs (st : Stream) (line : List Char) (rest : List (List Char)) : (putLine cfg s st line rest).fs = s.fs := by
  unfold putLine
  split
  · split <;> rfl
  · rfl

theorem names_move (I : Names s) {old new : Name} {d : Nat} (ho : s.fs.entry old = some d) (hp : possible s.fs new = true) {t : State}
    (ht : t.fs = link (link s.fs old none) new (some d)) : Names t := by
  have I' : Names { s with fs := link s.fs old none } :=
    names_link I (n := old) (o := none) rfl (Nat.le_refl _) rfl (fun _ h => by cases h) (fun h => (h rfl).elim) rfl
  refine names_link I' (n := new) (o := some d) rfl (Nat.le_refl _) rfl ?_ ?_ ht
  · rintro _ ⟨⟩; exact I.below _ _ ho
  · intro _
    cases new <;> exact hp

theorem names_create (I : Names s) {n : Name} (hp : possible s.fs n = true) {t : State} (ht : t.fs = create s.fs n) : Names t :=
  names_link (fs := create s.fs n) I (n := n) (o := some s.fs.fresh) rfl (Nat.le_succ _) rfl
    (fun _ h => by cases h; exact Nat.lt_succ_self _) (fun _ => hp) ht

theorem names_open (I : Names s) {fs : Fs} {st : Stream} (h : openFile s.fs = some (fs, st)) {t : State} (ht : t.fs = fs) : Names t := by
  rcases openFile_cases h with ⟨d, h1, rfl, rfl⟩ | ⟨h1, h2, rfl, rfl⟩
  · exact names_congr I (by rw [ht]) (by rw [ht]; exact Nat.le_refl _) (by rw [ht]; exact id)
  · exact names_create (n := .own 0) I h2 ht

theorem names_go (I : Names s) (h : go cfg s = some s') : Names s' := by
  have hm : Names (makeDirs s) := by
    obtain ⟨m1, m2, m3, -⟩ := makeDirs_same s
    refine names_congr I m1 (Nat.le_of_eq m3.symm) fun h => ?_
    unfold makeDirs
    split
    · rfl
    · exact h
  unfold go at h
  split at h
  · split at h
    · rename_i ho
      cases h
      exact names_open hm ho rfl
    · cases h
      exact hm
  · cases h
    exact names_congr I rfl (Nat.le_refl _) id
  · split at h
    · cases h
      exact names_congr I rfl (Nat.le_refl _) id
    · cases h
      have := putLine_fs (cfg := cfg) (s := s)
      exact names_congr I (by rw [this]) (by rw [this]; exact Nat.le_refl _) (by rw [this]; exact id)
  · split at h
    · cases h
      exact names_congr I rfl (Nat.le_refl _) id
    · split at h
      · cases h
        exact names_congr I rfl (Nat.le_refl _) id
      · cases h
        exact names_link I (n := .own _) (o := none) rfl (Nat.le_refl _) rfl (fun _ h => by cases h) (fun h => (h rfl).elim) rfl
  · cases h
    exact names_congr I rfl (Nat.le_refl _) id
  · split at h
    · rename_i hd
      cases h
      exact names_move (new := .own _) I hd (I.dir _ (by rw [hd]; simp)) rfl
    · cases h
      exact names_congr I rfl (Nat.le_refl _) id
  · split at h
    · rename_i ho
      cases h
      exact names_open I ho rfl
    · cases h
      exact names_congr I rfl (Nat.le_refl _) id
  · cases h
    have := putLine_fs (cfg := cfg) (s := s)
    exact names_congr I (by rw [this]) (by rw [this]; exact Nat.le_refl _) (by rw [this]; exact id)
  · cases h

theorem names_step {ev : Event} (I : Names s) (h : step cfg s ev = some s') : Names s' := by
  cases ev with
  | log line => cases h; exact names_congr I rfl (Nat.le_refl _) id
  | go => exact names_go I h
  | createDirs x => cases h; exact names_congr I rfl (Nat.le_refl _) id
  | flush n =>
    simp only [step] at h
    split at h <;> cases h
    exact names_congr I rfl (Nat.le_refl _) id
  | move old new =>
    simp only [step] at h
    split at h
    · rename_i d hd
      split at h <;> cases h
      rename_i hc
      exact names_move I hd hc.2 rfl
    · cases h
  | remove n =>
    simp only [step] at h
    split at h <;> cases h
    exact names_link I (n := n) (o := none) rfl (Nat.le_refl _) rfl (fun _ h => by cases h) (fun h => (h rfl).elim) rfl
  | create n =>
    simp only [step] at h
    split at h <;> cases h
    rename_i hc
    exact names_create I hc.2 rfl
  | append n text =>
    simp only [step] at h
    split at h <;> cases h
    exact names_congr I rfl (Nat.le_refl _) id
  | removeDir =>
    cases h
    refine ⟨fun n d h => ?_, fun k h => (h rfl).elim, 0, fun _ _ => rfl⟩
    cases n with
    | own k => cases h
    | other k => exact I.below _ d h
  | makeDir => cases h; exact names_congr I rfl (Nat.le_refl _) fun _ => rfl

theorem names_start {s : State} (h : Start s) : Names s := ⟨h.names, h.dir, h.finite⟩

/-! ## The contents of files -/

theorem mine_append (a b : List (Bool × Char)) : mine (a ++ b) = mine a ++ mine b := by simp [mine]

theorem mine_mine (l : List Char) : mine (l.map fun c => (true, c)) = l := by
  induction l with
  | nil => rfl
  | cons a l ih => unfold mine at ih ⊢; simpa using ih

theorem mine_theirs (l : List Char) : mine (l.map fun c => (false, c)) = [] := by
  induction l with
  | nil => rfl
  | cons a l ih => unfold mine at ih ⊢; simp

/-- The invariant; `w`: others write nothing. -/
structure Inv (w : Prop) (cfg : Config) (s₀ s : State) : Prop where
  fresh : ∀ d, s.fs.fresh ≤ d → s.fs.data d = [] ∧ pieces s d = []
  stream : ∀ st, s.stream = some st → st.file < s.fs.fresh
  chars : ∀ d, mine (s.fs.data d) ++ pending s d = (pieces s d).flatMap (·.2)
  pos : w → ∀ st, s.stream = some st → st.pos = (s.fs.data st.file).length
  files : w → ∀ d, (s.fs.data d).map (·.2) ++ pending s d = (s₀.fs.data d).map (·.2) ++ (pieces s d).flatMap (·.2)
  heads : w → cfg.header ≠ some [] → ∀ d, pieces s d = [] ∨ ∃ ls : List (List Char),
    pieces s d = (if s₀.fs.data d = [] then cfg.header.toList.map (true, ·) else []) ++ ls.map (false, ·)

theorem inv_start {w : Prop} {s₀ : State} (h : Start s₀) : Inv w cfg s₀ s₀ := by
  obtain ⟨-, -, -, -, h5, h6, -⟩ := h.logger
  have hp : ∀ d, pieces s₀ d = [] := fun d => by unfold pieces; rw [h6]; rfl
  have hq : ∀ d, pending s₀ d = [] := fun d => by unfold pending; rw [h5]
  refine ⟨fun d hd => ⟨h.free d hd, hp d⟩, (fun st hs => by rw [h5] at hs; cases hs), fun d => ?_, (fun _ st hs => by rw [h5] at hs; cases hs),
    fun _ d => ?_, fun _ _ d => .inl (hp d)⟩
  · rw [hp, hq]
    simp only [List.append_nil, List.flatMap_nil]
    unfold mine
    rw [List.map_eq_nil_iff, List.filter_eq_nil_iff]
    intro x hx
    simp [h.theirs d x hx]
  · rw [hp, hq]; rfl

/-- What an update of the files and of the stream of one file means. -/
theorem inv_same {w : Prop} {s₀ : State} (I : Inv w cfg s₀ s) (hd : s'.fs.data = s.fs.data) (hf : s.fs.fresh ≤ s'.fs.fresh)
    (hp : s'.put = s.put) (hpend : ∀ d, pending s' d = pending s d) (hfile : ∀ st, s'.stream = some st → st.file < s'.fs.fresh)
    (hpos : w → ∀ st, s'.stream = some st → st.pos = (s.fs.data st.file).length) : Inv w cfg s₀ s' := by
  have hpc : ∀ d, pieces s' d = pieces s d := fun d => by unfold pieces; rw [hp]
  refine ⟨fun d h => ?_, hfile, fun d => ?_, fun hw => ?_, fun hw d => ?_, fun hw hh d => ?_⟩
  · rw [hd, hpc]; exact I.fresh d (Nat.le_trans hf h)
  · rw [hd, hpc, hpend]; exact I.chars d
  · rw [hd]; exact hpos hw
  · rw [hd, hpc, hpend]; exact I.files hw d
  · rw [hpc]; exact I.heads hw hh d

theorem set_fresh {data : Nat → List (Bool × Char)} {n : Nat} (h : data n = []) : LogShare.set data n [] = data := by
  funext d
  unfold LogShare.set
  split
  · rename_i e; rw [e, h]
  · rfl

theorem pending_congr (h : s'.stream = s.stream) (d : Nat) : pending s' d = pending s d := by unfold pending; rw [h]

theorem pieces_put {x : List (Nat × Bool × List Char)} (h : s'.put = s.put ++ x) (d : Nat) :
    pieces s' d = pieces s d ++ (x.filter (·.1 = d)).map (·.2) := by
  unfold pieces; rw [h]; simp

theorem append_data (fs : Fs) (b : Bool) (f : Nat) (text : List Char) (d : Nat) :
    (append fs b f text).data d = fs.data d ++ (if d = f then text.map fun c => (b, c) else []) := by
  unfold append LogShare.set
  dsimp only
  split
  · rename_i e; rw [e]
  · simp

/-- Lines, maybe after a header, are put into the stream. -/
theorem inv_put {w : Prop} {s₀ : State} (I : Inv w cfg s₀ s) {st : Stream} {ps : List (Bool × List Char)} (h : s.stream = some st)
    (hd : s'.fs.data = s.fs.data) (hf : s'.fs.fresh = s.fs.fresh)
    (hs : s'.stream = some { st with pend := st.pend ++ ps.flatMap (·.2) }) (hp : s'.put = s.put ++ ps.map fun x => (st.file, x))
    (hh : w → cfg.header ≠ some [] → pieces s' st.file = [] ∨ ∃ ls : List (List Char),
      pieces s' st.file = (if s₀.fs.data st.file = [] then cfg.header.toList.map (true, ·) else []) ++ ls.map (false, ·)) :
    Inv w cfg s₀ s' := by
  have hpc : ∀ d, pieces s' d = pieces s d ++ if d = st.file then ps else [] := by
    intro d
    rw [pieces_put hp]
    congr 1
    split
    · rename_i e
      subst e
      induction ps with
      | nil => rfl
      | cons a l ih => simp [List.filter_map, Function.comp_def]
    · rename_i e
      have : ¬ st.file = d := fun h => e h.symm
      simp [List.filter_map, Function.comp_def, this]
  have hpend : ∀ d, pending s' d = pending s d ++ if d = st.file then ps.flatMap (·.2) else [] := by
    intro d
    unfold pending
    rw [hs, h]
    dsimp only
    by_cases e : st.file = d
    · simp [e]
    · simp [e, Ne.symm e]
  refine ⟨fun d hd' => ?_, fun st' h' => ?_, fun d => ?_, fun hw st' h' => ?_, fun hw d => ?_, fun hw hh' d => ?_⟩
  · rw [hf] at hd'
    obtain ⟨h1, h2⟩ := I.fresh d hd'
    have := I.stream st h
    exact ⟨by rw [hd, h1], by rw [hpc, h2, if_neg (by omega)]; rfl⟩
  · rw [hs] at h'
    cases h'
    rw [hf]
    exact I.stream st h
  · rw [hd, hpc, hpend, ← List.append_assoc, I.chars d, List.flatMap_append]
    congr 1
    split <;> simp
  · rw [hs] at h'
    cases h'
    rw [hd]
    exact I.pos hw st h
  · rw [hd, hpc, hpend, ← List.append_assoc, I.files hw d, List.flatMap_append, List.append_assoc]
    congr 2
    split <;> simp
  · by_cases e : d = st.file
    · subst e; exact hh hw hh'
    · rw [hpc, if_neg e, List.append_nil]
      exact I.heads hw hh' d

theorem inv_step {w : Prop} {s₀ : State} (I : Inv w cfg s₀ s) (N : Names s) {ev : Event} (hw : w → NoAppend s ev)
    (h : step cfg s ev = some s') : Inv w cfg s₀ s' := by
  cases step_change h with
  | nothing hd hf hs hp =>
    exact inv_same I hd (Nat.le_of_eq hf.symm) hp (pending_congr hs) (fun st h => by rw [hs] at h; rw [hf]; exact I.stream st h)
      fun hw st h => by rw [hs] at h; exact I.pos hw st h
  | created hd hf hs hp =>
    rw [set_fresh (I.fresh _ (Nat.le_refl _)).1] at hd
    exact inv_same I hd (by omega) hp (pending_congr hs) (fun st h => by rw [hs] at h; have := I.stream st h; omega)
      fun hw st h => by rw [hs] at h; exact I.pos hw st h
  | opened d n hn hd hf h0 hs hp =>
    refine inv_same I hd (Nat.le_of_eq hf.symm) hp (fun d => by simp [pending, hs, h0]) (fun st h => ?_) fun hw st h => ?_
    · rw [hs] at h
      cases h
      rw [hf]
      exact N.below n d hn
    · rw [hs] at h; cases h; rfl
  | openedNew hd hf h0 hs hp =>
    have hnil := (I.fresh _ (Nat.le_refl _)).1
    rw [set_fresh hnil] at hd
    refine inv_same I hd (by omega) hp (fun d => by simp [pending, hs, h0]) (fun st h => ?_) fun hw st h => ?_
    · rw [hs] at h
      cases h
      show s.fs.fresh < _
      omega
    · rw [hs] at h
      cases h
      rw [hnil]
      rfl
  | flushed st n h0 hd hf hs hp =>
    have hfile := I.stream st h0
    have hdata : ∀ d, s'.fs.data d = s.fs.data d ++ if d = st.file then (st.pend.take n).map fun c => (true, c) else [] := by
      intro d
      rw [hd]
      exact append_data _ _ _ _ _
    have hpend : ∀ d, pending s d = (if d = st.file then st.pend.take n else []) ++ pending s' d := by
      intro d
      have h1 : pending s d = if st.file = d then st.pend else [] := by unfold pending; rw [h0]
      have h2 : pending s' d = if st.file = d then st.pend.drop n else [] := by
        unfold pending
        rcases hs with hs | ⟨hs, hn⟩
        · rw [hs]; rfl
        · rw [hs, hn]; simp
      rw [h1, h2]
      by_cases e : st.file = d
      · simp [e]
      · simp [e, Ne.symm e]
    have hpc : ∀ d, pieces s' d = pieces s d := fun d => by unfold pieces; rw [hp]
    refine ⟨fun d hd' => ?_, fun st' h' => ?_, fun d => ?_, fun hw st' h' => ?_, fun hw d => ?_, fun hw hh d => ?_⟩
    · rw [hf] at hd'
      obtain ⟨h1, h2⟩ := I.fresh d hd'
      rw [hdata, h1, hpc, if_neg (by omega)]
      exact ⟨rfl, h2⟩
    · rw [hf]
      rcases hs with hs | ⟨hs, -⟩
      · rw [hs] at h'; cases h'; exact hfile
      · rw [hs] at h'; cases h'
    · rw [hpc, ← I.chars d, hpend, hdata, mine_append, List.append_assoc]
      congr 2
      split
      · exact mine_mine _
      · rfl
    · rcases hs with hs | ⟨hs, -⟩
      · rw [hs] at h'; cases h'; rw [hd]; rfl
      · rw [hs] at h'; cases h'
    · rw [hpc, ← I.files hw d, hpend, hdata, List.map_append, List.append_assoc]
      congr 2
      split <;> simp [Function.comp_def]
    · rw [hpc]; exact I.heads hw hh d
  | line st l h0 hh hd hf hs hp =>
    refine inv_put I (ps := [(false, l)]) h0 hd hf (by simpa using hs) (by simpa using hp) fun hw hn => ?_
    have hpc : pieces s' st.file = pieces s st.file ++ [(false, l)] := by rw [pieces_put hp]; simp
    rw [hpc]
    refine .inr ?_
    rcases I.heads hw hn st.file with h1 | ⟨ls, h1⟩
    · refine ⟨[l], ?_⟩
      rw [h1]
      rcases hh with hh | hh
      · simp [hh]
      · have : s₀.fs.data st.file ≠ [] := by
          intro h2
          have h3 := I.files hw st.file
          rw [h1, h2] at h3
          have h4 : pending s st.file = st.pend := by unfold pending; rw [h0]; simp
          rw [h4] at h3
          simp at h3
          apply hh
          unfold tell
          rw [I.pos hw st h0, h3.1, h3.2]
          rfl
        rw [if_neg this]
        rfl
    · exact ⟨ls ++ [l], by rw [h1]; simp⟩
  | header st t l h0 hh hd hf hs hp =>
    refine inv_put I (ps := [(true, t), (false, l)]) h0 hd hf (by simpa using hs) (by simpa using hp) fun hw hn => ?_
    have hpc : pieces s' st.file = pieces s st.file ++ [(true, t), (false, l)] := by rw [pieces_put hp]; simp
    have h2 : s.fs.data st.file = [] ∧ st.pend = [] := by
      have := hh.2
      unfold tell at this
      rw [I.pos hw st h0] at this
      exact ⟨List.length_eq_zero_iff.1 (by omega), List.length_eq_zero_iff.1 (by omega)⟩
    have h3 := I.files hw st.file
    have h4 : pending s st.file = st.pend := by unfold pending; rw [h0]; simp
    rw [h4, h2.1, h2.2] at h3
    have h5 : s₀.fs.data st.file = [] ∧ (pieces s st.file).flatMap (·.2) = [] := by simpa using h3
    rw [hpc]
    refine .inr ⟨[l], ?_⟩
    rcases I.heads hw hn st.file with h1 | ⟨ls, h1⟩
    · rw [h1, h5.1, hh.1]; rfl
    · rw [h1, h5.1, hh.1] at h5
      simp at h5
      exact (hn (by rw [hh.1, h5.1])).elim
  | theirs d n text he hn hd hf hs hp =>
    have hev : ¬ w := fun hw' => hw hw' n text he
    have hdata : ∀ e, s'.fs.data e = s.fs.data e ++ if e = d then text.map fun c => (false, c) else [] := by
      intro e
      rw [hd]
      exact append_data _ _ _ _ _
    have hpc : ∀ d, pieces s' d = pieces s d := fun d => by unfold pieces; rw [hp]
    have hlt := N.below n d hn
    refine ⟨fun e he' => ?_, fun st h' => ?_, fun e => ?_, fun hw => (hev hw).elim, fun hw => (hev hw).elim, fun hw => (hev hw).elim⟩
    · rw [hf] at he'
      rw [hdata, hpc, (I.fresh e he').1, (I.fresh e he').2, if_neg (by omega)]
      exact ⟨rfl, rfl⟩
    · rw [hs] at h'
      rw [hf]
      exact I.stream st h'
    · rw [hdata, hpc, pending_congr hs, mine_append, ← I.chars e]
      congr 1
      split
      · rw [mine_theirs, List.append_nil]
      · exact List.append_nil _

/-! ## Where the logging thread is -/

/-- What goes with the place the logging thread is in. -/
def Shape (s : State) : Prop :=
  match s.pc with
  | .idle => s.stream = none
  | .turn => s.stream ≠ none ∧ s.left ≤ s.queue.length
  | .after => s.stream ≠ none ∧ s.left ≠ 0 ∧ s.left ≤ s.queue.length
  | _ => s.stream = none ∧ s.left ≠ 0 ∧ s.left ≤ s.queue.length

theorem putLine_shape (st : Stream) (line : List Char) (rest : List (List Char)) :
    (putLine cfg s st line rest).pc = .turn ∧ (putLine cfg s st line rest).stream ≠ none ∧
      (putLine cfg s st line rest).left = s.left - 1 ∧ (putLine cfg s st line rest).queue = rest := by
  unfold putLine
  split
  · split <;> simp
  · simp

theorem shape_put {st : Stream} {line : List Char} {rest : List (List Char)} (h : s.left ≤ (line :: rest).length) :
    Shape (putLine cfg s st line rest) := by
  obtain ⟨h1, h2, h3, h4⟩ := putLine_shape (cfg := cfg) (s := s) st line rest
  unfold Shape
  rw [h1]
  refine ⟨h2, ?_⟩
  rw [h3, h4]
  simp only [List.length_cons] at h
  omega

theorem shape_go (I : Shape s) (h : go cfg s = some s') : Shape s' := by
  obtain ⟨-, -, -, m4, -, m6, -, m8, -⟩ := makeDirs_same s
  unfold go at h
  split at h
  · rename_i hpc hst hq
    split at h
    · cases h
      refine ⟨by simp, ?_⟩
      show _ ≤ (makeDirs s).queue.length
      rw [m6, hq]
      exact Nat.le_refl _
    · cases h
      unfold Shape
      rw [m8, hpc, m4]
      exact hst
  · cases h
    exact rfl
  · rename_i hpc hst hl hq
    unfold Shape at I
    rw [hpc] at I
    split at h
    · cases h
      exact ⟨rfl, by rw [hl]; simp, I.2⟩
    · cases h
      exact shape_put (by rw [← hq]; exact I.2)
  · rename_i hpc hst
    unfold Shape at I
    rw [hpc] at I
    split at h
    · cases h; exact I
    · split at h <;> cases h <;> exact I
  · rename_i hpc hst
    unfold Shape at I
    rw [hpc] at I
    cases h; exact I
  · rename_i hpc hst
    unfold Shape at I
    rw [hpc] at I
    split at h <;> cases h
    · exact I
    · exact I.1
  · rename_i hpc hst
    unfold Shape at I
    rw [hpc] at I
    split at h <;> cases h
    · exact ⟨by simp, I.2⟩
    · exact I.1
  · rename_i hpc hst hq
    unfold Shape at I
    rw [hpc] at I
    cases h
    exact shape_put (by rw [← hq]; exact I.2.2)
  · cases h

theorem shape_congr (I : Shape s) (h1 : s'.pc = s.pc) (h2 : s'.stream = none ↔ s.stream = none) (h3 : s'.left = s.left)
    (h4 : s.queue.length ≤ s'.queue.length) : Shape s' := by
  unfold Shape at I ⊢
  rw [h1, h3]
  cases hpc : s.pc <;> rw [hpc] at I <;> simp only [ne_eq, h2] at I ⊢
  · exact I
  · exact ⟨I.1, by omega⟩
  · exact ⟨I.1, I.2.1, by omega⟩
  · exact ⟨I.1, I.2.1, by omega⟩
  · exact ⟨I.1, I.2.1, by omega⟩
  · exact ⟨I.1, I.2.1, by omega⟩

theorem shape_step {ev : Event} (I : Shape s) (h : step cfg s ev = some s') : Shape s' := by
  cases ev with
  | log line => cases h; exact shape_congr I rfl Iff.rfl rfl (by simp)
  | go => exact shape_go I h
  | createDirs x => cases h; exact shape_congr I rfl Iff.rfl rfl (Nat.le_refl _)
  | flush n =>
    simp only [step] at h
    split at h <;> cases h
    rename_i hst
    exact shape_congr I rfl (by simp [hst]) rfl (Nat.le_refl _)
  | move old new =>
    simp only [step] at h
    split at h
    · split at h <;> cases h
      exact shape_congr I rfl Iff.rfl rfl (Nat.le_refl _)
    · cases h
  | remove n =>
    simp only [step] at h
    split at h <;> cases h
    exact shape_congr I rfl Iff.rfl rfl (Nat.le_refl _)
  | create n =>
    simp only [step] at h
    split at h <;> cases h
    exact shape_congr I rfl Iff.rfl rfl (Nat.le_refl _)
  | append n text =>
    simp only [step] at h
    split at h <;> cases h
    exact shape_congr I rfl Iff.rfl rfl (Nat.le_refl _)
  | removeDir => cases h; exact shape_congr I rfl Iff.rfl rfl (Nat.le_refl _)
  | makeDir => cases h; exact shape_congr I rfl Iff.rfl rfl (Nat.le_refl _)

theorem shape_start {s : State} (h : Start s) : Shape s := by
  obtain ⟨-, -, -, h4, h5, -⟩ := h.logger
  unfold Shape
  rw [h4]
  exact h5

/-! ## Nothing is lost -/

/-- Without rotation the logging thread is in one of two places, and files to which it wrote or writes have names. -/
structure Named (s : State) : Prop where
  pc : s.pc = .idle ∨ s.pc = .turn
  wrote : ∀ d, pieces s d ≠ [] → ∃ n, s.fs.entry n = some d
  open_ : ∀ st, s.stream = some st → ∃ n, s.fs.entry n = some st.file

theorem named_keep (I : Named s) (h1 : ∀ d, (∃ n, s.fs.entry n = some d) → ∃ n, s'.fs.entry n = some d) (h2 : s'.pc = s.pc)
    (h3 : s'.put = s.put) (h4 : ∀ st, s'.stream = some st → ∃ st', s.stream = some st' ∧ st'.file = st.file) : Named s' := by
  refine ⟨by rw [h2]; exact I.pc, fun d hd => h1 d (I.wrote d ?_), fun st hst => ?_⟩
  · unfold pieces at hd ⊢; rw [h3] at hd; exact hd
  · obtain ⟨st', h5, h6⟩ := h4 st hst
    rw [← h6]
    exact h1 _ (I.open_ st' h5)

theorem putLine_put (st : Stream) (line : List Char) (rest : List (List Char)) :
    ∃ st' x, (putLine cfg s st line rest).stream = some st' ∧ st'.file = st.file ∧
      (putLine cfg s st line rest).put = s.put ++ x ∧ (∀ y ∈ x, y.1 = st.file) ∧
      x.filter (fun y => !y.2.1) = [(st.file, false, line)] := by
  unfold putLine
  split
  · split
    · exact ⟨_, [_, _], rfl, rfl, rfl, by simp, rfl⟩
    · exact ⟨_, [_], rfl, rfl, rfl, by simp, rfl⟩
  · exact ⟨_, [_], rfl, rfl, rfl, by simp, rfl⟩

theorem create_keeps {fs : Fs} {n : Name} (h : fs.entry n = none) {d : Nat} :
    (∃ m, fs.entry m = some d) → ∃ m, (create fs n).entry m = some d := by
  rintro ⟨m, hm⟩
  refine ⟨m, ?_⟩
  show (if m = n then _ else _) = _
  rw [if_neg (by rintro rfl; rw [h] at hm; cases hm)]
  exact hm

theorem named_go (h0 : cfg.rotationSize = 0) (I : Named s) (h : go cfg s = some s') : Named s' := by
  obtain ⟨m1, -, -, m4, m5, -, -, m8, -⟩ := makeDirs_same s
  unfold go at h
  split at h
  · split at h
    · rename_i ho
      cases h
      refine ⟨.inr rfl, fun d hd => ?_, fun st' h' => ?_⟩
      · have : pieces s d ≠ [] := by unfold pieces at hd ⊢; rw [← m5]; exact hd
        have := I.wrote d this
        rw [← m1] at this
        rcases openFile_cases ho with ⟨d', h1, rfl, rfl⟩ | ⟨h1, h2, rfl, rfl⟩
        · exact this
        · exact create_keeps h1 this
      · cases h'
        rcases openFile_cases ho with ⟨d', h1, rfl, rfl⟩ | ⟨h1, h2, rfl, rfl⟩
        · exact ⟨_, h1⟩
        · exact ⟨.own 0, by simp [create, link]⟩
    · cases h
      refine named_keep I (fun d h => by rw [m1]; exact h) m8 m5 fun st h => ⟨st, by rw [← m4]; exact h, rfl⟩
  · cases h
    exact ⟨.inl rfl, I.wrote, fun _ h => by cases h⟩
  · rename_i st _ line rest _ hst _ _
    simp only [h0, ne_eq, not_true, false_and, if_false] at h
    cases h
    obtain ⟨st', x, h1, h2, h3, h4, -⟩ := putLine_put (cfg := cfg) (s := s) st line rest
    have hfs := putLine_fs (cfg := cfg) (s := s) st line rest
    refine ⟨.inr (putLine_shape _ _ _).1, fun d hd => ?_, fun st'' h' => ?_⟩
    · rw [hfs]
      rw [pieces_put h3] at hd
      by_cases e : pieces s d = []
      · rw [e] at hd
        obtain ⟨y, hy⟩ := List.exists_mem_of_ne_nil _ hd
        simp only [List.nil_append, List.mem_map, List.mem_filter, decide_eq_true_eq] at hy
        obtain ⟨z, ⟨hz, rfl⟩, -⟩ := hy
        rw [h4 z hz]
        exact I.open_ _ hst
      · exact I.wrote d e
    · rw [hfs]
      rw [h1] at h'
      cases h'
      rw [h2]
      exact I.open_ _ hst
  · rename_i hpc _
    rcases I.pc with h | h <;> rw [h] at hpc <;> cases hpc
  · rename_i hpc _
    rcases I.pc with h | h <;> rw [h] at hpc <;> cases hpc
  · rename_i hpc _
    rcases I.pc with h | h <;> rw [h] at hpc <;> cases hpc
  · rename_i hpc _
    rcases I.pc with h | h <;> rw [h] at hpc <;> cases hpc
  · rename_i hpc _ _
    rcases I.pc with h | h <;> rw [h] at hpc <;> cases hpc
  · cases h

theorem named_step (h0 : cfg.rotationSize = 0) {ev : Event} (I : Named s) (hok : NoRemove s ev) (h : step cfg s ev = some s') :
    Named s' := by
  cases ev with
  | log line => cases h; exact named_keep I (fun _ h => h) rfl rfl fun st h => ⟨st, h, rfl⟩
  | go => exact named_go h0 I h
  | createDirs x => cases h; exact named_keep I (fun _ h => h) rfl rfl fun st h => ⟨st, h, rfl⟩
  | flush n =>
    simp only [step] at h
    split at h <;> cases h
    rename_i st hst
    refine named_keep I (fun _ h => h) rfl rfl fun st' h => ?_
    cases h
    exact ⟨st, hst, rfl⟩
  | move old new =>
    simp only [step] at h
    split at h
    · rename_i d hd
      split at h <;> cases h
      rename_i hc
      refine named_keep I (fun e => ?_) rfl rfl fun st h => ⟨st, h, rfl⟩
      rintro ⟨n, hn⟩
      have hok : s.fs.entry new = none := hok
      by_cases e1 : n = old
      · subst e1
        rw [hd] at hn
        refine ⟨new, ?_⟩
        simp only [link_entry, if_pos]
        exact hn
      · refine ⟨n, ?_⟩
        have e2 : n ≠ new := by rintro rfl; rw [hok] at hn; cases hn
        simp only [link_entry, e1, e2, if_false]
        exact hn
    · cases h
  | remove n => exact hok.elim
  | create n =>
    simp only [step] at h
    split at h <;> cases h
    rename_i hc
    exact named_keep I (fun d h => create_keeps hc.1 h) rfl rfl fun st h => ⟨st, h, rfl⟩
  | append n text =>
    simp only [step] at h
    split at h <;> cases h
    exact named_keep I (fun _ h => h) rfl rfl fun st h => ⟨st, h, rfl⟩
  | removeDir => exact hok.elim
  | makeDir => cases h; exact named_keep I (fun _ h => h) rfl rfl fun st h => ⟨st, h, rfl⟩

theorem named_start {s : State} (h : Start s) : Named s := by
  obtain ⟨-, -, -, h4, h5, h6, -⟩ := h.logger
  refine ⟨.inl h4, fun d hd => ?_, fun st h => by rw [h5] at h; cases h⟩
  unfold pieces at hd
  rw [h6] at hd
  exact (hd rfl).elim

/-! ## No directory -/

/-- The directory has been removed, and the logger has created it once. -/
structure Stuck (s : State) : Prop where
  created : s.dirsCreated = true
  gone : s.fs.there = false
  none_ : ∀ k, s.fs.entry (.own k) = none
  closed : s.stream = none

theorem stuck_keep (I : Stuck s) (h1 : s'.dirsCreated = s.dirsCreated) (h2 : s'.fs = s.fs) (h3 : s'.stream = s.stream) : Stuck s' :=
  ⟨by rw [h1]; exact I.created, by rw [h2]; exact I.gone, by rw [h2]; exact I.none_, by rw [h3]; exact I.closed⟩

theorem stuck_step {ev : Event} (I : Stuck s) (hok : NoMakeDir s ev) (h : step cfg s ev = some s') : Stuck s' ∧ s'.put = s.put := by
  cases ev with
  | log line => cases h; exact ⟨stuck_keep I rfl rfl rfl, rfl⟩
  | go =>
    have hm : makeDirs s = s := by
      unfold makeDirs
      rw [I.created]
      simp
    have ho : openFile s.fs = none := by
      unfold openFile
      rw [I.none_, I.gone]
      rfl
    simp only [step] at h
    unfold go at h
    rw [hm, ho] at h
    split at h
    · cases h; exact ⟨I, rfl⟩
    · rename_i hst _
      rw [I.closed] at hst; cases hst
    · rename_i hst _ _
      rw [I.closed] at hst; cases hst
    · rw [I.none_, if_pos rfl] at h
      cases h
      exact ⟨stuck_keep I rfl rfl rfl, rfl⟩
    · cases h; exact ⟨stuck_keep I rfl rfl rfl, rfl⟩
    · rw [I.none_] at h
      cases h; exact ⟨stuck_keep I rfl rfl rfl, rfl⟩
    · cases h; exact ⟨stuck_keep I rfl rfl rfl, rfl⟩
    · rename_i hst _
      rw [I.closed] at hst; cases hst
    · cases h
  | createDirs x => cases h; exact ⟨stuck_keep I rfl rfl rfl, rfl⟩
  | flush n =>
    simp only [step, I.closed] at h
    cases h
  | move old new =>
    simp only [step] at h
    split at h
    · rename_i d hd
      split at h <;> cases h
      rename_i hc
      refine ⟨⟨I.created, I.gone, fun k => ?_, I.closed⟩, rfl⟩
      cases new with
      | own j => exact absurd hc.2 (by simp [possible, I.gone])
      | other j =>
        simp only [link_entry, I.none_ k]
        simp
    · cases h
  | remove n =>
    simp only [step] at h
    split at h <;> cases h
    refine ⟨⟨I.created, I.gone, fun k => ?_, I.closed⟩, rfl⟩
    simp only [link_entry, I.none_ k]
    simp
  | create n =>
    simp only [step] at h
    split at h <;> cases h
    rename_i hc
    cases n with
    | own j => exact absurd hc.2 (by simp [possible, I.gone])
    | other j =>
      refine ⟨⟨I.created, I.gone, fun k => ?_, I.closed⟩, rfl⟩
      simp only [create, link_entry, I.none_ k]
      simp
  | append n text =>
    simp only [step] at h
    split at h <;> cases h
    exact ⟨⟨I.created, I.gone, I.none_, I.closed⟩, rfl⟩
  | removeDir => cases h; exact ⟨⟨I.created, rfl, fun _ => rfl, I.closed⟩, rfl⟩
  | makeDir => exact (hok rfl).elim

theorem outside_pc (h0 : cfg.rotationSize = 0) {ev : Event} (I : s.pc = .idle ∨ s.pc = .turn) (h : step cfg s ev = some s') :
    s'.pc = .idle ∨ s'.pc = .turn := by
  cases ev with
  | go =>
    simp only [step] at h
    unfold go at h
    split at h
    · rename_i hpc _ _
      split at h <;> cases h
      · exact .inr rfl
      · rw [(makeDirs_same s).2.2.2.2.2.2.2.1]; exact .inl hpc
    · cases h; exact .inl rfl
    · simp only [h0, ne_eq, not_true, false_and, if_false] at h
      cases h
      exact .inr (putLine_shape _ _ _).1
    · rename_i hpc _
      rcases I with h | h <;> rw [h] at hpc <;> cases hpc
    · rename_i hpc _
      rcases I with h | h <;> rw [h] at hpc <;> cases hpc
    · rename_i hpc _
      rcases I with h | h <;> rw [h] at hpc <;> cases hpc
    · rename_i hpc _
      rcases I with h | h <;> rw [h] at hpc <;> cases hpc
    · rename_i hpc _ _
      rcases I with h | h <;> rw [h] at hpc <;> cases hpc
    · cases h
  | log line => cases h; exact I
  | createDirs x => cases h; exact I
  | flush n =>
    simp only [step] at h
    split at h <;> cases h
    exact I
  | move old new =>
    simp only [step] at h
    split at h
    · split at h <;> cases h
      exact I
    · cases h
  | remove n =>
    simp only [step] at h
    split at h <;> cases h
    exact I
  | create n =>
    simp only [step] at h
    split at h <;> cases h
    exact I
  | append n text =>
    simp only [step] at h
    split at h <;> cases h
    exact I
  | removeDir => cases h; exact I
  | makeDir => cases h; exact I

end

end Pluto.LogOutside
