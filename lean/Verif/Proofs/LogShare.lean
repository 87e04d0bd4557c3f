import Verif.Spec.LogShare

/-! # Proofs about several loggers that write to the same file -/

namespace Pluto.LogShare

theorem by_append (i : Nat) (a b : List (Nat × Char)) : by' i (a ++ b) = by' i a ++ by' i b := by simp [by']

theorem by_same (i : Nat) (l : List Char) : by' i (l.map fun c => (i, c)) = l := by
  induction l with
  | nil => rfl
  | cons a l ih => unfold by' at ih ⊢; simpa using ih

theorem by_other {i j : Nat} (h : j ≠ i) (l : List Char) : by' j (l.map fun c => (i, c)) = [] := by
  induction l with
  | nil => rfl
  | cons a l ih => unfold by' at ih ⊢; simp [Ne.symm h]

theorem set_same {α : Type} (g : Nat → α) (x : Nat) (v : α) : set g x v x = v := by simp [set]
theorem set_other {α : Type} (g : Nat → α) {x y : Nat} (v : α) (h : y ≠ x) : set g x v y = g y := by simp [set, h]

theorem pieces_append (i : Nat) (a b : List (Nat × List Char)) : pieces i (a ++ b) = pieces i a ++ pieces i b := by simp [pieces]

theorem pieces_same (i : Nat) (ps : List (List Char)) : pieces i (ps.map fun p => (i, p)) = ps := by
  induction ps with
  | nil => rfl
  | cons a l ih => unfold pieces at ih ⊢; simpa using ih

theorem pieces_other {i j : Nat} (h : j ≠ i) (ps : List (List Char)) : pieces j (ps.map fun p => (i, p)) = [] := by
  induction ps with
  | nil => rfl
  | cons a l ih => unfold pieces at ih ⊢; simp [Ne.symm h]

theorem whole_append {i : Nat} {c : List (Nat × Char)} {ls : List (Nat × List Char)} (h : Whole c ls) (ps : List (List Char)) :
    Whole (c ++ ps.flatten.map fun a => (i, a)) (ls ++ ps.map fun p => (i, p)) := by
  unfold Whole at h ⊢
  rw [List.flatMap_append, ← h]
  congr 1
  induction ps with
  | nil => rfl
  | cons a l ih => simp [ih]

/-- What is written of the buffers, in pieces. -/
def InPieces (s : State) (new : List (Nat × Char)) : Prop :=
  ∃ ls, Whole new ls ∧ ∀ i, ∃ ps, texts s i = pieces i ls ++ ps ∧ pending s i = ps.flatten

structure Inv (w : Prop) (old : List (Nat × Char)) (s : State) (new : List (Nat × Char)) : Prop where
  pc : ∀ i, ((s.loggers i).pc = .idle ∧ (s.loggers i).stream = none) ∨
    ((s.loggers i).pc = .turn ∧ ∃ st, (s.loggers i).stream = some st ∧ s.fs.dir 0 = some st.file)
  file : contents s.fs 0 = old ++ new
  chars : ∀ i, by' i new ++ pending s i = (texts s i).flatten
  lines : ∀ i, lines s i ++ (s.loggers i).queue = (s.loggers i).logged
  whole : w → InPieces s new

section
variable {w : Prop} {old new : List (Nat × Char)} {s : State} {i : Nat}

theorem Inv.start {s : State} (h : Start s) : Inv w (contents s.fs 0) s [] := by
  have hp : ∀ i, pending s i = [] := fun i => by unfold pending; rw [h.2 i]
  refine ⟨fun i => .inl (by rw [h.2 i]; exact ⟨rfl, rfl⟩), by simp, ?_, ?_, fun _ => ⟨[], rfl, fun i => ⟨[], ?_, by simp [hp]⟩⟩⟩
  · intro i; unfold texts; rw [hp, h.2 i]; rfl
  · intro i; unfold LogShare.lines; rw [h.2 i]; rfl
  · unfold texts; rw [h.2 i]; rfl

theorem pending_set_other {fs : Fs} {j : Nat} {l : Logger} (h : j ≠ i) :
    pending { fs := fs, loggers := set s.loggers i l } j = pending s j := by
  unfold pending; simp only [set_other _ _ h]

theorem pending_set_same {fs : Fs} {l : Logger} :
    pending { fs := fs, loggers := set s.loggers i l } i = match l.stream with | some st => st.pend | none => [] := by
  unfold pending; simp only [set_same]; cases l.stream <;> rfl

/-- Logger `i` changes; `text` is written to the file, `ps` is put into the stream. -/
theorem Inv.update (I : Inv w old s new) {fs : Fs} {l : Logger} {text : List Char} {ps : List (Bool × List Char)} (hdir : s.fs.dir 0 = none ∨ fs.dir 0 = s.fs.dir 0)
    (hfile : contents fs 0 = contents s.fs 0 ++ text.map fun c => (i, c))
    (hpc : (l.pc = .idle ∧ l.stream = none) ∨ (l.pc = .turn ∧ ∃ st, l.stream = some st ∧ fs.dir 0 = some st.file))
    (hput : l.put = (s.loggers i).put ++ ps)
    {ml : List (List Char)} (hlog : l.logged = (s.loggers i).logged ++ ml)
    (hline : (ps.filter fun x => !x.1).map (·.2) ++ l.queue = (s.loggers i).queue ++ ml)
    (hpend : text ++ pending { fs := fs, loggers := set s.loggers i l } i = pending s i ++ (ps.map (·.2)).flatten)
    (hw : w → text = [] ∨ (ps = [] ∧ text = pending s i)) :
    Inv w old { fs := fs, loggers := set s.loggers i l } (new ++ text.map fun c => (i, c)) := by
  refine ⟨?_, ?_, ?_, ?_, ?_⟩
  · intro j
    by_cases e : j = i
    · subst e
      simp only [set_same]
      exact hpc
    · simp only [set_other _ _ e]
      rcases I.pc j with h | ⟨h1, st, h2, h3⟩
      · exact .inl h
      · refine .inr ⟨h1, st, h2, ?_⟩
        rcases hdir with h | h
        · rw [h] at h3; cases h3
        · rw [h]; exact h3
  · simp only [hfile, I.file, List.append_assoc]
  · intro j
    by_cases e : j = i
    · subst e
      simp only [by_append, by_same, List.append_assoc, hpend]
      rw [← List.append_assoc, I.chars j]
      simp only [texts, set_same, hput, List.map_append, List.flatten_append]
    · simp only [by_append, by_other e, List.append_nil, texts, set_other _ _ e, pending_set_other e]
      exact I.chars j
  · intro j
    by_cases e : j = i
    · subst e
      simp only [LogShare.lines, set_same, hput, hlog, List.filter_append, List.map_append, List.append_assoc, hline]
      rw [← I.lines j, List.append_assoc]
      rfl
    · simp only [LogShare.lines, set_other _ _ e]
      exact I.lines j
  · intro hw'
    obtain ⟨ls, h1, h2⟩ := I.whole hw'
    rcases hw hw' with ht | ⟨hps, ht⟩
    · subst ht
      refine ⟨ls, by simpa using h1, ?_⟩
      intro j
      obtain ⟨qs, h3, h4⟩ := h2 j
      by_cases e : j = i
      · subst e
        refine ⟨qs ++ ps.map (·.2), ?_, ?_⟩
        · unfold texts at h3 ⊢
          simp only [set_same, hput, h3, List.map_append, List.append_assoc]
        · rw [List.nil_append] at hpend
          rw [hpend, h4, List.flatten_append]
      · refine ⟨qs, ?_, ?_⟩
        · unfold texts at h3 ⊢; simp only [set_other _ _ e]; exact h3
        · rw [pending_set_other e]; exact h4
    · subst hps
      obtain ⟨qs, h3, h4⟩ := h2 i
      have hnil : pending { fs := fs, loggers := set s.loggers i l } i = [] := by
        rw [ht] at hpend
        simpa using hpend
      refine ⟨ls ++ qs.map fun p => (i, p), ?_, ?_⟩
      · rw [ht, h4]
        exact whole_append h1 qs
      · intro j
        by_cases e : j = i
        · subst e
          refine ⟨[], ?_, by rw [hnil]; rfl⟩
          unfold texts at h3 ⊢
          simp only [set_same, hput, h3, pieces_append, pieces_same, List.append_nil]
        · obtain ⟨rs, h5, h6⟩ := h2 j
          refine ⟨rs, ?_, ?_⟩
          · unfold texts at h5 ⊢
            simp only [set_other _ _ e, pieces_append, pieces_other e, List.append_nil]
            exact h5
          · rw [pending_set_other e]; exact h6

theorem contents_append {fs : Fs} {d : Nat} {text : List Char} (hd : fs.dir 0 = some d) :
    contents (append fs i d text) 0 = contents fs 0 ++ text.map fun c => (i, c) := by
  unfold contents append
  simp only [hd, set_same]

theorem openFile_spec (fs : Fs) : (fs.dir 0 = none ∨ (openFile fs).1.dir 0 = fs.dir 0) ∧ contents (openFile fs).1 0 = contents fs 0 ∧
    (openFile fs).1.dir 0 = some (openFile fs).2.file ∧ (openFile fs).2.pend = [] := by
  unfold openFile contents
  cases h : fs.dir 0 with
  | some d => simp [h]
  | none => simp [set_same]

theorem putLine_spec (cfg : Config) (l : Logger) (st : Stream) (line : List Char) (rest : List (List Char)) :
    (putLine cfg l st line rest).pc = .turn ∧ ∃ st' ps, (putLine cfg l st line rest).stream = some st' ∧ st'.file = st.file ∧
      (putLine cfg l st line rest).put = l.put ++ ps ∧ st'.pend = st.pend ++ (ps.map (·.2)).flatten ∧
      (putLine cfg l st line rest).logged = l.logged ∧
      (ps.filter fun x => !x.1).map (·.2) ++ (putLine cfg l st line rest).queue = line :: rest := by
  unfold putLine
  split
  · split
    · exact ⟨rfl, _, [_, _], rfl, rfl, rfl, by simp, rfl, rfl⟩
    · exact ⟨rfl, _, [_], rfl, rfl, rfl, by simp, rfl, rfl⟩
  · exact ⟨rfl, _, [_], rfl, rfl, rfl, by simp, rfl, rfl⟩

theorem Inv.step (I : Inv w old s new) {cfg : Config} (h0 : cfg.rotationSize = 0) {ev : Event} {s' : State} (hs : step cfg s ev = some s')
    (hw : w → FlushAll s ev) : ∃ new', Inv w old s' (new ++ new') := by
  cases ev with
  | log i line =>
    simp only [LogShare.step] at hs
    cases hs
    refine ⟨_, I.update (i := i) (text := []) (ps := []) (ml := [line]) (.inr rfl) (by simp) (I.pc i) (by simp) rfl rfl ?_
      (fun _ => .inl rfl)⟩
    rw [pending_set_same]
    unfold pending
    cases (s.loggers i).stream <;> simp
  | flush i n =>
    simp only [LogShare.step] at hs
    cases hst : (s.loggers i).stream with
    | none => rw [hst] at hs; cases hs
    | some st =>
      rw [hst] at hs
      cases hs
      have hpd : pending s i = st.pend := by unfold pending; rw [hst]
      rcases I.pc i with ⟨_, h⟩ | ⟨h1, st', h2, h3⟩
      · rw [hst] at h; cases h
      · rw [hst] at h2
        cases h2
        refine ⟨_, I.update (i := i) (text := st.pend.take n) (ps := []) (.inr rfl) (contents_append h3)
          (.inr ⟨h1, _, rfl, h3⟩) (by simp) (ml := []) (by simp) (by simp) ?_ ?_⟩
        · rw [pending_set_same]
          simp [hpd, flush]
        · intro hw'
          refine .inr ⟨rfl, ?_⟩
          have := hw hw' i n rfl
          rw [hpd] at this ⊢
          exact List.take_of_length_le this
  | go i =>
    simp only [LogShare.step] at hs
    split at hs
    · rename_i fs l hg
      cases hs
      unfold go at hg
      rcases I.pc i with ⟨h1, h2⟩ | ⟨h1, st, h2, h3⟩
      · have hpd : pending s i = [] := by unfold pending; rw [h2]
        rw [h1, h2] at hg
        cases hq : (s.loggers i).queue with
        | nil => rw [hq] at hg; cases hg
        | cons a q =>
          rw [hq] at hg
          cases hg
          obtain ⟨o1, o2, o3, o4⟩ := openFile_spec s.fs
          refine ⟨_, I.update (i := i) (text := []) (ps := []) o1 (by simp [o2]) (.inr ⟨rfl, _, rfl, o3⟩) (by simp) (ml := []) (by simp)
            (by simp [hq]) ?_ (fun _ => .inl rfl)⟩
          rw [pending_set_same]
          simp [hpd, o4]
      · have hpd : pending s i = st.pend := by unfold pending; rw [h2]
        rw [h1, h2] at hg
        cases hq : (s.loggers i).queue with
        | nil =>
          rw [hq] at hg
          cases hg
          refine ⟨_, I.update (i := i) (text := st.pend) (ps := []) (.inr rfl) (by
            have := contents_append (i := i) (text := st.pend.take st.pend.length) h3
            rw [List.take_length] at this
            simpa [flush] using this) (.inl ⟨rfl, rfl⟩) (by simp) (ml := []) (by simp) (by simp [hq]) ?_ (fun _ => .inr ⟨rfl, hpd.symm⟩)⟩
          rw [pending_set_same]
          simp [hpd]
        | cons a q =>
          rw [hq] at hg
          simp only [h0, ne_eq, not_true, false_and, if_false] at hg
          cases hg
          obtain ⟨p1, st', ps, p2, p3, p4, p5, p6, p7⟩ := putLine_spec cfg (s.loggers i) st a q
          refine ⟨_, I.update (i := i) (text := []) (ps := ps) (.inr rfl) (by simp) (.inr ⟨p1, st', p2, by rw [p3]; exact h3⟩) p4
            (ml := []) (by simp [p6]) (by rw [p7, hq]; simp) ?_
            (fun _ => .inl rfl)⟩
          rw [pending_set_same]
          simp [p2, p5, hpd]
    · cases hs

theorem inv_reachable {cfg : Config} (h0 : cfg.rotationSize = 0) {ok : State → Event → Prop} {s₀ : State} (h : Start s₀)
    (hok : w → ∀ s ev, ok s ev → FlushAll s ev) (hr : Reachable cfg ok s₀ s) : ∃ new, Inv w (contents s₀.fs 0) s new := by
  induction hr with
  | init => exact ⟨[], Inv.start h⟩
  | step ev _ ho hs ih =>
    obtain ⟨new, I⟩ := ih
    obtain ⟨new', I⟩ := I.step h0 hs (fun hw => hok hw _ ev ho)
    exact ⟨_, I⟩

end

end Pluto.LogShare
