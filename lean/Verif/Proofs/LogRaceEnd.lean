import Verif.Proofs.LogRaceMain

/-! # No data race, and what the destructor leaves -/

namespace Pluto.LogRace

section
variable {nf : Prop} {s : State} {u h : File → List Nat} {i j : Nat} {st t : List Frame}

/-- What the logging thread accesses without holding a mutex. -/
inductive Walk (s : State) (u h : File → List Nat) (st : List Frame) : Loc → Bool → Prop where
  | key (f) : f ∈ s.sh.files → Walk s u h st (.key f) false
  | path (f w) : f ∈ s.sh.files → Walk s u h st (.path f) w
  | dirs (f w) : f ∈ s.sh.files → Walk s u h st (.dirs f) w
  | back (f b it k) : st = .put f b it .back :: k → Walk s u h st (.prev f it) false
  | val (f it) : f ∈ s.sh.files → it ∈ u f ++ h f → Walk s u h st (.val f it) false

/-- Why a thread may make an access. -/
inductive Why (s : State) (u h : File → List Nat) (i : Nat) (st : List Frame) : Loc → Bool → Prop where
  | lock (l w fr k) : st = fr :: k → locked st = true → (l, w) ∈ frameAccesses s.sh fr → Why s u h i st l w
  | cfg (v w) : cfgLocked st = true → Why s u h i st (.writer v) w
  | walk (l w) : role s i = .logger → Walk s u h st l w → Why s u h i st l w
  | thread (w) : i = 0 ∨ role s i = .dtor → Why s u h i st .thread w

theorem Inv.put_role (I : Inv nf s u h) {f : File} {b it : Nat} {pc : Put} (hi : s.threads[i]? = some st) (hm : Frame.put f b it pc ∈ st)
    (hj : s.sh.joined = false) : role s i = .logger := by
  have ho := I.thr i _ hi
  clear hi
  generalize role s i = r at ho ⊢
  induction ho with
  | nil => cases hm
  | maker | user | loop | dtor => simp at hm
  | put r f b it pc k hb hp =>
    cases hb with
    | loop => rfl
    | dtor _ rest hr => rw [hr.2.1] at hj; cases hj
  | writer r f b it pc k h1 _ ih | cfgPut r w a pc f b it pc' k h1 _ ih =>
    cases h1 with
    | put r f b it pc k hb hp =>
      cases hb with
      | loop => rfl
      | dtor _ rest hr => rw [hr.2.1] at hj; cases hj
  | add r f e pc k h1 _ _ ih | cfgUser r w a pc k h1 ih =>
    rcases List.mem_cons.1 hm with e | hm
    · cases e
    · exact ih hm

theorem Inv.why (I : Inv nf s u h) (hi : s.threads[i]? = some st) (hj : s.sh.joined = false) {l : Loc} {w : Bool} (ha : (l, w) ∈ accesses s.sh st) :
    Why s u h i st l w := by
  cases st with
  | nil => cases ha
  | cons fr k =>
    rcases List.mem_append.1 ha with ha | ha
    · cases fr with
      | user => cases ha
      | maker =>
        simp only [frameAccesses, List.mem_singleton] at ha
        cases ha
        refine .thread _ (.inl ?_)
        have ho := I.thr i _ hi
        generalize hr : role s i = r at ho
        cases ho
        unfold role at hr
        split at hr
        · assumption
        · split at hr
          · cases hr
          · split at hr <;> cases hr
      | cfg v a pc =>
        cases pc <;> simp only [frameAccesses, List.mem_singleton, List.not_mem_nil] at ha
        cases ha
        exact .cfg _ _ rfl
      | add f e pc =>
        refine .lock _ _ _ _ rfl ?_ ha
        cases pc <;> first | rfl | (cases ha; done)
      | loop pc =>
        refine .lock _ _ _ _ rfl ?_ ha
        cases pc <;> first | rfl | (cases ha; done)
      | put f b it pc =>
        have hr := I.put_role hi (f := f) (b := b) (it := it) (pc := pc) (by simp) hj
        obtain ⟨_, hf', w, x, e1, e2, e3, e4⟩ := I.put_ok hi
        refine .walk _ _ hr ?_
        cases pc with
        | test | header | headCall | headDone | copy | done => cases ha
        | path =>
          simp only [frameAccesses, List.mem_cons, List.not_mem_nil, or_false] at ha
          rcases ha with e | e <;> cases e
          · exact .key _ hf'
          · exact .path _ _ hf'
        | dirs =>
          simp only [frameAccesses, List.mem_cons, List.not_mem_nil, or_false] at ha
          rcases ha with e | e <;> cases e
          · exact .path _ _ hf'
          · exact .dirs _ _ hf'
        | opens | rotate =>
          simp only [frameAccesses, List.mem_singleton] at ha
          cases ha
          exact .path _ _ hf'
        | back =>
          simp only [frameAccesses, List.mem_singleton] at ha
          cases ha
          exact .back _ _ _ _ rfl
        | give =>
          simp only [frameAccesses, List.mem_singleton] at ha
          cases ha
          obtain ⟨x', rfl⟩ := e4
          exact .val _ _ hf' (by rw [e1]; simp)
      | dtor pc =>
        obtain ⟨hr, hk⟩ := I.dtor_ok hi
        cases pc with
        | stop => cases ha
        | join => simp only [frameAccesses, List.mem_singleton] at ha; cases ha; exact .thread _ (.inr hr)
        | list => rw [hk.2.1] at hj; cases hj
        | scan rest => rw [hk.2.1] at hj; cases hj
        | check f rest => rw [hk.2.1] at hj; cases hj
        | begin f rest => rw [hk.1.2.1] at hj; cases hj
    · obtain ⟨fr', hfr, ha⟩ := List.mem_flatMap.1 ha
      obtain ⟨f, b, it, rfl, e⟩ := mem_lent ha
      cases e
      obtain ⟨hf', hm⟩ := I.lent_ok hi (List.mem_cons_of_mem _ hfr)
      exact .walk _ _ (I.put_role hi (List.mem_cons_of_mem _ hfr) hj) (.val _ _ hf' hm)

/-- What is protected by `m_loggingMutex` are not the writers, and not the thread. -/
theorem locked_loc {fr : Frame} {k : List Frame} {l : Loc} {w : Bool} (hl : locked (fr :: k) = true) (ha : (l, w) ∈ frameAccesses s.sh fr) :
    l ≠ .thread ∧ ∀ v, l ≠ .writer v := by
  cases fr with
  | user | maker | cfg | put | dtor => cases hl
  | add f e pc =>
    cases pc <;> simp only [frameAccesses, List.mem_cons, List.mem_map, List.not_mem_nil, or_false] at ha
    case find =>
      rcases ha with e | ⟨g, _, e⟩ <;> cases e <;> simp
    case insert => rcases ha with e | e | e | e | e | e | e <;> cases e <;> simp
    case node => rcases ha with e | e | e <;> cases e <;> simp
    case link => rcases ha with e | e | e <;> cases e <;> simp
    case hook1 => rcases ha with e | e <;> cases e <;> simp
    all_goals cases ha <;> simp
  | loop pc =>
    cases pc <;> simp only [frameAccesses, List.mem_cons, List.not_mem_nil, or_false] at ha
    case check => rcases ha with e | e <;> cases e <;> simp
    case erase => split at ha <;> simp at ha; rw [ha.1]; simp
    case unhook1 => rcases ha with e | e | e <;> cases e <;> simp
    case free => rcases ha with e | e | e | e <;> cases e <;> simp
    all_goals cases ha <;> simp

/-- A function that adds an entry and the logging thread outside of its mutex. -/
theorem Inv.no_race_walk (I : Inv nf s u h) (hi : s.threads[i]? = some st) (hj : s.threads[j]? = some t) (hij : i ≠ j) {fr : Frame} {k : List Frame}
    (e : st = fr :: k) (hl : locked st = true) {l : Loc} {w v : Bool} (ha : (l, w) ∈ frameAccesses s.sh fr) (hr : role s j = .logger)
    (hw : Walk s u h t l v) : w = false ∧ v = false := by
  subst e
  have G := I.glob
  cases fr with
  | user | maker | cfg | put | dtor => cases hl
  | loop pc =>
    obtain ⟨_, _, hi1, _⟩ := I.loop_ok hi
    exact (hij (hi1.trans (role_logger hr).symm)).elim
  | add f e pc =>
    have hk := I.add_ok hi
    have hfs : ∀ {g n}, n ∈ u g ++ h g → n ≠ s.sh.fresh := fun hm e => Nat.lt_irrefl _ (e ▸ (G.node _ _ hm).2.1)
    cases pc with
    | test | lock | unlock => cases ha
    | find =>
      simp only [frameAccesses, List.mem_cons, List.mem_map] at ha
      rcases ha with e | ⟨g, _, e⟩ <;> cases e <;> cases hw
      exact ⟨rfl, rfl⟩
    | insert =>
      have hk : f ∉ s.sh.files := hk
      simp only [frameAccesses, List.mem_cons, List.not_mem_nil, or_false] at ha
      rcases ha with e | e | e | e | e | e | e <;> cases e <;> cases hw
      · contradiction
      · contradiction
      · contradiction
      · rename_i b k' e
        subst e
        exact (hk (I.put_ok hj).2.1).elim
    | full | flush | grow | begin =>
      simp only [frameAccesses, List.mem_singleton] at ha
      cases ha
      cases hw
    | node b =>
      simp only [frameAccesses, List.mem_cons, List.not_mem_nil, or_false] at ha
      rcases ha with e | e | e <;> cases e <;> cases hw
      · rename_i hm
        exact (hfs hm rfl).elim
      · rename_i b k' e
        subst e
        obtain ⟨_, _, w, x, _, _, _, e4⟩ := I.put_ok hj
        have e5 := e4.1
        rcases headD_mem_or (l := h f) with hm | hm
        · rw [← e5] at hm
          exact (hfs (List.mem_append_right _ hm) rfl).elim
        · rw [hm] at e5
          have := G.fresh
          rw [e5] at this
          cases this
    | link b n =>
      obtain ⟨_, _, k3, k4, _, _⟩ := hk
      simp only [frameAccesses, List.mem_cons, List.not_mem_nil, or_false] at ha
      rcases ha with e | e | e <;> cases e <;> cases hw
      · exact ⟨rfl, rfl⟩
      · rename_i b' k' e
        subst e
        obtain ⟨_, _, w, x, _, _, _, e4⟩ := I.put_ok hj
        have e5 := e4.1
        rcases headD_mem_or (l := h f) with hm | hm
        · rw [← e5] at hm
          exact (k3 (List.mem_append_right _ hm)).elim
        · rw [hm] at e5
          rw [e5] at k4
          cases k4
    | hook1 b n p =>
      simp only [frameAccesses, List.mem_cons, List.not_mem_nil, or_false] at ha
      rcases ha with e | e <;> cases e <;> cases hw
      exact ⟨rfl, rfl⟩
    | hook2 b n =>
      obtain ⟨_, q, k3, k4⟩ := hk
      simp only [frameAccesses, List.mem_singleton] at ha
      cases ha
      cases hw
      rename_i b' k' e
      subst e
      obtain ⟨_, _, w, x, e1, e2, _, e4⟩ := I.put_ok hj
      have hpn : pending (hf s) = some (f, n) := by
        rw [hf_self hi ((I.lock i).2 ⟨_, hi, hl⟩)]; rfl
      have hne := I.pend f n hpn j _ b' b .back hj (by simp)
      have hx : x = x.dropLast ++ [x.getLast e4.2] := (List.dropLast_concat_getLast e4.2).symm
      rw [hx] at e1 e2
      exact (I.back_ne e1 e2 e4.1 k3 k4 hne rfl).elim

theorem Inv.no_race (I : Inv nf s u h) {l : Loc} : ¬ Race s i j l := by
  rintro ⟨hij, st, t, w, v, hi, hj, ha, hb, hwv⟩
  have hsi : st ≠ [] := by rintro rfl; cases ha
  have hsj : t ≠ [] := by rintro rfl; cases hb
  cases hjo : s.sh.joined with
  | true =>
    have h1 := role_dtor (I.active hi hsi hjo)
    have h2 := role_dtor (I.active hj hsj hjo)
    rw [h1] at h2
    cases h2
    exact hij rfl
  | false =>
    have hno : ¬ (w = false ∧ v = false) := by
      rintro ⟨rfl, rfl⟩
      rcases hwv with e | e <;> cases e
    have hthr : ∀ {i j st}, i ≠ j → s.threads[i]? = some st → st ≠ [] → i = 0 → role s j = .dtor → False := by
      intro i j st h1 h2 h3 h4 h5
      have hd := role_dtor h5
      exact h3 ((I.fin j hd).2.2 i st h2 (by omega) h1)
    have h1 := I.why hi hjo ha
    have h2 := I.why hj hjo hb
    cases h1 with
    | lock l w fr k e1 hl1 ha1 =>
      cases h2 with
      | lock l v fr' k' e2 hl2 ha2 =>
        have := I.other_unlocked hi hl1 (Ne.symm hij) hj
        rw [hl2] at this
        cases this
      | cfg => subst e1; exact (locked_loc hl1 ha1).2 _ rfl
      | thread => subst e1; exact (locked_loc hl1 ha1).1 rfl
      | walk l v hr hw => exact hno (I.no_race_walk hi hj hij e1 hl1 ha1 hr hw)
    | cfg x w hc1 =>
      cases h2 with
      | lock l v fr' k' e2 hl2 ha2 => subst e2; exact (locked_loc hl2 ha2).2 _ rfl
      | cfg x v hc2 =>
        have h1 := (I.cfg i).2 ⟨_, hi, hc1⟩
        have h2 := (I.cfg j).2 ⟨_, hj, hc2⟩
        rw [h1] at h2
        cases h2
        exact hij rfl
      | walk l v hr hw => cases hw
    | walk l w hr1 hw1 =>
      cases h2 with
      | lock l v fr' k' e2 hl2 ha2 => exact hno (I.no_race_walk hj hi (Ne.symm hij) e2 hl2 ha2 hr1 hw1).symm
      | cfg => cases hw1
      | thread => cases hw1
      | walk l v hr hw => exact hij ((role_logger hr1).trans (role_logger hr).symm)
    | thread w h1 =>
      cases h2 with
      | lock l v fr' k' e2 hl2 ha2 => subst e2; exact (locked_loc hl2 ha2).1 rfl
      | walk l v hr hw => cases hw
      | thread v h2 =>
        rcases h1 with h1 | h1 <;> rcases h2 with h2 | h2
        · exact hij (h1.trans h2.symm)
        · exact hthr hij hi hsi h1 h2
        · exact hthr (Ne.symm hij) hj hsj h2 h1
        · have h3 := role_dtor h1
          rw [role_dtor h2] at h3
          cases h3
          exact hij rfl

theorem Inv.destroyed (I : Inv nf s u h) (hd : Destroyed s) : s.sh.joined = true ∧ (∀ (j : Nat) (t : List Frame), s.threads[j]? = some t → t = []) ∧
    (nf → ∀ f, u f = []) := by
  obtain ⟨d, hd, ht⟩ := hd
  have hr := I.role_of_dtor hd
  have ho := I.thr d _ ht
  rw [hr] at ho
  cases ho with
  | nil _ _ h2 =>
    have hk := h2 rfl
    have hj := hk.2.1
    refine ⟨hj, ?_, ?_⟩
    · intro j t hj'
      cases t with
      | nil => rfl
      | cons a l =>
        have := role_dtor (I.active hj' (by simp) hj)
        rw [hd] at this
        cases this
        rw [ht] at hj'
        cases hj'
    · intro hn f
      by_cases hf' : f ∈ s.sh.files
      · exact hk.2.2.2.2.2 hn f hf' (by simp) (by simp)
      · exact (List.append_eq_nil_iff.1 (I.glob.none f hf')).1

end

end Pluto.LogRace
