import Verif.Proofs.LogRaceStep

/-! # Steps of `write_buffer_to_file` and of the destructor; all steps -/

namespace Pluto.LogRace

section
variable {nf : Prop} {s : State} {u h : File → List Nat} {i : Nat} {st' : List Frame} {sh : Shared}

theorem Inv.put_ok (I : Inv nf s u h) {k : List Frame} {f : File} {b it : Nat} {pc : Put} (hi : s.threads[i]? = some (.put f b it pc :: k)) :
    Base nf s.sh u h (role s i) f k ∧ PutOk s.sh u h (role s i) f b it pc := by
  have ho := I.thr i _ hi
  generalize role s i = r at ho ⊢
  cases ho with
  | put r f b it pc k h1 h2 => exact ⟨h1, h2⟩

theorem base_ne {r : Role} {f : File} {k : List Frame} {s : Shared} (hb : Base nf s u h r f k) : ∃ a l, k = a :: l := by
  cases hb with
  | loop => exact ⟨_, _, rfl⟩
  | dtor => exact ⟨_, _, rfl⟩

/-- Steps of `write_buffer_to_file` to another place in it, with calls `cs`. -/
theorem Inv.put_control (I : Inv nf s u h) {k cs : List Frame} {f : File} {b it it' : Nat} {pc pc' : Put}
    (hi : s.threads[i]? = some (.put f b it pc :: k))
    (hok : Ok nf s.sh u h (role s i) (.put f b it' pc' :: k) → Ok nf s.sh u h (role s i) (cs ++ .put f b it' pc' :: k))
    (hp : PutOk s.sh u h (role s i) f b it' pc') (hcs : cs = [] ∨ cs = [.user] ∨ ∃ w, cs = [.cfg w false .lock]) :
    Inv nf (after s i s.sh (cs ++ .put f b it' pc' :: k)) u h := by
  obtain ⟨hb, _⟩ := I.put_ok hi
  have hk := hok (.put _ _ _ _ _ _ hb hp)
  obtain ⟨a, l, e⟩ := base_ne hb
  have hcc : ∀ pc'', cur (Frame.put f b it' pc'' :: k) = cur k := by intro pc''; rw [e, cur_cons]
  refine I.control (lg := s.sh.log) (cg := s.sh.cfg) hi (by simp) hk (.inl ⟨rfl, ?_⟩) (.inl ⟨rfl, ?_⟩) rfl ?_ ?_ ?_
  · rcases hcs with e | e | ⟨w, e⟩ <;> (subst e; rfl)
  · rcases hcs with e | e | ⟨w, e⟩ <;> (subst e; rfl)
  · rcases hcs with e | e | ⟨w, e⟩ <;> (subst e; rfl)
  · intro _ g _ hc
    rw [e, cur_cons] at hc
    rcases hcs with e' | e' | ⟨w, e'⟩ <;> subst e'
    · rw [List.nil_append, hcc, e]; exact hc
    · rw [List.singleton_append, cur_cons, hcc, e]; exact hc
    · rw [List.singleton_append, cur_cons, hcc, e]; exact hc
  · right
    intro g b' it'' p hm
    have : Frame.put g b' it'' p = .put f b it' pc' ∨ Frame.put g b' it'' p ∈ k := by
      rcases hcs with e' | e' | ⟨w, e'⟩ <;> subst e' <;> simpa using hm
    rcases this with e' | hm
    · cases e'
      exact ⟨it, pc, by simp⟩
    · exact ⟨it'', p, List.mem_cons_of_mem _ hm⟩

/-- `write_buffer_to_file` returns. -/
theorem Inv.put_return (I : Inv nf s u h) {k : List Frame} {f : File} {b it : Nat} {pc : Put} (hi : s.threads[i]? = some (.put f b it pc :: k))
    (hit : it = (h f).headD 0) (hu : role s i = .dtor → nf → u f = []) : Inv nf (after s i s.sh (ret it k)) u h := by
  obtain ⟨hb, hp⟩ := I.put_ok hi
  generalize hr : role s i = r at hb
  cases hb with
  | loop _ he =>
    refine I.control (lg := s.sh.log) (cg := s.sh.cfg) hi (by simp) ?_ (.inl ⟨rfl, rfl⟩) (.inl ⟨rfl, rfl⟩) rfl rfl ?_
      (.inr fun f b it p hm => by simp [ret] at hm)
    · rw [hr]
      exact .loop _ he ⟨hp.1, hit⟩
    · intro _ g _ hc
      exact hc
  | dtor _ rest hR =>
    refine I.control (lg := s.sh.log) (cg := s.sh.cfg) hi (by simp) ?_ (.inl ⟨rfl, rfl⟩) (.inl ⟨rfl, rfl⟩) rfl rfl ?_
      (.inr fun f b it p hm => by simp [ret] at hm)
    · rw [hr]
      obtain ⟨r1, r2, r3, r4, r5, r6⟩ := hR
      refine .dtor _ ⟨r1, r2, r3, (List.nodup_cons.1 r4).2, r5, ?_⟩
      intro hn g hg _ hgr
      by_cases e : g = f
      · rw [e]; exact hu hr hn
      · exact r6 hn g hg (by simpa using e) hgr
    · intro e
      rw [e] at hr
      cases hr

/-- A new node is put before another one than `it`. -/
theorem Inv.back_ne (I : Inv nf s u h) {f : File} {b it b' n : Nat} {q w x : List Nat} {y : Nat} (hu : u f = w ++ (x ++ [y]))
    (hb : ((x ++ [y]) ++ h f).head? = some b) (hit : it = (h f).headD 0) (e1 : u f ++ h f = n :: q) (e2 : b' = q.headD 0) (e3 : b ≠ n) :
    it ≠ b' := by
  have G := I.glob
  have hz : 0 ∉ u f ++ h f := fun e' => Nat.lt_irrefl _ (G.node f 0 e').1
  have hnd := G.nodup f
  cases w with
  | nil =>
    exfalso
    rw [hu, List.nil_append, List.append_assoc] at e1
    rw [List.append_assoc, e1] at hb
    exact e3 (by simpa using hb.symm)
  | cons a w =>
    have e4 : q = (w ++ x ++ [y]) ++ h f := by
      rw [hu] at e1
      simp only [List.cons_append, List.cons.injEq] at e1
      rw [← e1.2]
      simp
    have e5 : b' ∈ w ++ x ++ [y] := by
      rw [e2, e4]
      cases hx : w ++ x with
      | nil => simp
      | cons c l => simp
    intro e6
    have e7 : b' ∈ u f := by
      rw [hu, List.cons_append]
      exact List.mem_cons_of_mem _ (by rw [← List.append_assoc]; exact e5)
    rw [List.nodup_append] at hnd
    rcases headD_mem_or (l := h f) with hm | hm
    · exact hnd.2.2 b' e7 b' (by rw [← e6, hit]; exact hm) rfl
    · rw [hm] at hit
      exact hz (List.mem_append_left _ (by rw [← show it = 0 from hit, e6]; exact e7))

/-- Going back in a buffer without the mutex finds the previous node, although the holder of the mutex may be adding one. -/
theorem Inv.back (I : Inv nf s u h) {k : List Frame} {f : File} {b it : Nat} (hi : s.threads[i]? = some (.put f b it .back :: k))
    {w x : List Nat} {y : Nat} (hu : u f = w ++ (x ++ [y])) (hb : ((x ++ [y]) ++ h f).head? = some b) (hit : it = (h f).headD 0)
    (hf' : f ∈ s.sh.files) : s.sh.prev f it = y := by
  have G := I.glob
  have h0 := I.heap f hf'
  have hq : u f ++ h f = (w ++ x) ++ y :: h f := by rw [hu]; simp
  rw [hq, seg_append] at h0
  have h1 := (seg_head h0.2).2
  rw [← hit] at h1
  have hz : 0 ∉ u f ++ h f := fun e' => Nat.lt_irrefl _ (G.node f 0 e').1
  have hnd := G.nodup f
  have key := fun b' n q => I.back_ne (b' := b') (n := n) (q := q) hu hb hit
  have hmem : Frame.put f b it .back ∈ (Frame.put f b it .back :: k) := by simp
  -- who holds the mutex
  cases hl : s.sh.log with
  | none =>
    have : hf s = none := by unfold hf; rw [hl]
    rw [this] at h1
    exact h1
  | some j =>
    obtain ⟨t, ht, hlt⟩ := (I.lock j).1 hl
    have hhf := hf_self ht hl
    have hoj := I.thr j t ht
    cases t with
    | nil => cases hlt
    | cons fr l =>
      rw [List.head?_cons] at hhf
      rw [hhf] at h1
      cases fr with
      | add f' e pc =>
        have hadd : AddOk s.sh u h f' e pc := by
          generalize role s j = r at hoj
          cases hoj with
          | add r f e pc k k1 k2 k3 => exact k2
        cases pc with
        | hook1 b' n p =>
          simp only [vprev] at h1
          by_cases e' : f' = f
          · subst e'
            obtain ⟨_, _, q, q1, q2⟩ := hadd
            have hne := I.pend f' n (by rw [hhf]; rfl) i _ b it .back hi hmem
            rw [if_pos rfl, set1_ne _ _ (key b' n q q1 q2 hne)] at h1
            exact h1
          · rw [if_neg e'] at h1
            exact h1
        | hook2 b' n =>
          simp only [vprev] at h1
          by_cases e' : f' = f
          · subst e'
            obtain ⟨_, q, q1, q2⟩ := hadd
            have hne := I.pend f' n (by rw [hhf]; rfl) i _ b it .back hi hmem
            rw [if_pos rfl, set1_ne _ _ (key b' n q q1 q2 hne)] at h1
            exact h1
          · rw [if_neg e'] at h1
            exact h1
        | _ => exact h1
      | loop pc =>
        -- then it is the logging thread, and this one is neither it nor the destructor
        exfalso
        obtain ⟨_, _, hj1, he, hjf, _⟩ := I.loop_ok ht
        obtain ⟨hbase, _⟩ := I.put_ok hi
        generalize hr : role s i = r at hbase
        cases hbase with
        | loop =>
          have : i = 1 := role_logger hr
          subst this hj1
          rw [hi] at ht
          cases ht
        | dtor _ rest hR =>
          rw [hR.2.1] at hjf
          cases hjf
      | _ => exact h1

theorem Inv.step_put (I : Inv nf s u h) {k : List Frame} {f : File} {b it : Nat} {pc : Put} {c : Choice}
    (hi : s.threads[i]? = some (.put f b it pc :: k)) (hg : go s.sh i c (.put f b it pc :: k) = some (sh, st'))
    (hnf : nf → c = .fail → role s i ≠ .dtor) : ∃ u' h', Inv nf (after s i sh st') u' h' := by
  obtain ⟨hbase, hp⟩ := I.put_ok hi
  have G := I.glob
  have hfail : c = .fail → role s i = .dtor → nf → u f = [] := fun e1 e2 e3 => (hnf e3 e1 e2).elim
  obtain ⟨hf', w, x, e1, e2, e3, e4⟩ := hp
  simp only [go] at hg
  cases pc with
  | path =>
    refine ⟨u, h, ?_⟩
    cases hg
    split
    · rename_i hc; exact I.put_return hi e4 (hfail hc)
    · exact I.put_control (cs := []) hi id ⟨hf', w, x, e1, e2, e3, e4⟩ (.inl rfl)
  | dirs =>
    refine ⟨u, h, ?_⟩
    cases hg
    split
    · rename_i hc; exact I.put_return hi e4 (hfail hc)
    · exact I.put_control (cs := []) hi id ⟨hf', w, x, e1, e2, e3, e4⟩ (.inl rfl)
  | opens =>
    refine ⟨u, h, ?_⟩
    cases hg
    split
    · rename_i hc; exact I.put_return hi e4 (hfail hc)
    · exact I.put_control (cs := []) hi id ⟨hf', w, x, e1, e2, e3, e4⟩ (.inl rfl)
  | test =>
    refine ⟨u, h, ?_⟩
    cases hg
    have hx : it = b ↔ x = [] := by
      constructor
      · intro e
        cases x with
        | nil => rfl
        | cons a l =>
          exfalso
          have hab : a = b := by simpa using e2
          have ha : a ∈ u f := by rw [e1]; simp
          have hnd := G.nodup f
          rw [List.nodup_append] at hnd
          have e4 : it = (h f).headD 0 := e4
          rcases headD_mem_or (l := h f) with hm | hm
          · rw [← e4] at hm
            exact hnd.2.2 a ha it hm (hab.trans e.symm)
          · rw [hm] at e4
            have := (G.node f a (List.mem_append_left _ ha)).1
            have e4 : it = 0 := e4
            omega
      · intro e
        rw [e, List.nil_append] at e2
        have e4 : it = (h f).headD 0 := e4
        rw [e4]
        cases hh : h f with
        | nil => rw [hh] at e2; cases e2
        | cons a l => rw [hh] at e2; simpa using e2
    split
    · rename_i hc
      refine I.put_return hi e4 (fun hr _ => ?_)
      rw [e1, e3 hr, hx.1 hc]
      rfl
    · rename_i hc
      exact I.put_control (cs := []) hi id ⟨hf', w, x, e1, e2, e3, e4, fun e => hc (hx.2 e)⟩ (.inl rfl)
  | rotate =>
    refine ⟨u, h, ?_⟩
    cases hg
    split
    · rename_i hc; exact I.put_return hi e4.1 (hfail hc)
    · exact I.put_control (cs := []) hi id ⟨hf', w, x, e1, e2, e3, e4⟩ (.inl rfl)
  | header =>
    refine ⟨u, h, ?_⟩
    cases hg
    split
    · exact I.put_control (cs := []) hi id ⟨hf', w, x, e1, e2, e3, e4⟩ (.inl rfl)
    · exact I.put_control (cs := [.cfg .header false .lock]) hi (fun ho => .cfgPut _ _ _ _ _ _ _ _ _ ho (.inl rfl)) ⟨hf', w, x, e1, e2, e3, e4⟩
        (.inr (.inr ⟨_, rfl⟩))
  | headCall =>
    refine ⟨u, h, ?_⟩
    cases hg
    exact I.put_control (cs := [.user]) hi (fun ho => .writer _ _ _ _ _ _ ho (.inl rfl)) ⟨hf', w, x, e1, e2, e3, e4⟩ (.inr (.inl rfl))
  | headDone =>
    refine ⟨u, h, ?_⟩
    cases hg
    split
    · rename_i hc; exact I.put_return hi e4.1 (hfail hc)
    · exact I.put_control (cs := []) hi id ⟨hf', w, x, e1, e2, e3, e4⟩ (.inl rfl)
  | back =>
    refine ⟨u, h, ?_⟩
    cases hg
    obtain ⟨e5, e6⟩ := e4
    obtain ⟨x', y, rfl⟩ : ∃ x' y, x = x' ++ [y] := ⟨x.dropLast, x.getLast e6, (List.dropLast_concat_getLast e6).symm⟩
    have hy := I.back hi e1 e2 e5 hf'
    exact I.put_control (cs := []) hi id ⟨hf', w, _, e1, e2, e3, x', by rw [hy]⟩ (.inl rfl)
  | copy =>
    refine ⟨u, h, ?_⟩
    cases hg
    exact I.put_control (cs := [.cfg .log false .lock]) hi (fun ho => .cfgPut _ _ _ _ _ _ _ _ _ ho (.inr rfl)) ⟨hf', w, x, e1, e2, e3, e4⟩
        (.inr (.inr ⟨_, rfl⟩))
  | done =>
    refine ⟨u, h, ?_⟩
    cases hg
    split
    · rename_i hc; exact I.put_return hi e4.1 (hfail hc)
    · exact I.put_control (cs := []) hi id ⟨hf', w, x, e1, e2, e3, e4.1⟩ (.inl rfl)
  | give =>
    simp only [goPut] at hg
    cases hg
    obtain ⟨x', hx⟩ := e4
    subst hx
    have hlt : i < s.threads.length := (List.getElem?_eq_some_iff.1 hi).1
    have hin : it ∈ u f := by rw [e1]; simp
    obtain ⟨v, hv⟩ := Option.isSome_iff_exists.1 (G.node f it (List.mem_append_left _ hin)).2.2
    refine ⟨fun g => if g = f then w ++ x' else u g, fun g => if g = f then it :: h g else h g, ?_⟩
    have huf : (fun g => if g = f then w ++ x' else u g) f = w ++ x' := by simp
    have hug : ∀ g, g ≠ f → (fun g => if g = f then w ++ x' else u g) g = u g := fun g e' => by simp [e']
    have hhf : (fun g => if g = f then it :: h g else h g) f = it :: h f := by simp
    have hhg : ∀ g, g ≠ f → (fun g => if g = f then it :: h g else h g) g = h g := fun g e' => by simp [e']
    generalize (fun g => if g = f then w ++ x' else u g) = u' at huf hug ⊢
    generalize (fun g => if g = f then it :: h g else h g) = h' at hhf hhg ⊢
    have hq : ∀ g, u' g ++ h' g = u g ++ h g := by
      intro g
      by_cases e' : g = f
      · subst e'; rw [huf, hhf, e1]; simp
      · rw [hug g e', hhg g e']
    have hlog : s.sh.log ≠ some i := I.not_locked hi rfl
    have hhfs : hf (after s i { s.sh with given := app s.sh.given f (s.sh.val f it).toList } (.user :: .put f b it .done :: k)) = hf s :=
      hf_after_other rfl hlog
    refine I.update hi (by simp) ⟨G.bad, G.fresh, G.files, fun g => by rw [hq]; exact G.node g, G.val, fun g => by rw [hq]; exact G.nodup g,
      fun g => by rw [hq]; exact G.none g, ?_⟩ ?_ ?_ ?_ (.inl ⟨rfl, rfl⟩) (.inl ⟨rfl, rfl⟩) ?_ ?_ I.joined
    · intro g
      by_cases e' : g = f
      · subst e'
        show s.sh.added g = app s.sh.given g (s.sh.val g it).toList g ++ List.filterMap (s.sh.val g) (u' g).reverse
        rw [G.hist g, e1, huf, ← List.append_assoc, List.reverse_append, List.reverse_singleton, List.filterMap_append]
        unfold app
        rw [if_pos rfl, hv, List.append_assoc]
        congr 1
        simp [hv]
      · show s.sh.added g = app s.sh.given f (s.sh.val f it).toList g ++ List.filterMap (s.sh.val g) (u' g).reverse
        unfold app
        rw [if_neg e', hug g e']
        exact G.hist g
    · intro g hg
      rw [hhfs, hq]
      exact I.heap g hg
    · have hb' : Base nf { s.sh with given := app s.sh.given f (s.sh.val f it).toList } u' h' (role s i) f k := by
        generalize role s i = r at hbase
        cases hbase with
        | loop _ he => exact .loop _ he
        | dtor _ rest hR =>
          obtain ⟨r1, r2, r3, r4, r5, r6⟩ := hR
          refine .dtor _ _ ⟨r1, r2, r3, r4, ?_, ?_⟩
          · intro g hg
            have : g ≠ f := fun e' => (List.nodup_cons.1 r4).1 (e' ▸ hg)
            rw [hhg g this]
            exact r5 g hg
          · intro hn g hg hgs hgr
            rw [hug g (by simpa using hgs)]
            exact r6 hn g hg hgs hgr
      refine .writer _ _ _ _ _ _ (.put _ _ _ _ _ _ hb' ⟨hf', w, x', huf, ?_, e3, ?_, ?_⟩) (.inr rfl)
      · rw [hhf]
        rw [List.append_assoc] at e2
        exact e2
      · rw [hhf]; rfl
      · rw [hhf]; simp
    · intro j t hj ht ho
      by_cases hjd : role s j = .dtor
      · have hjf : s.sh.joined = false := by
          refine I.unjoined hi (by simp) ?_
          intro hrd
          have a1 := role_dtor hjd
          have a2 := role_dtor hrd
          rw [a1] at a2
          cases a2
          exact hj rfl
        rw [hjd] at ho ⊢
        exact ho.other ho.dtor_unlocked (fun f hf => hf) (fun e => by cases e) (fun _ => ⟨hjf, hjf, rfl⟩) (fun e => by cases e)
      · by_cases hjl : role s j = .logger
        · rw [hjl] at ho ⊢
          -- then this is the destructor
          have hid : role s i = .dtor := by
            generalize hr : role s i = r at hbase
            cases hbase with
            | loop =>
              have := role_logger hr
              have := role_logger hjl
              omega
            | dtor => rfl
          rw [hid] at hbase
          cases hbase with
          | dtor _ rest hR =>
            cases t with
            | nil => exact .nil _ (fun _ => hR.2.2.1) (fun e => by cases e)
            | cons a l =>
              have := ho.logger_ended (by simp)
              rw [hR.2.2.1] at this
              cases this
        · exact ho.same hjd rfl rfl rfl rfl hq (fun e => (hjl e).elim)
    · intro hj g hg
      have hj : s.sh.joined = false := hj
      generalize hr : role s i = r at hbase
      cases hbase with
      | dtor _ rest hR =>
        rw [hR.2.1] at hj
        cases hj
      | loop _ he =>
        have hi1 := role_logger hr
        subst hi1
        rw [List.getElem?_set_self hlt]
        refine ⟨_, rfl, ?_⟩
        by_cases e' : g = f
        · rw [e']; rfl
        · rw [hhg g e'] at hg
          obtain ⟨t, ht, hct⟩ := I.idle hj g hg
          rw [hi] at ht
          cases ht
          exact hct
    · intro f' n hpn j t b' it' p ht hm
      rw [hhfs] at hpn
      by_cases e' : i = j
      · subst e'
        rw [List.getElem?_set_self hlt] at ht
        cases ht
        have : Frame.put f' b' it' p = .put f b it .done ∨ Frame.put f' b' it' p ∈ k := by simpa using hm
        rcases this with e' | hm
        · cases e'
          exact I.pend f n hpn i _ b it .give hi (by simp)
        · exact I.pend f' n hpn i _ b' it' p hi (List.mem_cons_of_mem _ hm)
      · rw [List.getElem?_set_ne e'] at ht
        exact I.pend f' n hpn j t b' it' p ht hm


theorem Inv.step_dtor (I : Inv nf s u h) {k : List Frame} {pc : Dtor} {c : Choice}
    (hi : s.threads[i]? = some (.dtor pc :: k)) (hg : go s.sh i c (.dtor pc :: k) = some (sh, st')) : Inv nf (after s i sh st') u h := by
  have hlt : i < s.threads.length := (List.getElem?_eq_some_iff.1 hi).1
  have G := I.glob
  have key : k = [] ∧ role s i = .dtor ∧ DtorOk nf s.sh u h pc := by
    have ho := I.thr i _ hi
    generalize hr : role s i = r at ho
    cases ho with
    | dtor pc h1 => exact ⟨rfl, rfl, h1⟩
  obtain ⟨hk0, hr, hk⟩ := key
  have hd := role_dtor hr
  have hi2 := (I.fin i hd).1
  subst hk0
  simp only [go] at hg
  -- when the logging thread has been joined
  have hreal : s.sh.joined = true → s.sh.log = none := by
    intro hj
    cases hl : s.sh.log with
    | none => rfl
    | some j =>
      obtain ⟨t, ht, hlt⟩ := (I.lock j).1 hl
      have hne : t ≠ [] := by intro e; rw [e] at hlt; cases hlt
      have hrj := I.active ht hne hj
      have := I.thr j t ht
      rw [hrj] at this
      rw [this.dtor_unlocked] at hlt
      cases hlt
  have hseg : s.sh.joined = true → ∀ f ∈ s.sh.files, Seg (s.sh.next f) (s.sh.prev f) 0 (u f ++ h f) 0 := by
    intro hj f hf'
    have h0 := I.heap f hf'
    have : hf s = none := by unfold hf; rw [hreal hj]
    rw [this] at h0
    exact h0
  have hcontrol : ∀ pc', DtorOk nf s.sh u h pc' → Inv nf (after s i s.sh [.dtor pc']) u h := by
    intro pc' hok
    refine I.control (lg := s.sh.log) (cg := s.sh.cfg) hi (by simp) (by rw [hr]; exact .dtor _ hok) (.inl ⟨rfl, rfl⟩) (.inl ⟨rfl, rfl⟩) rfl rfl
      (fun e => by omega) (.inr fun f b it p hm => by simp at hm)
  cases pc with
  | stop =>
    cases hg
    have hk : s.sh.joined = false := hk
    have hhf : hf (after s i { s.sh with isLogging := false } [.dtor .join]) = hf s := hf_after_other rfl (I.not_locked hi rfl)
    refine I.update hi (by simp) ⟨G.bad, G.fresh, G.files, G.node, G.val, G.nodup, G.none, G.hist⟩ (by rw [hhf]; exact I.heap)
      (by rw [hr]; exact .dtor _ ⟨rfl, hk⟩) ?_ (.inl ⟨rfl, rfl⟩) (.inl ⟨rfl, rfl⟩)
      (fun _ => I.idle_set hi (fun e => by omega) hk) ?_ I.joined
    · intro j t hj ht ho
      refine ho.same ?_ rfl rfl rfl rfl (fun _ => rfl) (fun _ => ⟨rfl, rfl⟩)
      intro e
      have := role_dtor e
      rw [hd] at this
      cases this
      exact hj rfl
    · intro f n hp j t b it p ht hm
      rw [hhf] at hp
      by_cases e' : i = j
      · subst e'
        rw [List.getElem?_set_self hlt] at ht
        cases ht
        simp at hm
      · rw [List.getElem?_set_ne e'] at ht
        exact I.pend f n hp j t b it p ht hm
  | join =>
    simp only [goDtor] at hg
    split at hg
    · rename_i he
      cases hg
      obtain ⟨hk1, hk2⟩ := hk
      have hhf : hf (after s i { s.sh with joined := true } [.dtor .list]) = hf s := hf_after_other rfl (I.not_locked hi rfl)
      have hh : ∀ f, h f = [] := by
        intro f
        cases e : h f with
        | nil => rfl
        | cons a l =>
          obtain ⟨t, ht, hc⟩ := I.idle hk2 f (by rw [e]; simp)
          have ho := I.thr 1 t ht
          have hr1 : role s 1 = .logger := rfl
          rw [hr1] at ho
          cases t with
          | nil => cases hc
          | cons b t =>
            have := ho.logger_ended (by simp)
            rw [he] at this
            cases this
      refine I.update hi (by simp) ⟨G.bad, G.fresh, G.files, G.node, G.val, G.nodup, G.none, G.hist⟩ (by rw [hhf]; exact I.heap)
        (by rw [hr]; exact .dtor _ ⟨hk1, rfl, he, G.files, fun g hg => ⟨hg, hh g⟩, fun _ g hg _ hn => (hn hg).elim⟩) ?_ (.inl ⟨rfl, rfl⟩)
        (.inl ⟨rfl, rfl⟩) (fun e => by cases e) ?_ (fun _ => ⟨he, by rw [hd]; simp⟩)
      · intro j t hj ht ho
        refine ho.same ?_ rfl rfl rfl rfl (fun _ => rfl) (fun _ => ⟨rfl, rfl⟩)
        intro e
        have := role_dtor e
        rw [hd] at this
        cases this
        exact hj rfl
      · intro f n hp j t b it p ht hm
        rw [hhf] at hp
        by_cases e' : i = j
        · subst e'
          rw [List.getElem?_set_self hlt] at ht
          cases ht
          simp at hm
        · rw [List.getElem?_set_ne e'] at ht
          exact I.pend f n hp j t b it p ht hm
    · cases hg
  | list =>
    cases hg
    exact hcontrol (.scan s.sh.files) hk
  | scan rest =>
    cases rest with
    | nil =>
      cases hg
      refine I.control (lg := s.sh.log) (cg := s.sh.cfg) hi (by simp) ?_ (.inl ⟨rfl, rfl⟩) (.inl ⟨rfl, rfl⟩) rfl rfl
        (fun e => by omega) (.inr fun f b it p hm => by cases hm)
      rw [hr]
      exact .nil _ (fun e => by cases e) (fun _ => hk)
    | cons f rest =>
      cases hg
      exact hcontrol (.check f rest) hk
  | check f rest =>
    simp only [goDtor] at hg
    cases hg
    have hk : RestOk nf s.sh u h [] (f :: rest) := hk
    obtain ⟨r1, r2, r3, r4, r5, r6⟩ := hk
    have hff := (r5 f (by simp)).1
    have h0 := (seg_head (hseg r2 f hff)).1
    split
    · rename_i hz
      refine hcontrol (.scan rest) ⟨r1, r2, r3, (List.nodup_cons.1 r4).2, fun g hg => r5 g (List.mem_cons_of_mem _ hg), ?_⟩
      intro hn g hg hgs hgr
      by_cases e : g = f
      · subst e
        have hq : u g ++ h g = [] := by
          rcases headD_mem_or (l := u g ++ h g) with hm | hm
          · rw [← h0, hz] at hm
            exact (Nat.lt_irrefl _ (G.node g 0 hm).1).elim
          · exact hm
        exact (List.append_eq_nil_iff.1 hq).1
      · exact r6 hn g hg hgs (by simp [e, hgr])
    · rename_i hz
      refine hcontrol (.begin f rest) ⟨⟨r1, r2, r3, r4, r5, r6⟩, ?_⟩
      intro e
      rw [e] at h0
      exact hz h0
  | begin f rest =>
    cases hg
    obtain ⟨⟨r1, r2, r3, r4, r5, r6⟩, hne⟩ := hk
    have hff := r5 f (by simp)
    have h0 := (seg_head (hseg r2 f hff.1)).1
    refine I.control (lg := s.sh.log) (cg := s.sh.cfg) hi (by simp) ?_ (.inl ⟨rfl, rfl⟩) (.inl ⟨rfl, rfl⟩) rfl rfl
        (fun e => by omega) (.inl (hreal r2))
    rw [hr]
    refine .put _ _ _ _ _ _ (.dtor f rest ⟨r1, r2, r3, r4, fun g hg => r5 g (List.mem_cons_of_mem _ hg), ?_⟩) ⟨hff.1, [], u f, rfl, ?_,
      fun _ => rfl, ?_⟩
    · intro hn g hg hgs hgr
      exact r6 hn g hg (by simp) (by simp only [List.mem_cons, not_or]; exact ⟨by simpa using hgs, hgr⟩)
    · rw [h0]
      exact head?_of_headD hne
    · show 0 = (h f).headD 0
      rw [hff.2]
      rfl

theorem Inv.go (I : Inv nf s u h) {st : List Frame} {c : Choice} (hi : s.threads[i]? = some st) (hg : go s.sh i c st = some (sh, st'))
    (hnf : nf → c = .fail → role s i ≠ .dtor) : ∃ u' h', Inv nf (after s i sh st') u' h' := by
  cases st with
  | nil => cases hg
  | cons fr k =>
    cases fr with
    | user => exact ⟨u, h, I.step_user hi hg⟩
    | maker => exact ⟨u, h, I.step_maker hi hg⟩
    | cfg w a pc => exact ⟨u, h, I.step_cfg hi hg⟩
    | add f e pc => obtain ⟨u', hI⟩ := I.step_add hi hg; exact ⟨u', h, hI⟩
    | loop pc => obtain ⟨h', hI⟩ := I.step_loop hi hg; exact ⟨u, h', hI⟩
    | put f b it pc => exact I.step_put hi hg hnf
    | dtor pc => exact ⟨u, h, I.step_dtor hi hg⟩
end

end Pluto.LogRace
