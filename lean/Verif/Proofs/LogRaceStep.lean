import Verif.Proofs.LogRace

/-! # Each step of a thread keeps the invariant -/

namespace Pluto.LogRace

theorem headD_mem_or {l : List Nat} : l.headD 0 ∈ l ∨ l = [] := by
  cases l with
  | nil => exact .inr rfl
  | cons a l => exact .inl (by simp)

theorem fm_congr {g g' : Nat → Option Entry} {l : List Nat} (hl : ∀ x ∈ l, g x = g' x) : l.filterMap g = l.filterMap g' := by
  induction l with
  | nil => rfl
  | cons a l ih =>
    rw [List.filterMap_cons, List.filterMap_cons, hl a (by simp), ih (fun x hx => hl x (List.mem_cons_of_mem _ hx))]

section
variable {nf : Prop} {s : State} {u h : File → List Nat} {i : Nat} {st' : List Frame} {sh : Shared}

/-- Steps of `add_log_to_buffer` that do not change the memory. -/
theorem Inv.add_control (I : Inv nf s u h) {k : List Frame} {f : File} {e : Entry} {pc pc' : Add} {lg : Option Nat}
    (hi : s.threads[i]? = some (.add f e pc :: k)) (hd : role s i ≠ .dtor)
    (hok : AddOk s.sh u h f e pc') (hlk : LockStep i s.sh.log lg (locked (.add f e pc :: k)) (locked (.add f e pc' :: k)))
    (m1 : mid (some (.add f e pc)) = false) (m2 : mid (some (.add f e pc')) = false) :
    Inv nf (after s i { s.sh with log := lg } (.add f e pc' :: k)) u h := by
  have ho := I.thr i _ hi
  generalize hr : role s i = r at ho hd
  cases ho with
  | add r f e pc k h1 h2 h3 =>
    refine I.control (lg := lg) (cg := s.sh.cfg) hi (by simp) ?_ hlk (.inl ⟨rfl, rfl⟩) m1 m2
      (fun _ f _ hc => by rw [cur_cons] at hc ⊢; exact hc) (.inr fun f b it p hm => ⟨it, p, ?_⟩)
    · rw [hr]
      exact .add _ _ _ _ _ h1 hok (fun e => (hd e).elim)
    · rcases List.mem_cons.1 hm with e | hm
      · cases e
      · exact List.mem_cons_of_mem _ hm

/-- `add_log_to_buffer` returns. -/
theorem Inv.add_return (I : Inv nf s u h) {k : List Frame} {f : File} {e : Entry} {pc : Add} {lg : Option Nat}
    (hi : s.threads[i]? = some (.add f e pc :: k)) (hlk : LockStep i s.sh.log lg (locked (.add f e pc :: k)) false)
    (m1 : mid (some (.add f e pc)) = false) : Inv nf (after s i { s.sh with log := lg } k) u h := by
  have ho := I.thr i _ hi
  generalize hr : role s i = r at ho
  cases ho with
  | add r f e pc k h1 h2 h3 =>
    refine I.control (lg := lg) (cg := s.sh.cfg) hi (by simp) (by rw [hr]; exact h1) hlk (.inl ⟨rfl, rfl⟩) m1 rfl
      (fun _ f _ hc => by rw [cur_cons] at hc; exact hc) (.inr fun f b it p hm => ⟨it, p, List.mem_cons_of_mem _ hm⟩)

/-- Steps of `add_log_to_buffer` that change the memory. -/
theorem Inv.add_data (I : Inv nf s u h) {k : List Frame} {f : File} {e : Entry} {pc pc' : Add} {u' : File → List Nat}
    (hi : s.threads[i]? = some (.add f e pc :: k)) (hd : role s i ≠ .dtor) (hl : locked (.add f e pc :: k) = true)
    (hl' : locked (.add f e pc' :: k) = true) (hlog : sh.log = s.sh.log) (hcfg : sh.cfg = s.sh.cfg) (hglob : Glob sh u' h)
    (h1 : ∀ f ∈ s.sh.files, f ∈ sh.files) (h2 : sh.ended = s.sh.ended) (h3 : sh.joined = s.sh.joined) (h4 : sh.isLogging = s.sh.isLogging)
    (hu : ∀ f, ∃ w, u' f = w ++ u f) (hok : AddOk sh u' h f e pc')
    (hheap : ∀ g ∈ sh.files, Seg (vnext (some (.add f e pc')) g (sh.next g)) (vprev (some (.add f e pc')) g (sh.prev g)) 0 (u' g ++ h g) 0)
    (hpend : ∀ f' n, pending (some (.add f e pc')) = some (f', n) → pending (some (.add f e pc)) = some (f', n) ∨ n ∉ u f' ++ h f') :
    Inv nf (after s i sh (.add f e pc' :: k)) u' h := by
  have hlt : i < s.threads.length := (List.getElem?_eq_some_iff.1 hi).1
  have ho := I.thr i _ hi
  have hown := (I.lock i).2 ⟨_, hi, hl⟩
  have hhf : hf (after s i sh (.add f e pc' :: k)) = some (.add f e pc') := hf_after_self hi (by rw [hlog]; exact hown)
  generalize hr : role s i = r at ho
  cases ho with
  | add r f e pc k k1 k2 k3 =>
    have hjf := I.unjoined hi (by simp) hd
    refine I.update hi (by simp) hglob (by rw [hhf]; exact hheap) ?_
      (I.others hi (by simp) hd hl h1 (.inl h2) h3 h4 (.inr fun f => ⟨rfl, hu f⟩)) (.inl ⟨hlog, by rw [hl, hl']⟩) (.inl ⟨hcfg, rfl⟩) ?_ ?_ ?_
    · rw [hr]
      refine .add _ _ _ _ _ ?_ hok (fun e => (hd (hr.trans e)).elim)
      exact k1.other rfl h1 (fun _ => h2) (fun e => (hd (hr.trans e)).elim) (fun _ => .inr fun f => ⟨rfl, hu f⟩)
    · intro hj
      exact I.idle_set hi (fun _ f _ hc => by rw [cur_cons] at hc ⊢; exact hc) hjf
    · intro f' n hp j t b it p ht hm
      rw [hhf] at hp
      have hold : ∃ t, s.threads[j]? = some t ∧ Frame.put f' b it p ∈ t := by
        by_cases e' : i = j
        · subst e'
          rw [List.getElem?_set_self hlt] at ht
          cases ht
          rcases List.mem_cons.1 hm with e' | hm
          · cases e'
          · exact ⟨_, hi, List.mem_cons_of_mem _ hm⟩
        · rw [List.getElem?_set_ne e'] at ht
          exact ⟨t, ht, hm⟩
      obtain ⟨t', ht', hm'⟩ := hold
      rcases hpend f' n hp with hp' | hn
      · refine I.pend f' n ?_ j t' b it p ht' hm'
        rw [hf_self hi hown]
        exact hp'
      · obtain ⟨_, w, x, e1, e2, _⟩ := (I.thr j t' ht').mem_put hm'
        intro e'
        apply hn
        rw [e1, List.append_assoc, ← e']
        exact List.mem_append_right _ (List.mem_of_head? e2)
    · intro hj
      rw [h3, hjf] at hj
      cases hj

theorem Inv.step_add (I : Inv nf s u h) {k : List Frame} {f : File} {e : Entry} {pc : Add} {c : Choice}
    (hi : s.threads[i]? = some (.add f e pc :: k)) (hg : go s.sh i c (.add f e pc :: k) = some (sh, st')) :
    ∃ u', Inv nf (after s i sh st') u' h := by
  have ho := I.thr i _ hi
  by_cases hd : role s i = .dtor
  · rw [hd] at ho
    have hl := (ho.dtor_rest (by simp)).1
    cases ho with
    | add r f e pc k h1 h2 h3 =>
      have := h3 rfl
      subst this
      refine ⟨u, ?_⟩
      simp only [go, goAdd, hl] at hg
      cases hg
      exact I.add_return (lg := s.sh.log) hi (.inl ⟨rfl, rfl⟩) rfl
  have hk : AddOk s.sh u h f e pc := by
    generalize role s i = r at ho
    cases ho with
    | add r f e pc k h1 h2 h3 => exact h2
  simp only [go] at hg
  cases pc with
  | test =>
    refine ⟨u, ?_⟩
    simp only [goAdd] at hg
    cases hg
    split
    · exact I.add_control (lg := s.sh.log) hi hd trivial (.inl ⟨rfl, rfl⟩) rfl rfl
    · exact I.add_return (lg := s.sh.log) hi (.inl ⟨rfl, rfl⟩) rfl
  | lock =>
    refine ⟨u, ?_⟩
    simp only [goAdd] at hg
    split at hg
    · rename_i hn
      cases hg
      exact I.add_control (lg := some i) hi hd trivial (.inr (.inl ⟨hn, rfl, rfl⟩)) rfl rfl
    · cases hg
  | find =>
    refine ⟨u, ?_⟩
    simp only [goAdd] at hg
    cases hg
    split
    · rename_i hf'
      exact I.add_control (lg := s.sh.log) hi hd hf' (.inl ⟨rfl, rfl⟩) rfl rfl
    · rename_i hf'
      exact I.add_control (lg := s.sh.log) hi hd hf' (.inl ⟨rfl, rfl⟩) rfl rfl
  | full =>
    refine ⟨u, ?_⟩
    simp only [goAdd] at hg
    cases hg
    split
    · exact I.add_control (lg := s.sh.log) hi hd trivial (.inl ⟨rfl, rfl⟩) rfl rfl
    · exact I.add_control (lg := s.sh.log) hi hd hk (.inl ⟨rfl, rfl⟩) rfl rfl
  | begin =>
    refine ⟨u, ?_⟩
    simp only [goAdd] at hg
    cases hg
    exact I.add_control (lg := s.sh.log) hi hd ⟨hk, (seg_head (I.real hi rfl rfl hk)).1⟩ (.inl ⟨rfl, rfl⟩) rfl rfl
  | grow =>
    refine ⟨u, ?_⟩
    cases hg
    exact I.add_control (lg := s.sh.log) hi hd hk (.inl ⟨rfl, rfl⟩) rfl rfl
  | flush =>
    refine ⟨u, ?_⟩
    cases hg
    exact I.add_control (lg := s.sh.log) hi hd trivial (.inl ⟨rfl, rfl⟩) rfl rfl
  | unlock =>
    refine ⟨u, ?_⟩
    cases hg
    exact I.add_return (lg := none) hi (.inr (.inr ⟨rfl, rfl, rfl⟩)) rfl
  | insert =>
    refine ⟨u, ?_⟩
    simp only [goAdd] at hg
    cases hg
    have hk : f ∉ s.sh.files := hk
    have G := I.glob
    refine I.add_data hi hd rfl rfl rfl rfl ⟨G.bad, G.fresh, ?_, G.node, G.val, G.nodup, ?_, G.hist⟩
      (fun f hf' => List.mem_append_left _ hf') rfl rfl rfl (fun f => ⟨[], rfl⟩) ?_ ?_ (fun f' n hp => by cases hp)
    · refine List.nodup_append.2 ⟨G.files, by simp, ?_⟩
      intro a ha b hb e'
      rw [List.mem_singleton] at hb
      subst hb e'
      exact hk ha
    · intro g hg
      exact G.none g (fun e' => hg (List.mem_append_left _ e'))
    · exact List.mem_append_right _ (by simp)
    · intro g hg
      show Seg (upd s.sh.next f 0 0 g) (upd s.sh.prev f 0 0 g) 0 (u g ++ h g) 0
      by_cases e' : g = f
      · subst e'
        rw [G.none g hk]
        exact ⟨by simp [upd], by simp [upd]⟩
      · rw [upd_other _ _ _ e', upd_other _ _ _ e']
        refine I.real hi rfl rfl ?_
        rcases List.mem_append.1 hg with hg | hg
        · exact hg
        · exact (e' (List.mem_singleton.1 hg)).elim
  | node b =>
    refine ⟨u, ?_⟩
    simp only [goAdd] at hg
    cases hg
    obtain ⟨hk1, hk2⟩ := hk
    have G := I.glob
    have hval : ∀ g, ∀ n, n < s.sh.fresh → upd s.sh.val f s.sh.fresh (some e) g n = s.sh.val g n := by
      intro g n hn
      unfold upd
      rw [if_neg (fun h => by omega)]
    refine I.add_data hi hd rfl rfl rfl rfl ⟨G.bad, Nat.succ_pos _, G.files, ?_, ?_, G.nodup, G.none, ?_⟩
      (fun f hf' => hf') rfl rfl rfl (fun f => ⟨[], rfl⟩) ?_ (fun g hg => I.real hi rfl rfl hg) (fun f' n hp => by cases hp)
    · intro g n hn
      obtain ⟨a1, a2, a3⟩ := G.node g n hn
      exact ⟨a1, Nat.lt_succ_of_lt a2, by
        show (upd s.sh.val f s.sh.fresh (some e) g n).isSome = true
        rw [hval g n a2]; exact a3⟩
    · intro g n hn
      by_cases e' : n < s.sh.fresh
      · exact Nat.lt_succ_of_lt e'
      · have hn : (upd s.sh.val f s.sh.fresh (some e) g n).isSome = true := hn
        unfold upd at hn
        split at hn
        · rename_i hh; show n < s.sh.fresh + 1; omega
        · exact Nat.lt_succ_of_lt (G.val g n hn)
    · intro g
      rw [G.hist g]
      congr 1
      refine fm_congr ?_
      intro n hn
      exact (hval g n (G.node g n (List.mem_append_left _ (List.mem_reverse.1 hn))).2.1).symm
    · refine ⟨hk1, hk2, ?_, G.fresh, Nat.lt_succ_self _, by simp [upd]⟩
      intro hn
      exact Nat.lt_irrefl _ (G.node f _ hn).2.1
  | link b n =>
    simp only [goAdd] at hg
    cases hg
    obtain ⟨hk1, hk2, hk3, hk4, hk5, hk6⟩ := hk
    have G := I.glob
    have hseg := I.real hi rfl rfl hk1
    have hp0 : s.sh.prev f b = 0 := by rw [hk2]; exact (seg_head hseg).2
    have hz : 0 ∉ u f ++ h f := fun e' => Nat.lt_irrefl _ (G.node f 0 e').1
    refine ⟨fun g => if g = f then n :: u g else u g, ?_⟩
    have huf : (fun g => if g = f then n :: u g else u g) f = n :: u f := by simp
    have hug : ∀ g, g ≠ f → (fun g => if g = f then n :: u g else u g) g = u g := fun g e' => by simp [e']
    generalize hu : (fun g => if g = f then n :: u g else u g) = u' at huf hug
    refine I.add_data (u' := u') hi hd rfl rfl rfl rfl ⟨G.bad, G.fresh, G.files, ?_, G.val, ?_, ?_, ?_⟩
      (fun f hf' => hf') rfl rfl rfl ?_ ?_ ?_ ?_
    · intro g m hm
      by_cases e' : g = f
      · subst e'
        rw [huf, List.cons_append] at hm
        rcases List.mem_cons.1 hm with e' | hm
        · subst e'; exact ⟨hk4, hk5, by show (s.sh.val g m).isSome = true; rw [hk6]; rfl⟩
        · exact G.node g m hm
      · rw [hug g e'] at hm; exact G.node g m hm
    · intro g
      by_cases e' : g = f
      · subst e'; rw [huf, List.cons_append]; exact List.nodup_cons.2 ⟨hk3, G.nodup g⟩
      · rw [hug g e']; exact G.nodup g
    · intro g hg
      have : g ≠ f := fun e' => hg (e' ▸ hk1)
      rw [hug g this]; exact G.none g hg
    · intro g
      by_cases e' : g = f
      · subst e'
        rw [huf]
        show app s.sh.added g [e] g = s.sh.given g ++ List.filterMap (s.sh.val g) (n :: u g).reverse
        rw [List.reverse_cons, List.filterMap_append]
        simp only [app, if_true]
        rw [G.hist g, List.append_assoc]
        simp [hk6]
      · rw [hug g e']
        show app s.sh.added f [e] g = _
        unfold app
        rw [if_neg e']
        exact G.hist g
    · intro g
      by_cases e' : g = f
      · subst e'; exact ⟨[n], huf⟩
      · exact ⟨[], hug g e'⟩
    · exact ⟨hk1, hp0, u f ++ h f, by rw [huf]; rfl, hk2⟩
    · intro g hg
      by_cases e' : g = f
      · subst e'
        rw [huf, List.cons_append]
        simp only [vnext, vprev, if_true]
        rw [upd_set1, upd_set1, hp0, hk2]
        exact seg_push hseg (by omega) hk3 (G.nodup g) hz
      · have e'' : ¬ f = g := fun e => e' e.symm
        rw [hug g e']
        simp only [vnext, vprev, if_neg e'']
        rw [upd_other _ _ _ e', upd_other _ _ _ e']
        exact I.real hi rfl rfl hg
    · intro f' n' hp
      right
      simp only [pending] at hp
      cases hp
      exact hk3
  | hook1 b n p =>
    refine ⟨u, ?_⟩
    simp only [goAdd] at hg
    cases hg
    have G := I.glob
    refine I.add_data hi hd rfl rfl rfl rfl ⟨G.bad, G.fresh, G.files, G.node, G.val, G.nodup, G.none, G.hist⟩
      (fun f hf' => hf') rfl rfl rfl (fun f => ⟨[], rfl⟩) ⟨hk.1, hk.2.2⟩ ?_ (fun f' n hp => .inl hp)
    intro g hg
    have h0 := I.heap g hg
    rw [hf_self hi ((I.lock i).2 ⟨_, hi, rfl⟩)] at h0
    simp only [List.head?_cons, vnext, vprev] at h0
    simp only [vnext, vprev]
    by_cases e' : f = g
    · subst e'
      rw [upd_set1]
      simpa using h0
    · rw [upd_other _ _ _ (fun e => e' e.symm)]
      simp only [if_neg e'] at h0 ⊢
      exact h0
  | hook2 b n =>
    refine ⟨u, ?_⟩
    simp only [goAdd] at hg
    cases hg
    have G := I.glob
    refine I.add_data hi hd rfl rfl rfl rfl ⟨G.bad, G.fresh, G.files, G.node, G.val, G.nodup, G.none, G.hist⟩
      (fun f hf' => hf') rfl rfl rfl (fun f => ⟨[], rfl⟩) hk.1 ?_ (fun f' n hp => by cases hp)
    intro g hg
    have h0 := I.heap g hg
    rw [hf_self hi ((I.lock i).2 ⟨_, hi, rfl⟩)] at h0
    simp only [List.head?_cons, vnext, vprev] at h0
    simp only [vnext, vprev]
    by_cases e' : f = g
    · subst e'
      rw [upd_set1]
      simpa using h0
    · rw [upd_other _ _ _ (fun e => e' e.symm)]
      simp only [if_neg e'] at h0
      exact h0

/-- Steps of `start_logging` that do not change the memory. -/
theorem Inv.loop_control (I : Inv nf s u h) {k : List Frame} {pc pc' : Loop} {lg : Option Nat}
    (hi : s.threads[i]? = some (.loop pc :: k)) (hok : LoopOk s.sh u h pc')
    (hlk : LockStep i s.sh.log lg (locked (.loop pc :: k)) (locked (.loop pc' :: k)))
    (hcur : ∀ f, h f ≠ [] → cur [.loop pc] = some f → cur [.loop pc'] = some f)
    (m1 : mid (some (.loop pc)) = false) (m2 : mid (some (.loop pc')) = false) :
    Inv nf (after s i { s.sh with log := lg } (.loop pc' :: k)) u h := by
  have ho := I.thr i _ hi
  generalize hr : role s i = r at ho
  cases ho with
  | loop pc h1 h2 =>
    refine I.control (lg := lg) (cg := s.sh.cfg) hi (by simp) ?_ hlk (.inl ⟨rfl, rfl⟩) m1 m2 (fun _ => hcur)
      (.inr fun f b it p hm => by simp at hm)
    rw [hr]
    exact .loop _ h1 hok

theorem Inv.loop_ok (I : Inv nf s u h) {k : List Frame} {pc : Loop} (hi : s.threads[i]? = some (.loop pc :: k)) :
    k = [] ∧ role s i = .logger ∧ i = 1 ∧ s.sh.ended = false ∧ s.sh.joined = false ∧ LoopOk s.sh u h pc := by
  have ho := I.thr i _ hi
  generalize hr : role s i = r at ho
  cases ho with
  | loop pc h1 h2 => exact ⟨rfl, rfl, role_logger hr, h1, I.unjoined hi (by simp) (by rw [hr]; simp), h2⟩

/-- Steps of `start_logging` that change the memory. -/
theorem Inv.loop_data (I : Inv nf s u h) {pc pc' : Loop} {f : File} {h' : File → List Nat}
    (hi : s.threads[i]? = some [.loop pc]) (hl : locked [.loop pc] = true) (hl' : locked [.loop pc'] = true)
    (hlog : sh.log = s.sh.log) (hcfg : sh.cfg = s.sh.cfg) (hglob : Glob sh u h')
    (h1 : sh.files = s.sh.files) (h2 : sh.ended = s.sh.ended) (h3 : sh.joined = s.sh.joined) (h4 : sh.isLogging = s.sh.isLogging)
    (hok : LoopOk sh u h' pc') (hc : cur [.loop pc] = some f) (hc' : cur [.loop pc'] = some f) (hh : ∀ g, h' g ≠ [] → h g ≠ [])
    (hheap : ∀ g ∈ sh.files, Seg (vnext (some (.loop pc')) g (sh.next g)) (vprev (some (.loop pc')) g (sh.prev g)) 0 (u g ++ h' g) 0) :
    Inv nf (after s i sh [.loop pc']) u h' := by
  have hlt : i < s.threads.length := (List.getElem?_eq_some_iff.1 hi).1
  obtain ⟨_, hr, hi1, he, hjf, _⟩ := I.loop_ok hi
  have hown := (I.lock i).2 ⟨_, hi, hl⟩
  have hhf : hf (after s i sh [.loop pc']) = some (.loop pc') := hf_after_self hi (by rw [hlog]; exact hown)
  refine I.update hi (by simp) hglob (by rw [hhf]; exact hheap) ?_
    (I.others hi (by simp) (by rw [hr]; simp) hl (by rw [h1]; exact fun f hf => hf) (.inl h2) h3 h4 (.inl hi1)) (.inl ⟨hlog, by rw [hl, hl']⟩)
    (.inl ⟨hcfg, rfl⟩) ?_ ?_ ?_
  · rw [hr]
    exact .loop _ (by rw [h2]; exact he) hok
  · intro _ g hg
    obtain ⟨t, ht, hct⟩ := I.idle hjf g (hh g hg)
    subst hi1
    rw [hi] at ht
    cases ht
    rw [hc] at hct
    cases hct
    rw [List.getElem?_set_self hlt]
    exact ⟨_, rfl, hc'⟩
  · intro f' n hp
    rw [hhf] at hp
    cases hp
  · intro hj
    rw [h3, hjf] at hj
    cases hj

/-- Between log files, no entry has been written without being erased. -/
theorem Inv.loop_idle (I : Inv nf s u h) {k : List Frame} {pc : Loop} (hi : s.threads[i]? = some (.loop pc :: k)) (hc : cur [.loop pc] = none)
    (f : File) : h f = [] := by
  obtain ⟨hk, _, hi1, _, hj, _⟩ := I.loop_ok hi
  cases e : h f with
  | nil => rfl
  | cons a l =>
    obtain ⟨t, ht, hct⟩ := I.idle hj f (by rw [e]; simp)
    subst hi1 hk
    rw [hi] at ht
    cases ht
    rw [hc] at hct
    cases hct

theorem head?_of_headD {l : List Nat} (hl : l ≠ []) : l.head? = some (l.headD 0) := by
  cases l with
  | nil => exact (hl rfl).elim
  | cons a l => rfl

theorem Inv.step_loop (I : Inv nf s u h) {k : List Frame} {pc : Loop} {c : Choice}
    (hi : s.threads[i]? = some (.loop pc :: k)) (hg : go s.sh i c (.loop pc :: k) = some (sh, st')) :
    ∃ h', Inv nf (after s i sh st') u h' := by
  obtain ⟨hk0, hr, hi1, he, hj, hk⟩ := I.loop_ok hi
  simp only [go] at hg
  have G := I.glob
  have hz : ∀ f, 0 ∉ u f ++ h f := fun f e' => Nat.lt_irrefl _ (G.node f 0 e').1
  cases pc with
  | lock | wake =>
    refine ⟨h, ?_⟩
    simp only [goLoop] at hg
    split at hg
    · rename_i hn
      cases hg
      exact I.loop_control (lg := some i) hi trivial (.inr (.inl ⟨hn, rfl, rfl⟩)) (fun f _ hc => by cases hc) rfl rfl
    · cases hg
  | test =>
    refine ⟨h, ?_⟩
    simp only [goLoop] at hg
    cases hg
    split
    · split
      · exact I.loop_control (lg := s.sh.log) hi trivial (.inl ⟨rfl, rfl⟩) (fun f _ hc => by cases hc) rfl rfl
      · exact I.loop_control (lg := s.sh.log) hi trivial (.inl ⟨rfl, rfl⟩) (fun f _ hc => by cases hc) rfl rfl
    · exact I.loop_control (lg := s.sh.log) hi trivial (.inl ⟨rfl, rfl⟩) (fun f _ hc => by cases hc) rfl rfl
  | wait =>
    refine ⟨h, ?_⟩
    cases hg
    exact I.loop_control (lg := none) hi trivial (.inr (.inr ⟨rfl, rfl, rfl⟩)) (fun f _ hc => by cases hc) rfl rfl
  | scan =>
    refine ⟨h, ?_⟩
    cases c with
    | file f =>
      simp only [goLoop] at hg
      split at hg
      · rename_i hf'
        cases hg
        exact I.loop_control (lg := s.sh.log) hi hf' (.inl ⟨rfl, rfl⟩) (fun f _ hc => by cases hc) rfl rfl
      · cases hg
    | go | alt | fail | call fn =>
      simp only [goLoop] at hg
      cases hg
      exact I.loop_control (lg := s.sh.log) hi trivial (.inl ⟨rfl, rfl⟩) (fun f _ hc => by cases hc) rfl rfl
  | check f =>
    refine ⟨h, ?_⟩
    simp only [goLoop] at hg
    cases hg
    split
    · exact I.loop_control (lg := s.sh.log) hi trivial (.inl ⟨rfl, rfl⟩) (fun f _ hc => by cases hc) rfl rfl
    · rename_i hn
      refine I.loop_control (lg := s.sh.log) hi ⟨hk, ?_⟩ (.inl ⟨rfl, rfl⟩) (fun f _ hc => by cases hc) rfl rfl
      intro e'
      have h0 := (seg_head (I.real hi rfl rfl hk)).1
      rw [e'] at h0
      exact hn (.inl h0)
  | begin f =>
    refine ⟨h, ?_⟩
    cases hg
    refine I.loop_control (lg := s.sh.log) hi ⟨hk.1, ?_⟩ (.inl ⟨rfl, rfl⟩) (fun f _ hc => by cases hc) rfl rfl
    rw [(seg_head (I.real hi rfl rfl hk.1)).1]
    exact head?_of_headD hk.2
  | unlock f b =>
    refine ⟨h, ?_⟩
    cases hg
    have h0 : h f = [] := I.loop_idle hi rfl f
    subst hk0
    refine I.control (lg := none) (cg := s.sh.cfg) hi (by simp) ?_ (.inr (.inr ⟨rfl, rfl, rfl⟩)) (.inl ⟨rfl, rfl⟩) rfl rfl
      (fun _ f hf hc => by cases hc) (.inl rfl)
    rw [hr]
    refine .put _ _ _ _ _ _ (.loop f he) ⟨hk.1, [], u f, rfl, hk.2, fun _ => rfl, ?_⟩
    show 0 = (h f).headD 0
    rw [h0]
    rfl
  | await f => exact hk.elim
  | relock f it =>
    refine ⟨h, ?_⟩
    simp only [goLoop] at hg
    split at hg
    · rename_i hn
      cases hg
      exact I.loop_control (lg := some i) hi hk (.inr (.inl ⟨hn, rfl, rfl⟩)) (fun f _ hc => hc) rfl rfl
    · cases hg
  | erase f it =>
    refine ⟨h, ?_⟩
    simp only [goLoop] at hg
    cases hg
    have hsplit : h f = [] ∨ ∃ h', h f = it :: h' := by
      rw [hk.2]
      cases h f with
      | nil => exact .inl rfl
      | cons a l => exact .inr ⟨l, rfl⟩
    split
    · rename_i e'
      refine I.loop_control (lg := s.sh.log) hi trivial (.inl ⟨rfl, rfl⟩) ?_ rfl rfl
      intro g hg hc
      have : f = g := by simpa [cur] using hc
      subst this
      rcases hsplit with e1 | ⟨h', e1⟩
      · exact (hg e1).elim
      · exact (hz f (by rw [e1, e']; simp)).elim
    · rename_i e'
      refine I.loop_control (lg := s.sh.log) hi ?_ (.inl ⟨rfl, rfl⟩) (fun f _ hc => hc) rfl rfl
      rcases hsplit with e1 | ⟨h', e1⟩
      · exact (e' (by rw [hk.2, e1]; rfl)).elim
      · refine ⟨hk.1, h', e1, ?_⟩
        have h0 := I.real hi rfl rfl hk.1
        rw [e1, seg_append] at h0
        exact (seg_head h0.2).1
  | unhook1 f it nx =>
    simp only [goLoop] at hg
    cases hg
    subst hk0
    obtain ⟨hk1, hl, hk2, hk3⟩ := hk
    refine ⟨fun g => if g = f then hl else h g, ?_⟩
    have hhf : (fun g => if g = f then hl else h g) f = hl := by simp
    have hhg : ∀ g, g ≠ f → (fun g => if g = f then hl else h g) g = h g := fun g e' => by simp [e']
    generalize hu : (fun g => if g = f then hl else h g) = h' at hhf hhg
    have hsub : ∀ g, List.Sublist (u g ++ h' g) (u g ++ h g) := by
      intro g
      by_cases e' : g = f
      · subst e'
        rw [hhf, hk2]
        exact List.Sublist.append_left (List.sublist_cons_self ..) _
      · rw [hhg g e']
        exact List.Sublist.refl _
    have hnd := G.nodup f
    have hin : it ∈ u f ++ h f := by rw [hk2]; simp
    have hni : it ∉ u f ++ h' f := by
      rw [hhf]
      rw [hk2] at hnd
      intro hm
      rw [List.nodup_append] at hnd
      rcases List.mem_append.1 hm with hm | hm
      · exact hnd.2.2 it hm it (by simp) rfl
      · exact (List.nodup_cons.1 hnd.2.1).1 hm
    refine I.loop_data (h' := h') (f := f) hi rfl rfl rfl rfl ⟨G.bad, G.fresh, G.files, fun g n hn => G.node g n ((hsub g).subset hn), G.val,
      fun g => (G.nodup g).sublist (hsub g), ?_, G.hist⟩ rfl rfl rfl rfl ⟨hk1, hni, (G.node f it hin).1, (G.node f it hin).2.2, ?_⟩ rfl rfl ?_ ?_
    · intro g hg
      have : g ≠ f := fun e' => hg (e' ▸ hk1)
      rw [hhg g this]
      exact G.none g hg
    · rw [hhf]; exact hk3
    · intro g hg
      by_cases e' : g = f
      · subst e'; rw [hk2]; simp
      · rw [hhg g e'] at hg; exact hg
    · intro g hg
      have h0 := I.real hi rfl rfl hg
      by_cases e' : g = f
      · subst e'
        rw [hhf]
        simp only [vnext, vprev, if_true]
        rw [upd_set1, hk3]
        rw [hk2] at h0 hnd
        have hz' := hz g
        rw [hk2] at hz'
        exact seg_remove h0 hnd hz'
      · have e'' : ¬ f = g := fun e => e' e.symm
        rw [hhg g e']
        simp only [vnext, vprev, if_neg e'']
        rw [upd_other _ _ _ e']
        exact h0
  | unhook2 f it nx p =>
    refine ⟨h, ?_⟩
    simp only [goLoop] at hg
    cases hg
    subst hk0
    refine I.loop_data (f := f) hi rfl rfl rfl rfl ⟨G.bad, G.fresh, G.files, G.node, G.val, G.nodup, G.none, G.hist⟩ rfl rfl rfl rfl hk rfl rfl
      (fun g hg => hg) ?_
    intro g hg
    have h0 := I.heap g hg
    rw [hf_self hi ((I.lock i).2 ⟨_, hi, rfl⟩)] at h0
    simp only [List.head?_cons, vnext, vprev] at h0
    simp only [vnext, vprev]
    by_cases e' : f = g
    · subst e'
      rw [upd_set1]
      simpa using h0
    · rw [upd_other _ _ _ (fun e => e' e.symm)]
      simp only [if_neg e'] at h0
      exact h0
  | free f it nx =>
    refine ⟨h, ?_⟩
    simp only [goLoop] at hg
    cases hg
    subst hk0
    have hval : ∀ g n, ¬ (g = f ∧ n = it) → upd s.sh.val f it none g n = s.sh.val g n := by
      intro g n hn
      unfold upd
      rw [if_neg hn]
    have hval' : ∀ g, ∀ n ∈ u g ++ h g, upd s.sh.val f it none g n = s.sh.val g n := by
      intro g n hn
      refine hval g n ?_
      rintro ⟨rfl, rfl⟩
      exact hk.2.1 hn
    refine I.loop_data (f := f) hi rfl rfl rfl rfl ⟨G.bad, G.fresh, G.files, ?_, ?_, G.nodup, G.none, ?_⟩ rfl rfl rfl rfl ⟨hk.1, hk.2.2.2.2⟩ rfl rfl
      (fun g hg => hg) (fun g hg => I.real hi rfl rfl hg)
    · intro g n hn
      have := G.node g n hn
      refine ⟨this.1, this.2.1, ?_⟩
      show (upd s.sh.val f it none g n).isSome = true
      rw [hval' g n hn]
      exact this.2.2
    · intro g n hn
      have hn : (upd s.sh.val f it none g n).isSome = true := hn
      by_cases e' : g = f ∧ n = it
      · unfold upd at hn
        rw [if_pos e'] at hn
        cases hn
      · rw [hval g n e'] at hn
        exact G.val g n hn
    · intro g
      rw [G.hist g]
      congr 1
      refine fm_congr ?_
      intro n hn
      exact (hval' g n (List.mem_append_left _ (List.mem_reverse.1 hn))).symm
  | unlockEnd =>
    refine ⟨h, ?_⟩
    simp only [goLoop] at hg
    cases hg
    have hall := I.loop_idle hi rfl
    have hlt : i < s.threads.length := (List.getElem?_eq_some_iff.1 hi).1
    subst hk0
    have hnone : hf (after s i { s.sh with log := none, ended := true } []) = none := rfl
    refine I.update hi (by simp) ⟨G.bad, G.fresh, G.files, G.node, G.val, G.nodup, G.none, G.hist⟩ ?_ ?_
      (I.others hi (by simp) (by rw [hr]; simp) rfl (fun f hf => hf) (.inr hi1) rfl rfl (.inl hi1)) (.inr (.inr ⟨rfl, rfl, rfl⟩))
      (.inl ⟨rfl, rfl⟩) ?_ ?_ ?_
    · intro g hg
      exact I.real hi rfl rfl hg
    · rw [hr]
      exact .nil _ (fun _ => rfl) (fun e => by cases e)
    · intro _ f hf
      exact (hf (hall f)).elim
    · intro f n hp
      rw [hnone] at hp
      cases hp
    · intro hj'
      have hj' : s.sh.joined = true := hj'
      rw [hj] at hj'
      cases hj'
end

end Pluto.LogRace
