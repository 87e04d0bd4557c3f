import Verif.Proofs.LogRacePut

/-! # Reachable states: no access to memory that does not exist, no data race -/

namespace Pluto.LogRace

section
variable {nf : Prop} {s : State} {u h : File → List Nat} {i : Nat}

theorem Inv.exists_link (_ : Inv nf s u h) {f : File} {n : Nat} (hf' : f ∈ s.sh.files) (hn : n = 0 ∨ (s.sh.val f n).isSome = true) :
    exists' s.sh (.next f n) = true ∧ exists' s.sh (.prev f n) = true := by
  have : exists' s.sh (.next f n) = true := by
    simp only [exists', hf', decide_true, Bool.true_and, Bool.or_eq_true, beq_iff_eq]
    exact hn
  exact ⟨this, this⟩

theorem Inv.link_mem (I : Inv nf s u h) {f : File} {n : Nat} (hn : n ∈ u f ++ h f) : n = 0 ∨ (s.sh.val f n).isSome = true :=
  .inr (I.glob.node f n hn).2.2

theorem Inv.link_headD (I : Inv nf s u h) {f : File} {l : List Nat} (hl : ∀ x ∈ l, x ∈ u f ++ h f) :
    l.headD 0 = 0 ∨ (s.sh.val f (l.headD 0)).isSome = true := by
  rcases headD_mem_or (l := l) with hm | hm
  · exact I.link_mem (hl _ hm)
  · rw [hm]; exact .inl rfl

theorem mem_lent {fr : Frame} {a : Loc × Bool} (ha : a ∈ lent fr) : ∃ f b it, fr = .put f b it .done ∧ a = (.val f it, false) := by
  unfold lent at ha
  split at ha
  · exact ⟨_, _, _, rfl, by simpa using ha⟩
  · cases ha

/-- What a log writer may access is in the buffer. -/
theorem Inv.lent_ok (I : Inv nf s u h) {st : List Frame} (hi : s.threads[i]? = some st) {f : File} {b it : Nat} (hm : Frame.put f b it .done ∈ st) :
    f ∈ s.sh.files ∧ it ∈ u f ++ h f := by
  obtain ⟨hf', w, x, _, _, _, e4, e5⟩ := (I.thr i st hi).mem_put hm
  refine ⟨hf', List.mem_append_right _ ?_⟩
  rcases headD_mem_or (l := h f) with hm | hm
  · rw [e4]; exact hm
  · exact (e5 hm).elim

theorem Inv.add_ok (I : Inv nf s u h) {k : List Frame} {f : File} {e : Entry} {pc : Add} (hi : s.threads[i]? = some (.add f e pc :: k)) :
    AddOk s.sh u h f e pc := by
  have ho := I.thr i _ hi
  generalize role s i = r at ho
  cases ho with
  | add r f e pc k h1 h2 h3 => exact h2

theorem Inv.dtor_ok (I : Inv nf s u h) {k : List Frame} {pc : Dtor} (hi : s.threads[i]? = some (.dtor pc :: k)) :
    role s i = .dtor ∧ DtorOk nf s.sh u h pc := by
  have ho := I.thr i _ hi
  generalize role s i = r at ho
  cases ho with
  | dtor pc h1 => exact ⟨rfl, h1⟩

theorem Inv.sound (I : Inv nf s u h) {st : List Frame} (hi : s.threads[i]? = some st) : sound s.sh st = true := by
  have G := I.glob
  cases st with
  | nil => rfl
  | cons fr k =>
    unfold LogRace.sound
    simp only [List.head?_cons, Bool.or_eq_true]
    by_cases hc : creates fr = true
    · exact .inl hc
    right
    rw [List.all_eq_true]
    intro a ha
    unfold accesses at ha
    rcases List.mem_append.1 ha with ha | ha
    · cases fr with
      | user => cases ha
      | maker => simp only [frameAccesses, List.mem_singleton] at ha; subst ha; rfl
      | cfg w a' pc =>
        cases pc <;> simp only [frameAccesses, List.mem_singleton, List.not_mem_nil] at ha
        subst ha; rfl
      | add f e pc =>
        have hk := I.add_ok hi
        cases pc with
        | test | lock | unlock => cases ha
        | insert => exact (hc rfl).elim
        | node b => exact (hc rfl).elim
        | find =>
          simp only [frameAccesses, List.mem_cons, List.mem_map] at ha
          rcases ha with rfl | ⟨g, hg, rfl⟩
          · rfl
          · simpa [exists'] using hg
        | full | flush | grow =>
          have hk : f ∈ s.sh.files := hk
          simp only [frameAccesses, List.mem_singleton] at ha
          subst ha
          simpa [exists'] using hk
        | begin =>
          simp only [frameAccesses, List.mem_singleton] at ha
          subst ha
          exact (I.exists_link hk (.inl rfl)).1
        | link b n =>
          obtain ⟨k1, k2, k3, k4, k5, k6⟩ := hk
          have hb : b = 0 ∨ (s.sh.val f b).isSome = true := by rw [k2]; exact I.link_headD (fun x hx => hx)
          have hn : n = 0 ∨ (s.sh.val f n).isSome = true := .inr (by rw [k6]; rfl)
          simp only [frameAccesses, List.mem_cons, List.not_mem_nil, or_false] at ha
          rcases ha with rfl | rfl | rfl
          · exact (I.exists_link k1 hn).1
          · exact (I.exists_link k1 hb).2
          · exact (I.exists_link k1 hn).2
        | hook1 b n p =>
          obtain ⟨k1, k2, q, k3, k4⟩ := hk
          have hb : b = 0 ∨ (s.sh.val f b).isSome = true := by rw [k4]; exact I.link_headD (fun x hx => by rw [k3]; exact List.mem_cons_of_mem _ hx)
          simp only [frameAccesses, List.mem_cons, List.not_mem_nil, or_false] at ha
          rcases ha with rfl | rfl
          · exact (I.exists_link k1 hb).2
          · exact (I.exists_link k1 (.inl k2)).1
        | hook2 b n =>
          obtain ⟨k1, q, k3, k4⟩ := hk
          have hb : b = 0 ∨ (s.sh.val f b).isSome = true := by rw [k4]; exact I.link_headD (fun x hx => by rw [k3]; exact List.mem_cons_of_mem _ hx)
          simp only [frameAccesses, List.mem_singleton] at ha
          subst ha
          exact (I.exists_link k1 hb).2
      | loop pc =>
        obtain ⟨_, _, _, _, _, hk⟩ := I.loop_ok hi
        cases pc with
        | lock | test | wait | wake | unlock | await | relock | unlockEnd => cases ha
        | scan => simp only [frameAccesses, List.mem_singleton] at ha; subst ha; rfl
        | check f =>
          have hk : f ∈ s.sh.files := hk
          simp only [frameAccesses, List.mem_cons, List.not_mem_nil, or_false] at ha
          rcases ha with rfl | rfl
          · exact (I.exists_link hk (.inl rfl)).1
          · simpa [exists'] using hk
        | begin f =>
          simp only [frameAccesses, List.mem_singleton] at ha
          subst ha
          exact (I.exists_link hk.1 (.inl rfl)).1
        | erase f it =>
          simp only [frameAccesses] at ha
          split at ha
          · cases ha
          · rw [List.mem_singleton] at ha
            subst ha
            refine (I.exists_link hk.1 ?_).1
            rw [hk.2]
            exact I.link_headD (fun x hx => List.mem_append_right _ hx)
        | unhook1 f it nx =>
          obtain ⟨k1, h', k2, k3⟩ := hk
          have hit : it ∈ u f ++ h f := by rw [k2]; simp
          have hpr : s.sh.prev f it = 0 ∨ (s.sh.val f (s.sh.prev f it)).isSome = true := by
            have h0 := I.real hi rfl rfl k1
            rw [k2, seg_append] at h0
            have hl := seg_last h0.1
            rcases List.mem_cons.1 hl with e | e
            · exact .inl e
            · exact I.link_mem (List.mem_append_left _ e)
          simp only [frameAccesses, List.mem_cons, List.not_mem_nil, or_false] at ha
          rcases ha with rfl | rfl | rfl
          · exact (I.exists_link k1 (I.link_mem hit)).1
          · exact (I.exists_link k1 (I.link_mem hit)).2
          · exact (I.exists_link k1 hpr).1
        | unhook2 f it nx p =>
          simp only [frameAccesses, List.mem_singleton] at ha
          subst ha
          refine (I.exists_link hk.1 ?_).2
          rw [hk.2.2.2.2]
          exact I.link_headD (fun x hx => List.mem_append_right _ hx)
        | free f it nx =>
          have hv := hk.2.2.2.1
          have hf' := hk.1
          simp only [frameAccesses, List.mem_cons, List.not_mem_nil, or_false] at ha
          rcases ha with rfl | rfl | rfl | rfl
          · simp [exists', hf', hv]
          · exact (I.exists_link hf' (.inr hv)).1
          · exact (I.exists_link hf' (.inr hv)).2
          · simpa [exists'] using hf'
      | put f b it pc =>
        obtain ⟨_, hf', w, x, e1, e2, e3, e4⟩ := I.put_ok hi
        cases pc with
        | test | header | headCall | headDone | copy | done => cases ha
        | path | dirs =>
          simp only [frameAccesses, List.mem_cons, List.not_mem_nil, or_false] at ha
          rcases ha with rfl | rfl <;> simpa [exists'] using hf'
        | opens | rotate =>
          simp only [frameAccesses, List.mem_singleton] at ha
          subst ha
          simpa [exists'] using hf'
        | back =>
          simp only [frameAccesses, List.mem_singleton] at ha
          subst ha
          refine (I.exists_link hf' ?_).2
          rw [e4.1]
          exact I.link_headD (fun x hx => List.mem_append_right _ hx)
        | give =>
          obtain ⟨x', rfl⟩ := e4
          simp only [frameAccesses, List.mem_singleton] at ha
          subst ha
          have := (G.node f it (by rw [e1]; simp)).2.2
          simp [exists', hf', this]
      | dtor pc =>
        obtain ⟨_, hk⟩ := I.dtor_ok hi
        cases pc with
        | stop => cases ha
        | join => simp only [frameAccesses, List.mem_singleton] at ha; subst ha; rfl
        | list => simp only [frameAccesses, List.mem_singleton] at ha; subst ha; rfl
        | scan rest => simp only [frameAccesses, List.mem_singleton] at ha; subst ha; rfl
        | check f rest =>
          simp only [frameAccesses, List.mem_singleton] at ha
          subst ha
          exact (I.exists_link (hk.2.2.2.2.1 f (by simp)).1 (.inl rfl)).1
        | begin f rest =>
          simp only [frameAccesses, List.mem_singleton] at ha
          subst ha
          exact (I.exists_link (hk.1.2.2.2.2.1 f (by simp)).1 (.inl rfl)).1
    · obtain ⟨fr', hfr, ha⟩ := List.mem_flatMap.1 ha
      obtain ⟨f, b, it, rfl, rfl⟩ := mem_lent ha
      obtain ⟨hf', hm⟩ := I.lent_ok hi (List.mem_cons_of_mem _ hfr)
      simp [exists', hf', (G.node f it hm).2.2]

theorem Inv.start (I : Inv nf s u h) (hd : s.destroyer = none) {dest : Option Nat} {t : List Frame}
    (hdest : dest = none ∨ (dest = some s.threads.length ∧ ∀ (j : Nat) (st : List Frame), s.threads[j]? = some st → j ≠ 1 → st = []))
    (hok : Ok nf s.sh u h (role { s with threads := s.threads ++ [t], destroyer := dest } s.threads.length) t)
    (hl : locked t = false) (hc : cfgLocked t = false) (hp : ∀ f b it pc, Frame.put f b it pc ∉ t) :
    Inv nf { s with threads := s.threads ++ [t], destroyer := dest } u h := by
  have hlen := I.len
  have hget : ∀ (j : Nat) (st : List Frame), (s.threads ++ [t])[j]? = some st → s.threads[j]? = some st ∨ (j = s.threads.length ∧ st = t) := by
    intro j st hj
    by_cases e : j < s.threads.length
    · rw [List.getElem?_append_left e] at hj; exact .inl hj
    · have hlt := (List.getElem?_eq_some_iff.1 hj).1
      rw [List.length_append, List.length_singleton] at hlt
      have e' : j = s.threads.length := by omega
      subst e'
      rw [List.getElem?_append_right (Nat.le_refl _)] at hj
      simp at hj
      exact .inr ⟨rfl, hj.symm⟩
  have hget' : ∀ (j : Nat) (st : List Frame), s.threads[j]? = some st → (s.threads ++ [t])[j]? = some st := by
    intro j st hj
    rw [List.getElem?_append_left (List.getElem?_eq_some_iff.1 hj).1]; exact hj
  have hlk : ∀ (p : List Frame → Bool) (o : Option Nat), p t = false → (∀ i : Nat, o = some i ↔ ∃ st, s.threads[i]? = some st ∧ p st = true) →
      ∀ i : Nat, o = some i ↔ ∃ st, (s.threads ++ [t])[i]? = some st ∧ p st = true := by
    intro p o hpt ho i
    rw [ho i]
    constructor
    · rintro ⟨st, h1, h2⟩; exact ⟨st, hget' i st h1, h2⟩
    · rintro ⟨st, h1, h2⟩
      rcases hget i st h1 with h1 | ⟨_, rfl⟩
      · exact ⟨st, h1, h2⟩
      · rw [hpt] at h2; cases h2
  have hhf : hf { s with threads := s.threads ++ [t], destroyer := dest } = hf s := by
    unfold hf
    cases e : s.sh.log with
    | none => simp only
    | some j =>
      obtain ⟨st, hst, _⟩ := (I.lock j).1 e
      simp only [hst, hget' j st hst]
  refine ⟨I.glob, by rw [hhf]; exact I.heap, ?_, hlk _ _ hl I.lock, hlk _ _ hc I.cfg, ?_, ?_, ?_, ?_, ?_⟩
  · intro j st hj
    rcases hget j st hj with h1 | ⟨rfl, rfl⟩
    · have hjl := (List.getElem?_eq_some_iff.1 h1).1
      have : role { s with threads := s.threads ++ [t], destroyer := dest } j = role s j := by
        unfold role
        rw [hd]
        rcases hdest with e | ⟨e, _⟩
        · rw [e]
        · simp only [e]
          have : ¬ (some s.threads.length = some j) := by
            intro e'; cases e'; exact Nat.lt_irrefl _ hjl
          rw [if_neg this]
          simp
      rw [this]
      exact I.thr j st h1
    · exact hok
  · intro hj f hf'
    obtain ⟨st, h1, h2⟩ := I.idle hj f hf'
    exact ⟨st, hget' 1 st h1, h2⟩
  · intro f n hpn j st b it pc hj hm
    rw [hhf] at hpn
    rcases hget j st hj with h1 | ⟨rfl, rfl⟩
    · exact I.pend f n hpn j st b it pc h1 hm
    · exact (hp f b it pc hm).elim
  · intro d hd'
    have hd' : dest = some d := hd'
    rcases hdest with e | ⟨e, hall⟩
    · rw [e] at hd'; cases hd'
    · rw [e] at hd'
      cases hd'
      refine ⟨hlen, by simp, ?_⟩
      intro j st hj h1 h2
      rcases hget j st hj with h3 | ⟨h3, _⟩
      · exact hall j st h3 h1
      · exact (h2 h3).elim
  · simp only [List.length_append]; omega
  · intro hj
    exact ((I.joined hj).2 hd).elim

theorem inv_init : Inv nf {} (fun _ => []) (fun _ => []) := by
  refine ⟨⟨rfl, by decide, by simp, by simp, by simp, by simp, by simp, by simp⟩, by simp, ?_, ?_, ?_, by simp, ?_, by simp, by decide, by simp⟩
  · intro i st hi
    match i, hi with
    | 0, hi => cases hi; exact .maker
    | 1, hi => cases hi; exact .loop _ rfl trivial
  · intro i
    refine ⟨(fun e => by cases e), ?_⟩
    rintro ⟨st, hi, hl⟩
    match i, hi with
    | 0, hi => cases hi; cases hl
    | 1, hi => cases hi; cases hl
  · intro i
    refine ⟨(fun e => by cases e), ?_⟩
    rintro ⟨st, hi, hl⟩
    match i, hi with
    | 0, hi => cases hi; cases hl
    | 1, hi => cases hi; cases hl
  · intro f n hp
    cases hp

theorem Inv.step (I : Inv nf s u h) {ev : Event} {s' : State} (hs : step s ev = some s') (hnf : nf → NoFail s ev) :
    ∃ u' h', Inv nf s' u' h' := by
  cases ev with
  | go i c =>
    simp only [LogRace.step] at hs
    split at hs
    · rename_i st hi
      split at hs
      · rename_i sh st' hg
        cases hs
        have hb : sh.bad = false := by rw [go_bad hg]; exact I.glob.bad
        have : ({ sh with bad := s.sh.bad || !LogRace.sound s.sh st } : Shared) = sh := by
          rw [I.glob.bad, I.sound hi]
          cases sh
          simp at hb
          simp [hb]
        rw [this]
        exact I.go hi hg (fun hn hc e => hnf hn i (by rw [hc]) (role_dtor e))
      · cases hs
    · cases hs
  | user =>
    simp only [LogRace.step] at hs
    split at hs
    · rename_i hc
      cases hs
      have := I.len
      refine ⟨u, h, ?_⟩
      have := I.start hc.1 (dest := none) (t := [.user]) (.inl rfl) ?_ rfl rfl (by simp)
      · rw [hc.1]; exact this
      · unfold role
        rw [if_neg (by omega), if_neg (by omega), if_neg (by simp)]
        exact .user
    · cases hs
  | destroy =>
    simp only [LogRace.step] at hs
    split at hs
    · rename_i hc
      cases hs
      have hlen := I.len
      refine ⟨u, h, I.start hc.1 (dest := some s.threads.length) (t := [.dtor .stop]) (.inr ⟨rfl, ?_⟩) ?_ rfl rfl (by simp)⟩
      · intro j st hj h1
        have hall := List.all_eq_true.1 hc.2
        have hm : st ∈ s.threads.eraseIdx 1 := by
          rw [List.mem_eraseIdx_iff_getElem?]
          exact ⟨j, h1, hj⟩
        simpa using hall st hm
      · unfold role
        rw [if_neg (by omega), if_neg (by omega), if_pos rfl]
        refine .dtor _ ?_
        show s.sh.joined = false
        cases e : s.sh.joined with
        | false => rfl
        | true => exact ((I.joined e).2 hc.1).elim
    · cases hs

theorem inv_reachable {ok : State → Event → Prop} (hok : nf → ∀ s ev, ok s ev → NoFail s ev) (hr : Reachable ok s) : ∃ u h, Inv nf s u h := by
  induction hr with
  | init => exact ⟨_, _, inv_init⟩
  | step ev _ ho hs ih =>
    obtain ⟨u, h, I⟩ := ih
    exact I.step hs (fun hn => hok hn _ ev ho)

end

end Pluto.LogRace
