import Verif.Model.LruLife
import Verif.Spec.LruLife
import Verif.Proofs.Lru

/-! # Lemmas about the values the cache destroys -/

namespace Pluto.Lru
open Pluto.Spec.Lru
variable {K V : Type} [DecidableEq K] [DecidableEq V]

theorem lost_eq_nil {m m' : List (K × (V × Nat))} (h : ∀ e ∈ m, ∃ x ∈ m', x.1 = e.1 ∧ x.2.1 = e.2.1) : lost m m' = [] := by
  unfold lost
  rw [List.map_eq_nil_iff, List.filter_eq_nil_iff]
  intro e he
  obtain ⟨x, hx, h1, h2⟩ := h e he
  have : m'.any (fun x => decide (x.1 = e.1 ∧ x.2.1 = e.2.1)) = true :=
    List.any_eq_true.2 ⟨x, hx, by simp [h1, h2]⟩
  rw [this]; simp

@[simp] theorem lost_self (m : List (K × (V × Nat))) : lost m m = [] := lost_eq_nil fun e he => ⟨e, he, rfl, rfl⟩

@[simp] theorem lost_nil (m : List (K × (V × Nat))) : lost m [] = m.map (·.2.1) := by
  unfold lost; simp

@[simp] theorem lost_emplace (m : List (K × (V × Nat))) (k : K) (x : V × Nat) : lost m (mapEmplace m k x) = [] := by
  refine lost_eq_nil fun e he => ⟨e, ?_, rfl, rfl⟩
  unfold mapEmplace
  split
  · exact he
  · exact List.mem_cons_of_mem _ he

theorem lost_iter (m : List (K × (V × Nat))) (k : K) (i : Nat) :
    lost m (mapUpdate m k (fun e => (e.1, i))) = [] := by
  refine lost_eq_nil fun e he => ?_
  refine ⟨_, List.mem_map.2 ⟨e, he, rfl⟩, ?_⟩
  split <;> simp

theorem lost_erase (m : List (K × (V × Nat))) (k : K) :
    lost m (mapErase m k) = (m.filter (fun e => decide (e.1 = k))).map (·.2.1) := by
  unfold lost
  congr 1
  apply List.filter_congr
  intro e he
  by_cases hk : e.1 = k
  · have : (mapErase m k).any (fun x => decide (x.1 = e.1 ∧ x.2.1 = e.2.1)) = false := by
      rw [List.any_eq_false]
      intro x hx
      have := (List.mem_filter.1 hx).2
      simp only [decide_eq_true_eq] at this ⊢
      rintro ⟨h1, _⟩
      exact this (h1.trans hk)
    rw [this]; simp [hk]
  · have : (mapErase m k).any (fun x => decide (x.1 = e.1 ∧ x.2.1 = e.2.1)) = true :=
      List.any_eq_true.2 ⟨e, List.mem_filter.2 ⟨he, by simpa using hk⟩, by simp⟩
    rw [this]; simp [hk]

theorem lost_assign (m : List (K × (V × Nat))) (k : K) (v : V) :
    lost m (mapUpdate m k (fun e => (v, e.2))) =
      ((m.filter (fun e => decide (e.1 = k))).map (·.2.1)).filter (fun x => decide (x ≠ v)) := by
  unfold lost
  rw [List.filter_map, List.filter_filter]
  congr 1
  apply List.filter_congr
  intro e he
  simp only [Function.comp]
  by_cases hk : e.1 = k
  · by_cases hv : e.2.1 = v
    · have : (mapUpdate m k (fun e => (v, e.2))).any (fun x => decide (x.1 = e.1 ∧ x.2.1 = e.2.1)) = true :=
        List.any_eq_true.2 ⟨_, List.mem_map.2 ⟨e, he, rfl⟩, by simp [hk, hv]⟩
      rw [this]; simp [hv]
    · have : (mapUpdate m k (fun e => (v, e.2))).any (fun x => decide (x.1 = e.1 ∧ x.2.1 = e.2.1)) = false := by
        rw [List.any_eq_false]
        intro x hx
        obtain ⟨y, hy, rfl⟩ := List.mem_map.1 hx
        simp only [decide_eq_true_eq]
        rintro ⟨h1, h2⟩
        by_cases hyk : y.1 = k
        · rw [if_pos hyk] at h2; exact hv h2.symm
        · rw [if_neg hyk] at h1; exact hyk (h1.trans hk)
      rw [this]; simp [hk, hv]
  · have : (mapUpdate m k (fun e => (v, e.2))).any (fun x => decide (x.1 = e.1 ∧ x.2.1 = e.2.1)) = true :=
      List.any_eq_true.2 ⟨_, List.mem_map.2 ⟨e, he, rfl⟩, by simp [hk]⟩
    rw [this]; simp [hk]

/-! ## Programs -/

variable {ρ τ : Type}

theorem destroyed_bind {p : Prog (State K V) ρ} {g : ρ → Prog (State K V) τ} {s s' : State K V} {r : ρ}
    (h : p.run s = (.ok r, s')) : destroyed (p >>= g) s = destroyed p s ++ destroyed (g r) s' := by
  induction p generalizing s with
  | ret r' =>
    simp only [Prog.run, Prod.mk.injEq, Out.ok.injEq] at h
    obtain ⟨rfl, rfl⟩ := h
    rfl
  | throw => simp [Prog.run] at h
  | ub => simp [Prog.run] at h
  | step u n ih =>
    have := ih s (s := u s) h
    show lost s.map (u s).map ++ destroyed (n s >>= g) (u s) = _
    rw [this, ← List.append_assoc]; rfl

@[simp] theorem destroyed_pure (r : ρ) (s : State K V) : destroyed (pure r : Prog (State K V) ρ) s = [] := rfl

@[simp] theorem destroyed_read (f : State K V → ρ) (s : State K V) : destroyed (Prog.read f) s = [] := by
  simp [Prog.read, destroyed]

@[simp] theorem destroyed_read_bind (f : State K V → ρ) (g : ρ → Prog (State K V) τ) (s : State K V) :
    destroyed (Prog.read f >>= g) s = destroyed (g (f s)) s := by
  show lost s.map s.map ++ destroyed (g (f s)) s = _
  simp

@[simp] theorem destroyed_modify (f : State K V → State K V) (s : State K V) :
    destroyed (Prog.modify f) s = lost s.map (f s).map := by
  simp [Prog.modify, destroyed]

@[simp] theorem destroyed_modify_bind (f : State K V → State K V) (g : Unit → Prog (State K V) τ) (s : State K V) :
    destroyed (Prog.modify f >>= g) s = lost s.map (f s).map ++ destroyed (g ()) (f s) := rfl

@[simp] theorem destroyed_listErase (i : Nat) (s : State K V) : destroyed (listErase i) s = [] := by
  unfold listErase Prog.guarded
  by_cases h : s.list.any (fun n => decide (n.1 = i)) = true <;> simp [destroyed, h]

omit [DecidableEq V] in
theorem filter_key {s : State K V} {A B : List (Entry K V)} {i : Nat} {k : K} {v : V}
    (h : Rel s (A ++ (i, k, v) :: B)) : (s.map.filter (fun e => decide (e.1 = k))).map (·.2.1) = [v] := by
  have hk' : ∀ t ∈ A ++ B, t.2.1 ≠ k := by
    rintro t ht rfl; exact h.others.1 (List.mem_map.2 ⟨t, ht, rfl⟩)
  have hp := (h.map.trans (List.perm_middle.map _)).filter (fun e => decide (e.1 = k))
  rw [List.map_cons, List.filter_cons_of_pos (by simp)] at hp
  have hnil : ((A ++ B).map fun t => (t.2.1, (t.2.2, t.1))).filter (fun e => decide (e.1 = k)) = [] := by
    rw [List.filter_eq_nil_iff]
    intro e he
    obtain ⟨t, ht, rfl⟩ := List.mem_map.1 he
    simpa using hk' t ht
  rw [hnil, List.perm_singleton] at hp
  rw [hp]; rfl

/-- `evict_lru` destroys the value of the last entry. -/
theorem destroyed_evictLru {s : State K V} {A : List (Entry K V)} {t : Entry K V} (h : Rel s (A ++ [t])) :
    destroyed (evictLru noFaults) s = [t.2.2] := by
  obtain ⟨i, k, v⟩ := t
  have hl : s.list.getLast? = some (i, k) := by rw [h.list]; simp
  unfold evictLru
  simp only [destroyed_read_bind, hl, orThrow_noFaults, destroyed_modify_bind, destroyed_listErase, List.append_nil]
  rw [lost_erase]
  exact filter_key h

theorem destroyed_moveToFront {s : State K V} {A B : List (Entry K V)} {i : Nat} {k : K} {v : V}
    (h : Rel s (A ++ (i, k, v) :: B)) : destroyed (moveToFront noFaults k) s = [] := by
  have hfind : mapFind s.map k = some (v, i) := (h.find_some k v i).2 (by simp)
  unfold moveToFront listBegin
  simp only [destroyed_read_bind, hfind]
  split
  · rfl
  · rw [destroyed_bind (run_listErase h.erase.1), destroyed_listErase]
    simp [listPushFront, lost_iter]

/-- The eviction loop destroys the values of the entries beyond the capacity, the last one first. -/
theorem destroyed_shrink (fuel : Nat) {s : State K V} {T : List (Entry K V)} (h : Rel s T) (hf : T.length ≤ fuel) :
    destroyed (shrink noFaults fuel) s = ((T.drop s.capacity).map (·.2.2)).reverse := by
  induction fuel generalizing s T with
  | zero =>
    have : T = [] := List.length_eq_zero_iff.1 (by omega)
    subst this
    have := h.length
    unfold shrink size
    simp only [destroyed_read_bind, this, List.length_nil, Nat.not_lt_zero, if_false]
    simp
  | succ fuel ih =>
    unfold shrink size
    simp only [destroyed_read_bind, h.length]
    by_cases hc : s.capacity < T.length
    · have hne : T ≠ [] := by rintro rfl; simp at hc
      obtain ⟨A, t, rfl⟩ : ∃ A t, T = A ++ [t] :=
        ⟨T.dropLast, T.getLast hne, (List.dropLast_append_getLast hne).symm⟩
      obtain ⟨s1, h1, h2, h3, _⟩ := run_evictLru noFaults h hne rfl
      rw [List.dropLast_concat] at h2
      simp only [hc, if_true]
      rw [destroyed_bind h1, destroyed_evictLru h, ih h2 (by simp at hf; omega), h3]
      have : s.capacity ≤ A.length := by simp at hc; omega
      rw [List.drop_append_of_le_length this]
      simp
    · simp only [hc, if_false]
      rw [List.drop_of_length_le (by omega)]; rfl

/-! ## The specification -/

/-- What is gone, when the pairs of `R` and no others are. -/
theorem gone_perm {X Y R S : List (K × V)} (h : X.Perm (R ++ S)) (hR : ∀ e ∈ R, e ∉ Y) (hS : ∀ e ∈ S, e ∈ Y) :
    (gone X Y).Perm (R.map (·.2)) := by
  unfold gone
  refine ((h.filter _).map _).trans (List.Perm.of_eq ?_)
  rw [List.filter_append, List.filter_eq_self.2 (by intro e he; simpa using hR e he),
    List.filter_eq_nil_iff.2 (by intro e he; simpa using hS e he), List.append_nil]

theorem gone_self (X : List (K × V)) : gone X X = [] := by
  have := gone_perm (X := X) (Y := X) (R := []) (S := X) (by simp) (by simp) (by simp)
  simpa using this

omit [DecidableEq K] [DecidableEq V] in
theorem notMem_abs {T : List (Entry K V)} {k : K} (h : ∀ t ∈ T, t.2.1 ≠ k) (v : V) : (k, v) ∉ abs T := by
  intro hm
  obtain ⟨t, ht, he⟩ := List.mem_map.1 hm
  exact h t ht (by rw [he])

theorem destroyed_map (p : Prog (State K V) ρ) (g : ρ → τ) (s : State K V) :
    destroyed (p >>= fun r => pure (g r)) s = destroyed p s := by
  induction p generalizing s with
  | ret r => rfl
  | throw => rfl
  | ub => rfl
  | step u n ih =>
    show lost s.map (u s).map ++ destroyed (n s >>= fun r => pure (g r)) (u s) = _
    rw [ih]; rfl

/-- What a call removes from the cache (`R`), adds to it (`N`) and leaves in it (`S`). -/
def Parts (c : Cache K V) (call : Call K V) (d : List V) : Prop :=
  ∃ R N S, c.items.Perm (R ++ S) ∧ (c.step call).1.items.Perm (N ++ S) ∧ d.Perm (R.map (·.2)) ∧
    (∀ e ∈ R, e ∉ N ++ S) ∧ ((∀ v ∈ offered call, v ∉ c.items.map (·.2)) → taken c call = N.map (·.2))

omit [DecidableEq V] in
theorem parts_same {c : Cache K V} {call : Call K V} {d : List V} (h1 : (c.step call).1.items = c.items) (h2 : d = [])
    (h3 : taken c call = []) : Parts c call d :=
  ⟨[], [], c.items, by simp, by simp [h1], by simp [h2], by simp, fun _ => by simp [h3]⟩

omit [DecidableEq V] in
theorem abs_split_notMem {s : State K V} {A B : List (Entry K V)} {i : Nat} {k : K} {v : V}
    (h : Rel s (A ++ (i, k, v) :: B)) (w : V) : (k, w) ∉ abs (A ++ B) :=
  notMem_abs (fun t ht he => h.others.1 (List.mem_map.2 ⟨t, ht, he⟩)) w

/-- Inserting an absent key. -/
theorem parts_insert {s : State K V} {T : List (Entry K V)} (h : Rel s T) (k : K) (v : V) (oa : Bool)
    (hf : mapFind s.map k = none) (hc : s.capacity ≠ 0) :
    ∃ R S, (abs T).Perm (R ++ S) ∧
      ((if T.length < s.capacity then (k, v) :: abs T else (k, v) :: (abs T).dropLast).Perm ([(k, v)] ++ S)) ∧
      (destroyed (insertImpl noFaults k v oa) s).Perm (R.map (·.2)) ∧ (∀ e ∈ R, e ∉ [(k, v)] ++ S) := by
  have hk := (h.find_none k).1 hf
  by_cases hl : T.length < s.capacity
  · refine ⟨[], abs T, by simp, by simp [hl], ?_, by simp⟩
    have hn : ¬ s.capacity ≤ T.length := by omega
    unfold insertImpl size
    simp [hf, hc, h.length, hn, listPushFront, listBegin]
  · have hle : s.capacity ≤ T.length := by omega
    have hne : T ≠ [] := by rintro rfl; simp at hle; omega
    obtain ⟨A, t, rfl⟩ : ∃ A t, T = A ++ [t] :=
      ⟨T.dropLast, T.getLast hne, (List.dropLast_append_getLast hne).symm⟩
    obtain ⟨s1, h1, h2, h3, _⟩ := run_evictLru noFaults h hne rfl
    refine ⟨[t.2], abs A, ?_, ?_, ?_, ?_⟩
    · simp [abs]
    · rw [if_neg hl]; simp [abs]
    · unfold insertImpl size
      simp only [orThrow_noFaults, destroyed_read_bind, hf, hc, ne_eq, not_false_eq_true, if_true, h.length, if_pos hle]
      rw [destroyed_bind h1, destroyed_evictLru h]
      simp [listPushFront, listBegin]
    · intro e he
      obtain rfl := List.mem_singleton.1 he
      obtain ⟨i, k', v'⟩ := t
      have h4 := hk (i, k', v') (by simp)
      have h5 := abs_split_notMem h v'
      simp only [List.append_nil] at h5
      simp only [List.cons_append, List.nil_append, List.mem_cons, not_or, Prod.mk.injEq, not_and]
      exact ⟨fun he => absurd he h4, h5⟩

omit [DecidableEq V] in
theorem rel_assign {s : State K V} {A B : List (Entry K V)} {i : Nat} {k : K} {v0 : V}
    (h : Rel s (A ++ (i, k, v0) :: B)) (v : V) :
    Rel { s with map := mapUpdate s.map k (fun e => (v, e.2)) } (A ++ (i, k, v) :: B) := by
  have hk := h.keys
  rw [List.map_append, List.map_cons, List.nodup_middle, List.nodup_cons, ← List.map_append] at hk
  refine ⟨?_, ?_, ?_, ?_, ?_⟩
  · simp [h.list]
  · unfold mapUpdate
    refine (h.map.map _).trans (List.Perm.of_eq ?_)
    rw [List.map_map, List.map_append, List.map_append, List.map_cons, List.map_cons]
    have e : ∀ t ∈ A ++ B, ((fun e : K × (V × Nat) => if e.1 = k then (e.1, (v, e.2.2)) else e) ∘
        fun t : Entry K V => (t.2.1, (t.2.2, t.1))) t = (t.2.1, (t.2.2, t.1)) := by
      intro t ht
      have : t.2.1 ≠ k := by
        rintro rfl; exact hk.1 (List.mem_map.2 ⟨t, ht, rfl⟩)
      simp [this]
    congr 1
    · exact List.map_congr_left fun t ht => e t (List.mem_append_left _ ht)
    · congr 1
      · simp
      · exact List.map_congr_left fun t ht => e t (List.mem_append_right _ ht)
  · simpa using h.ids
  · simpa using h.keys
  · intro t ht
    rcases List.mem_append.1 ht with ht | ht
    · exact h.fresh t (List.mem_append_left _ ht)
    · rcases List.mem_cons.1 ht with rfl | ht
      · exact h.fresh (i, k, v0) (by simp)
      · exact h.fresh t (List.mem_append_right _ (List.mem_cons_of_mem _ ht))

/-- The parts of every call. -/
theorem parts_step {s : State K V} {T : List (Entry K V)} (h : Rel s T) (c : Call K V) :
    Parts (view s T) c (destroyed (body noFaults c) s) := by
  have hlen : (abs T).length = T.length := by simp [abs]
  cases c with
  | size => exact parts_same rfl (by simp [body, size]) rfl
  | capacity => exact parts_same rfl (by simp [body, capacity]) rfl
  | empty => exact parts_same rfl (by simp [body, empty]) rfl
  | contains k => exact parts_same rfl (by simp [body, contains]) rfl
  | clear =>
    refine ⟨abs T, [], [], by simp [view], by simp [Cache.step], ?_, by simp, fun _ => rfl⟩
    have hd : destroyed (body noFaults (.clear : Call K V)) s = s.map.map (·.2.1) := by
      simp only [body]
      rw [destroyed_map]
      simp [clear]
    rw [hd]
    refine (h.map.map _).trans (List.Perm.of_eq ?_)
    simp [abs]
  | setCapacity n =>
    by_cases hn : n = 0
    · subst hn
      refine ⟨abs T, [], [], by simp [view], by simp [Cache.step], ?_, by simp, fun _ => rfl⟩
      have hd : destroyed (body noFaults (.setCapacity 0 : Call K V)) s = s.map.map (·.2.1) := by
        simp only [body]
        rw [destroyed_map]
        simp [setCapacity, clear]
      rw [hd]
      refine (h.map.map _).trans (List.Perm.of_eq ?_)
      simp [abs]
    · have hr : Rel { s with capacity := n } T := ⟨h.list, h.map, h.ids, h.keys, h.fresh⟩
      refine ⟨abs (T.drop n), [], abs (T.take n), ?_, ?_, ?_, ?_, fun _ => rfl⟩
      · have : abs T = abs (T.take n) ++ abs (T.drop n) := by
          unfold abs; rw [← List.map_append, List.take_append_drop]
        show (abs T).Perm _
        rw [this]; exact List.perm_append_comm
      · simp [Cache.step, view, abs, List.map_take]
      · have hd : destroyed (body noFaults (.setCapacity n : Call K V)) s
            = destroyed (shrink noFaults s.list.length) { s with capacity := n } := by
          simp only [body]
          rw [destroyed_map]
          simp [setCapacity, hn]
        rw [hd, destroyed_shrink _ hr (by rw [h.list]; simp)]
        refine (List.reverse_perm _).trans (List.Perm.of_eq ?_)
        simp [abs, Function.comp_def]
      · intro e he hm
        simp only [List.nil_append] at hm
        obtain ⟨t, ht, rfl⟩ := List.mem_map.1 he
        obtain ⟨u, hu, he⟩ := List.mem_map.1 hm
        have hd := h.keys
        rw [← List.take_append_drop n T, List.map_append, List.nodup_append] at hd
        exact hd.2.2 _ (List.mem_map.2 ⟨u, hu, rfl⟩) _ (List.mem_map.2 ⟨t, ht, rfl⟩) (by rw [he])
  | insert k v =>
    cases hf : mapFind s.map k with
    | some x =>
      have hL : ((view s T).lookup k).isSome := by simp [view, abs_lookup h, hf]
      refine parts_same (by simp [Cache.step, hL]) ?_ (by simp [taken, hL])
      simp only [body, insert]
      rw [destroyed_map]
      simp [insertImpl, hf]
    | none =>
      have hL : (view s T).lookup k = none := by simp [view, abs_lookup h, hf]
      by_cases hc : s.capacity = 0
      · refine parts_same ?_ ?_ ?_
        · simp only [Cache.step, hL, Option.isSome_none, Bool.false_eq_true, if_false]
          simp [view, hc]
        · simp only [body, insert]
          rw [destroyed_map]
          simp [insertImpl, hf, hc]
        · simp [taken, view, hc]
      · obtain ⟨R, S, h1, h2, h3, h4⟩ := parts_insert h k v false hf hc
        refine ⟨R, [(k, v)], S, h1, ?_, ?_, h4, ?_⟩
        · refine (List.Perm.of_eq ?_).trans h2
          simp only [Cache.step, hL, Option.isSome_none, Bool.false_eq_true, if_false]
          simp only [view, hlen, hc, if_false]
          split <;> rfl
        · simp only [body, insert]
          rw [destroyed_map]; exact h3
        · intro _; simp only [taken, hL]; simp [view, hc]
  | insertOrAssign k v =>
    cases hf : mapFind s.map k with
    | some x =>
      obtain ⟨v0, i⟩ := x
      obtain ⟨A, B, rfl, hk, _⟩ := h.split ((h.find_some k v0 i).1 hf)
      have hL : ((view s (A ++ (i, k, v0) :: B)).lookup k).isSome := by simp [view, abs_lookup h, hf]
      have hitems : ((view s (A ++ (i, k, v0) :: B)).step (.insertOrAssign k v)).1.items = (k, v) :: abs (A ++ B) := by
        simp only [Cache.step, hL, if_true, Cache.without]
        simp only [view, abs_without h.keys]
      have hperm : (abs (A ++ (i, k, v0) :: B)).Perm ((k, v0) :: abs (A ++ B)) := List.perm_middle.map _
      have hd : destroyed (body noFaults (.insertOrAssign k v)) s = [v0].filter (fun x => decide (x ≠ v)) := by
        simp only [body, insertOrAssign]
        rw [destroyed_map]
        unfold insertImpl
        simp only [orThrow_noFaults, destroyed_read_bind, hf, if_true, destroyed_modify_bind]
        rw [lost_assign, filter_key h]
        have hrel : Rel { s with map := mapUpdate s.map k (fun e => (v, e.2)) } (A ++ (i, k, v) :: B) := rel_assign h v
        rw [show (fun _ => pure false : Unit → Prog (State K V) Bool) = fun r => pure ((fun _ => false) r) from rfl,
          destroyed_map, destroyed_moveToFront hrel, List.append_nil]
      by_cases hv : v0 = v
      · subst hv
        refine ⟨[], [], (k, v0) :: abs (A ++ B), hperm, by rw [hitems]; simp, by rw [hd]; simp, by simp, ?_⟩
        intro hno
        exact absurd (by simp [view, abs]) (hno v0 (by simp [offered]))
      · refine ⟨[(k, v0)], [(k, v)], abs (A ++ B), hperm, by rw [hitems]; simp, by rw [hd]; simp [hv], ?_, ?_⟩
        · intro e he
          obtain rfl := List.mem_singleton.1 he
          have := abs_split_notMem h v0
          simp [hv, this]
        · intro _; simp [taken, hL]
    | none =>
      have hL : (view s T).lookup k = none := by simp [view, abs_lookup h, hf]
      by_cases hc : s.capacity = 0
      · refine parts_same ?_ ?_ ?_
        · simp only [Cache.step, hL, Option.isSome_none, Bool.false_eq_true, if_false]
          simp [view, hc]
        · simp only [body, insertOrAssign]
          rw [destroyed_map]
          simp [insertImpl, hf, hc]
        · simp only [taken, hL]; simp [view, hc]
      · obtain ⟨R, S, h1, h2, h3, h4⟩ := parts_insert h k v true hf hc
        refine ⟨R, [(k, v)], S, h1, ?_, ?_, h4, ?_⟩
        · refine (List.Perm.of_eq ?_).trans h2
          simp only [Cache.step, hL, Option.isSome_none, Bool.false_eq_true, if_false]
          simp only [view, hlen, hc, if_false]
          split <;> rfl
        · simp only [body, insertOrAssign]
          rw [destroyed_map]; exact h3
        · intro _; simp only [taken, hL]; simp [view, hc]
  | get k =>
    cases hf : mapFind s.map k with
    | none =>
      have hL : (view s T).lookup k = none := by simp [view, abs_lookup h, hf]
      refine parts_same (by simp [Cache.step, hL]) ?_ rfl
      simp only [body]
      rw [destroyed_map]
      simp [get, hf]
    | some x =>
      obtain ⟨v, i⟩ := x
      obtain ⟨A, B, rfl, hk, _⟩ := h.split ((h.find_some k v i).1 hf)
      have hL : (view s (A ++ (i, k, v) :: B)).lookup k = some v := by simp [view, abs_lookup h, hf]
      have hitems : ((view s (A ++ (i, k, v) :: B)).step (.get k)).1.items = (k, v) :: abs (A ++ B) := by
        simp only [Cache.step, hL, Cache.without]
        simp only [view, abs_without h.keys]
      have hperm : (abs (A ++ (i, k, v) :: B)).Perm ((k, v) :: abs (A ++ B)) := List.perm_middle.map _
      refine ⟨[], [], (k, v) :: abs (A ++ B), hperm, by rw [hitems]; simp, ?_, by simp, fun _ => rfl⟩
      have hd : destroyed (body noFaults (.get k : Call K V)) s = [] := by
        simp only [body]
        rw [destroyed_map]
        unfold get
        simp only [orThrow_noFaults, destroyed_read_bind, hf]
        show destroyed (moveToFront noFaults k >>= fun _ => pure (some v)) s = []
        rw [show (fun _ => pure (some v) : Unit → Prog (State K V) (Option V)) = fun r => pure ((fun _ => some v) r) from rfl,
          destroyed_map, destroyed_moveToFront h]
      rw [hd]; simp
  | remove k =>
    cases hf : mapFind s.map k with
    | none =>
      have hL : (view s T).lookup k = none := by simp [view, abs_lookup h, hf]
      refine parts_same (by simp [Cache.step, hL]) ?_ rfl
      simp only [body]
      rw [destroyed_map]
      simp [remove, hf]
    | some x =>
      obtain ⟨v, i⟩ := x
      obtain ⟨A, B, rfl, hk, _⟩ := h.split ((h.find_some k v i).1 hf)
      have hL : ((view s (A ++ (i, k, v) :: B)).lookup k).isSome := by simp [view, abs_lookup h, hf]
      have hitems : ((view s (A ++ (i, k, v) :: B)).step (.remove k)).1.items = abs (A ++ B) := by
        simp only [Cache.step, hL, if_true, Cache.without]
        simp only [view, abs_without h.keys]
      have hperm : (abs (A ++ (i, k, v) :: B)).Perm ((k, v) :: abs (A ++ B)) := List.perm_middle.map _
      refine ⟨[(k, v)], [], abs (A ++ B), hperm, by rw [hitems]; simp, ?_, ?_, fun _ => rfl⟩
      · have hd : destroyed (body noFaults (.remove k : Call K V)) s = [v] := by
          simp only [body]
          rw [destroyed_map]
          unfold remove
          simp only [orThrow_noFaults, destroyed_read_bind, hf]
          rw [destroyed_bind (run_listErase h.erase.1), destroyed_listErase]
          simp only [destroyed_modify_bind, destroyed_pure, List.nil_append, List.append_nil]
          rw [lost_erase]; exact filter_key h
        rw [hd]; simp
      · intro e he
        obtain rfl := List.mem_singleton.1 he
        simpa using abs_split_notMem h v

theorem parts_gone {c : Cache K V} {call : Call K V} {d : List V} (h : Parts c call d) :
    d.Perm (gone c.items (c.step call).1.items) := by
  obtain ⟨R, N, S, h1, h2, h3, h4, _⟩ := h
  refine h3.trans (gone_perm h1 ?_ ?_).symm
  · intro e he hm; exact h4 e he (h2.mem_iff.1 hm)
  · intro e he; exact h2.mem_iff.2 (List.mem_append_right _ he)

omit [DecidableEq V] in
theorem parts_balance {c : Cache K V} {call : Call K V} {d : List V} (h : Parts c call d)
    (ho : ∀ v ∈ offered call, v ∉ c.items.map (·.2)) :
    (d ++ (c.step call).1.items.map (·.2)).Perm (taken c call ++ c.items.map (·.2)) := by
  obtain ⟨R, N, S, h1, h2, h3, _, h5⟩ := h
  rw [h5 ho]
  refine (h3.append (h2.map _)).trans ?_
  refine List.Perm.trans ?_ ((List.Perm.refl _).append (h1.map _).symm)
  simp only [List.map_append, ← List.append_assoc]
  exact List.perm_append_comm.append_right _

omit [DecidableEq V] in
theorem taken_offered (c : Cache K V) (call : Call K V) : ∀ v ∈ taken c call, v ∈ offered call := by
  intro v hv
  cases call <;> simp only [taken, offered] at hv ⊢ <;> try exact hv
  · split at hv
    · cases hv
    · exact hv
  · split at hv
    · exact hv
    · split at hv
      · cases hv
      · exact hv

/-- Every value offered once: what has been destroyed and what is held are what has been taken. -/
theorem balance_all {s : State K V} {T : List (Entry K V)} (h : Rel s T) (cs : List (Call K V))
    (hnd : (cs.flatMap offered).Nodup) (hdis : ∀ v ∈ cs.flatMap offered, v ∉ (abs T).map (·.2)) :
    (destroyedAll cs s ++ (((view s T).steps cs).1.items).map (·.2)).Perm
      (takenAll (view s T) cs ++ (abs T).map (·.2)) := by
  induction cs generalizing s T with
  | nil => simp [destroyedAll, takenAll, Cache.steps, view]
  | cons c cs ih =>
    obtain ⟨s1, T1, h1, h2, h3⟩ := step_sim h c
    have hb := parts_balance (parts_step h c) (fun v hv => hdis v (by simp [hv]))
    rw [List.flatMap_cons, List.nodup_append] at hnd
    have hitems : abs T1 = ((view s T).step c).1.items := by rw [← h3]; rfl
    have := ih h2 hnd.2.1 (by
      intro v hv hm
      rw [hitems] at hm
      have hm' := hb.mem_iff.1 (List.mem_append_right _ hm)
      rcases List.mem_append.1 hm' with hm' | hm'
      · exact hnd.2.2 v (taken_offered _ _ v hm') v hv rfl
      · exact hdis v (by rw [List.flatMap_cons]; exact List.mem_append_right _ hv) hm')
    rw [h3, hitems] at this
    simp only [destroyedAll, h1, takenAll, Cache.steps]
    rw [List.append_assoc]
    refine ((List.Perm.refl _).append this).trans ?_
    rw [← List.append_assoc]
    refine (List.perm_append_comm.append_right _).trans ?_
    rw [List.append_assoc]
    refine ((List.Perm.refl _).append hb).trans ?_
    rw [← List.append_assoc]
    exact List.perm_append_comm.append_right _

end Pluto.Lru
