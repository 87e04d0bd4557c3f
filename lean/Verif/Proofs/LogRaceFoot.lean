import Verif.Spec.LogRace

/-! # The accesses that are listed are those that a step makes -/

namespace Pluto.LogRace

theorem upd_eq_or {α : Type} (g : File → Nat → α) (f : File) (n : Nat) (v : α) (f' : File) (n' : Nat) :
    g f' n' = upd g f n v f' n' ∨ (f' = f ∧ n' = n) := by
  unfold upd
  by_cases e : f' = f ∧ n' = n
  · exact .inr e
  · rw [if_neg e]; exact .inl rfl

/-- Nothing in memory changes. -/
theorem agree_of {s t : Shared} (h1 : t.files = s.files) (h2 : t.next = s.next) (h3 : t.prev = s.prev) (h4 : t.val = s.val) (l : Loc) :
    Agree s t l := by
  cases l <;> simp only [Agree, h1, h2, h3, h4]

theorem foot_writes {s s' : Shared} {i : Nat} {c : Choice} {st st' : List Frame} (hg : go s i c st = some (s', st')) (l : Loc) :
    Agree s s' l ∨ (l, true) ∈ accesses s st := by
  cases st with
  | nil => cases hg
  | cons fr k =>
    have hin : ∀ {l}, (l, true) ∈ frameAccesses s fr → (l, true) ∈ accesses s (fr :: k) := fun h => List.mem_append_left _ h
    cases fr with
    | user =>
      simp only [go] at hg
      cases c <;> (cases hg; exact .inl (agree_of rfl rfl rfl rfl l))
    | maker => cases hg; exact .inl (agree_of rfl rfl rfl rfl l)
    | cfg w a pc =>
      simp only [go] at hg
      cases pc <;> simp only [goCfg] at hg <;> first
        | (cases hg; exact .inl (agree_of rfl rfl rfl rfl l))
        | (split at hg <;> cases hg; exact .inl (agree_of rfl rfl rfl rfl l))
    | put f b it pc =>
      simp only [go] at hg
      cases pc <;> simp only [goPut] at hg <;> (cases hg; exact .inl (agree_of rfl rfl rfl rfl l))
    | dtor pc =>
      simp only [go] at hg
      cases pc with
      | scan rest => cases rest <;> (simp only [goDtor] at hg; cases hg; exact .inl (agree_of rfl rfl rfl rfl l))
      | join => simp only [goDtor] at hg; split at hg <;> cases hg; exact .inl (agree_of rfl rfl rfl rfl l)
      | stop | list | check | begin => simp only [goDtor] at hg; cases hg; exact .inl (agree_of rfl rfl rfl rfl l)
    | loop pc =>
      simp only [go] at hg
      cases pc <;> simp only [goLoop] at hg
      case unhook1 f it nx =>
        cases hg
        cases l <;> first | exact .inl rfl | exact .inl trivial | skip
        rename_i f' n'
        rcases upd_eq_or s.next f (s.prev f it) nx f' n' with e | ⟨rfl, rfl⟩
        · exact .inl e
        · exact .inr (hin (by simp [frameAccesses]))
      case unhook2 f it nx p =>
        cases hg
        cases l <;> first | exact .inl rfl | exact .inl trivial | skip
        rename_i f' n'
        rcases upd_eq_or s.prev f nx p f' n' with e | ⟨rfl, rfl⟩
        · exact .inl e
        · exact .inr (hin (by simp [frameAccesses]))
      case free f it nx =>
        cases hg
        cases l <;> first | exact .inl rfl | exact .inl trivial | skip
        rename_i f' n'
        rcases upd_eq_or s.val f it none f' n' with e | ⟨rfl, rfl⟩
        · exact .inl e
        · exact .inr (hin (by simp [frameAccesses]))
      case scan =>
        cases c <;> simp only at hg <;> first
          | (cases hg; exact .inl (agree_of rfl rfl rfl rfl l))
          | (split at hg <;> cases hg; exact .inl (agree_of rfl rfl rfl rfl l))
      all_goals first
        | (cases hg; done)
        | (cases hg; exact .inl (agree_of rfl rfl rfl rfl l))
        | (split at hg <;> cases hg; exact .inl (agree_of rfl rfl rfl rfl l))
    | add f e pc =>
      simp only [go] at hg
      cases pc <;> simp only [goAdd] at hg
      case insert =>
        cases hg
        cases l <;> first | exact .inl rfl | exact .inl trivial | skip
        · exact .inr (hin (by simp [frameAccesses]))
        · rename_i f' n'
          rcases upd_eq_or s.next f 0 0 f' n' with e | ⟨rfl, rfl⟩
          · exact .inl e
          · exact .inr (hin (by simp [frameAccesses]))
        · rename_i f' n'
          rcases upd_eq_or s.prev f 0 0 f' n' with e | ⟨rfl, rfl⟩
          · exact .inl e
          · exact .inr (hin (by simp [frameAccesses]))
      case node b =>
        cases hg
        cases l <;> first | exact .inl rfl | exact .inl trivial | skip
        rename_i f' n'
        rcases upd_eq_or s.val f s.fresh (some e) f' n' with e | ⟨rfl, rfl⟩
        · exact .inl e
        · exact .inr (hin (by simp [frameAccesses]))
      case link b n =>
        cases hg
        cases l <;> first | exact .inl rfl | exact .inl trivial | skip
        · rename_i f' n'
          rcases upd_eq_or s.next f n b f' n' with e | ⟨rfl, rfl⟩
          · exact .inl e
          · exact .inr (hin (by simp [frameAccesses]))
        · rename_i f' n'
          rcases upd_eq_or s.prev f n (s.prev f b) f' n' with e | ⟨rfl, rfl⟩
          · exact .inl e
          · exact .inr (hin (by simp [frameAccesses]))
      case hook1 b n p =>
        cases hg
        cases l <;> first | exact .inl rfl | exact .inl trivial | skip
        rename_i f' n'
        rcases upd_eq_or s.next f p n f' n' with e | ⟨rfl, rfl⟩
        · exact .inl e
        · exact .inr (hin (by simp [frameAccesses]))
      case hook2 b n =>
        cases hg
        cases l <;> first | exact .inl rfl | exact .inl trivial | skip
        rename_i f' n'
        rcases upd_eq_or s.prev f b n f' n' with e | ⟨rfl, rfl⟩
        · exact .inl e
        · exact .inr (hin (by simp [frameAccesses]))
      all_goals first
        | (cases hg; exact .inl (agree_of rfl rfl rfl rfl l))
        | (split at hg <;> cases hg; exact .inl (agree_of rfl rfl rfl rfl l))

section
variable {s t s' t' : Shared} {i : Nat} {c : Choice} {st st' : List Frame}

theorem same_none (h1 : go s i c st = none) (h2 : go t i c st = none) : SameStep i c s t st := by
  unfold SameStep
  rw [h1, h2]
  trivial

theorem same_some (h1 : go s i c st = some (s', st')) (h2 : go t i c st = some (t', st')) (h3 : SameSync s' t')
    (h4 : ∀ l, (l, true) ∈ accesses s st → Agree s' t' l) : SameStep i c s t st := by
  unfold SameStep
  rw [h1, h2]
  exact ⟨rfl, h3, h4⟩

theorem agree_upd {g g' : File → Nat → α} {f : File} {n : Nat} {v : α} {f' : File} {n' : Nat} (h : g f' n' = g' f' n') :
    upd g f n v f' n' = upd g' f n v f' n' := by
  unfold upd
  split
  · rfl
  · exact h

theorem foot_reads (hs : SameSync s t) (ha : ∀ l w, (l, w) ∈ accesses s st → Agree s t l) : SameStep i c s t st := by
  obtain ⟨h1, h2, h3, h4, h5, h6, h7⟩ := hs
  have ht : ∀ l, (l, true) ∈ accesses s st → Agree s t l := fun l hl => ha l _ hl
  cases st with
  | nil => exact same_none rfl rfl
  | cons fr k =>
    have hin : ∀ {l} w, (l, w) ∈ frameAccesses s fr → Agree s t l := fun w h => ha _ w (List.mem_append_left _ h)
    cases fr with
    | user => cases c <;> exact same_some rfl rfl ⟨h1, h2, h3, h4, h5, h6, h7⟩ ht
    | maker => exact same_some rfl rfl ⟨h1, h2, h3, h4, h5, h6, h7⟩ ht
    | cfg w a pc =>
      cases pc with
      | lock =>
        by_cases e : s.cfg = none
        · exact same_some (if_pos e) (if_pos (h2 ▸ e)) ⟨h1, rfl, h3, h4, h5, h6, h7⟩ ht
        · exact same_none (if_neg e) (if_neg (h2 ▸ e))
      | use => exact same_some rfl rfl ⟨h1, h2, h3, h4, h5, h6, h7⟩ ht
      | unlock => exact same_some rfl rfl ⟨h1, rfl, h3, h4, h5, h6, h7⟩ ht
    | put f b it pc =>
      cases pc
      case back =>
        have e : s.prev f it = t.prev f it := hin (l := .prev f it) false (by simp [frameAccesses])
        exact same_some rfl (by simp only [go, goPut, e]) ⟨h1, h2, h3, h4, h5, h6, h7⟩ ht
      case give =>
        have e : s.val f it = t.val f it := hin (l := .val f it) false (by simp [frameAccesses])
        exact same_some rfl rfl ⟨h1, h2, h3, h4, h5, h6, by simp only [h7, e]⟩ ht
      all_goals exact same_some rfl rfl ⟨h1, h2, h3, h4, h5, h6, h7⟩ ht
    | dtor pc =>
      cases pc with
      | stop => exact same_some rfl rfl ⟨h1, h2, rfl, h4, h5, h6, h7⟩ ht
      | join =>
        by_cases e : s.ended = true
        · exact same_some (if_pos e) (if_pos (h4 ▸ e)) ⟨h1, h2, h3, h4, h5, h6, h7⟩ ht
        · exact same_none (if_neg e) (if_neg (h4 ▸ e))
      | list =>
        have e : s.files = t.files := hin (l := .map) false (by simp [frameAccesses])
        exact same_some rfl (by simp only [go, goDtor, e]) ⟨h1, h2, h3, h4, h5, h6, h7⟩ ht
      | scan rest => cases rest <;> exact same_some rfl rfl ⟨h1, h2, h3, h4, h5, h6, h7⟩ ht
      | check f rest =>
        have e : s.next f 0 = t.next f 0 := hin (l := .next f 0) false (by simp [frameAccesses])
        exact same_some rfl (by simp only [go, goDtor, e]) ⟨h1, h2, h3, h4, h5, h6, h7⟩ ht
      | begin f rest =>
        have e : s.next f 0 = t.next f 0 := hin (l := .next f 0) false (by simp [frameAccesses])
        exact same_some rfl (by simp only [go, goDtor, e]) ⟨h1, h2, h3, h4, h5, h6, h7⟩ ht
    | loop pc =>
      have lockc : ∀ {a b}, (∀ s : Shared, go s i c (.loop a :: k) = if s.log = none then some ({ s with log := some i }, .loop b :: k) else none) →
          (∀ l, (l, true) ∈ accesses s (.loop a :: k) → Agree s t l) → SameStep i c s t (.loop a :: k) := by
        intro a b hab ht
        by_cases e : s.log = none
        · exact same_some ((hab s).trans (if_pos e)) ((hab t).trans (if_pos (h1 ▸ e))) ⟨rfl, h2, h3, h4, h5, h6, h7⟩ ht
        · exact same_none ((hab s).trans (if_neg e)) ((hab t).trans (if_neg (h1 ▸ e)))
      cases pc with
      | lock | wake | relock => exact lockc (fun _ => rfl) ht
      | test => exact same_some rfl (by simp only [go, goLoop, h3]) ⟨h1, h2, h3, h4, h5, h6, h7⟩ ht
      | wait | unlock => exact same_some rfl rfl ⟨rfl, h2, h3, h4, h5, h6, h7⟩ ht
      | scan =>
        have e : s.files = t.files := hin (l := .map) false (by simp [frameAccesses])
        cases c with
        | file f =>
          by_cases hf : f ∈ s.files
          · exact same_some (if_pos hf) (if_pos (e ▸ hf)) ⟨h1, h2, h3, h4, h5, h6, h7⟩ ht
          · exact same_none (if_neg hf) (if_neg (e ▸ hf))
        | _ => exact same_some rfl rfl ⟨h1, h2, h3, h4, h5, h6, h7⟩ ht
      | check f =>
        have e : s.next f 0 = t.next f 0 := hin (l := .next f 0) false (by simp [frameAccesses])
        exact same_some rfl (by simp only [go, goLoop, e]) ⟨h1, h2, h3, h4, h5, h6, h7⟩ ht
      | begin f =>
        have e : s.next f 0 = t.next f 0 := hin (l := .next f 0) false (by simp [frameAccesses])
        exact same_some rfl (by simp only [go, goLoop, e]) ⟨h1, h2, h3, h4, h5, h6, h7⟩ ht
      | await => exact same_none rfl rfl
      | erase f it =>
        by_cases hz : it = 0
        · subst hz
          exact same_some rfl rfl ⟨h1, h2, h3, h4, h5, h6, h7⟩ ht
        · have e : s.next f it = t.next f it := hin (l := .next f it) false (by simp [frameAccesses, hz])
          exact same_some rfl (by simp only [go, goLoop, e]) ⟨h1, h2, h3, h4, h5, h6, h7⟩ ht
      | unhook1 f it nx =>
        have e : s.prev f it = t.prev f it := hin (l := .prev f it) false (by simp [frameAccesses])
        refine same_some (t' := { t with next := upd t.next f (s.prev f it) nx }) rfl (by simp only [go, goLoop, e]) ⟨h1, h2, h3, h4, h5, h6, h7⟩ ?_
        intro l hl
        have := ht l hl
        cases l <;> first | exact this | exact agree_upd this
      | unhook2 f it nx p =>
        refine same_some rfl rfl ⟨h1, h2, h3, h4, h5, h6, h7⟩ ?_
        intro l hl
        have := ht l hl
        cases l <;> first | exact this | exact agree_upd this
      | free f it nx =>
        refine same_some rfl rfl ⟨h1, h2, h3, h4, h5, h6, h7⟩ ?_
        intro l hl
        have := ht l hl
        cases l <;> first | exact this | exact agree_upd this
      | unlockEnd => exact same_some rfl rfl ⟨rfl, h2, h3, rfl, h5, h6, h7⟩ ht
    | add f e pc =>
      cases pc with
      | test => exact same_some rfl (by simp only [go, goAdd, h3]) ⟨h1, h2, h3, h4, h5, h6, h7⟩ ht
      | lock =>
        by_cases e : s.log = none
        · exact same_some (if_pos e) (if_pos (h1 ▸ e)) ⟨rfl, h2, h3, h4, h5, h6, h7⟩ ht
        · exact same_none (if_neg e) (if_neg (h1 ▸ e))
      | find =>
        have e : s.files = t.files := hin (l := .map) false (by simp [frameAccesses])
        exact same_some rfl (by simp only [go, goAdd, e]) ⟨h1, h2, h3, h4, h5, h6, h7⟩ ht
      | insert =>
        have e : s.files = t.files := hin (l := .map) true (by simp [frameAccesses])
        refine same_some rfl rfl ⟨h1, h2, h3, h4, h5, h6, h7⟩ ?_
        intro l hl
        have := ht l hl
        cases l <;> first | exact this | exact agree_upd this | (show s.files ++ [f] = t.files ++ [f]; rw [e])
      | full | grow | flush => exact same_some rfl rfl ⟨h1, h2, h3, h4, h5, h6, h7⟩ ht
      | begin =>
        have e : s.next f 0 = t.next f 0 := hin (l := .next f 0) false (by simp [frameAccesses])
        exact same_some rfl (by simp only [go, goAdd, e]) ⟨h1, h2, h3, h4, h5, h6, h7⟩ ht
      | node b =>
        refine same_some (t' := { t with val := upd t.val f s.fresh (some e), fresh := s.fresh + 1 }) rfl (by simp only [go, goAdd, h5])
          ⟨h1, h2, h3, h4, rfl, h6, h7⟩ ?_
        intro l hl
        have := ht l hl
        cases l <;> first | exact this | exact agree_upd this
      | link b n =>
        have e1 : s.prev f b = t.prev f b := hin (l := .prev f b) false (by simp [frameAccesses])
        refine same_some (t' := { t with next := upd t.next f n b, prev := upd t.prev f n (s.prev f b), added := app t.added f [e] }) rfl
          (by simp only [go, goAdd, e1]) ⟨h1, h2, h3, h4, h5, by simp only [h6], h7⟩ ?_
        intro l hl
        have := ht l hl
        cases l <;> first | exact this | exact agree_upd this
      | hook1 b n p =>
        refine same_some rfl rfl ⟨h1, h2, h3, h4, h5, h6, h7⟩ ?_
        intro l hl
        have := ht l hl
        cases l <;> first | exact this | exact agree_upd this
      | hook2 b n =>
        refine same_some rfl rfl ⟨h1, h2, h3, h4, h5, h6, h7⟩ ?_
        intro l hl
        have := ht l hl
        cases l <;> first | exact this | exact agree_upd this
      | unlock => exact same_some rfl rfl ⟨rfl, h2, h3, h4, h5, h6, h7⟩ ht
end

end Pluto.LogRace
